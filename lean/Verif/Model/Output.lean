import Verif.Model.Config

/-!
# The output file: src/main.go

Choice and creation of the output file. Modelled are files and folders; not modelled: permissions, symbolic links (so that
`a/..` is the folder of `a`, even if there is no `a`). The folders of the cache, which `ensurePathsAndClearTempDir`
creates as well (lines 534-542), are in Model/Standalone.lean.
-/

namespace Verif.Model
open Verif.Go

/-- What there is at a path. -/
inductive NodeKind where
  | file
  | folder
  deriving DecidableEq, Repr

/-- The files and folders, by the elements of their paths from the root. -/
abbrev Disk := List Str → Option NodeKind

/-- The elements of a path from the root, for a process in the folder `cwd`. -/
def place (cwd p : Str) : List Str := cleanElems (abs cwd p)

/-- `os.Stat`: nothing for the empty path and for a file with a slash behind its name. -/
def statKind (d : Disk) (cwd p : Str) : Option NodeKind :=
  if p = [] then none
  else
    match d (place cwd p) with
    | some .file => if hasSuffix p b!"/" then none else some .file
    | r => r

/-- `os.MkdirAll`: all missing folders are created; an error (`none`) if one of the elements is a file. -/
def mkdirAll (d : Disk) (cwd p : Str) : Option Disk :=
  if (List.range ((place cwd p).length + 1)).any fun n => d ((place cwd p).take n) = some .file then none
  else some fun q => if hasPrefix (place cwd p) q then some .folder else d q

/-- `os.Create`: an error (`none`) for the empty path, for a path that ends with a slash, for a folder, and if the folder of the
file does not exist. -/
def createFile (d : Disk) (cwd p : Str) : Option Disk :=
  if p = [] then none
  else if hasSuffix p b!"/" then none
  else if d (place cwd p) = some .folder then none
  else if d (place cwd p).dropLast ≠ some .folder then none
  else some fun q => if q = place cwd p then some .file else d q

/-- The constants of src/main.go:26-29. -/
def defaultEpubOutputFile : Str := b!"ebook.epub"
def defaultStatsJsonOutputFile : Str := b!"stats.json"
def defaultStatsTxtOutputFile : Str := b!"stats.txt"

/-- src/main.go:517-532: the default name within a folder, then the absolute path. -/
def finishOutput (outputType cwd outputFile : Str) (kind : NodeKind) : Str :=
  let outputFile :=
    if kind = .folder then
      if outputType = b!"epub2" then pathJoin [outputFile, defaultEpubOutputFile]
      else if outputType = b!"epub3" then pathJoin [outputFile, defaultEpubOutputFile]
      else if outputType = b!"stats-json" then pathJoin [outputFile, defaultStatsJsonOutputFile]
      else if outputType = b!"stats-txt" then pathJoin [outputFile, defaultStatsTxtOutputFile]
      else outputFile
    else outputFile
  toAbsolutePath cwd outputFile

/-- `ensurePathsAndClearTempDir`, src/main.go:487-545: the path of the output file, and the files and folders afterwards (also
if the program ends with an error). -/
def ensureOutput (outputType cwd outputFile : Str) (d : Disk) : Res Str × Disk :=
  let outputFile :=
    if outputType = b!"stats-json" ∧ ¬ hasSuffix outputFile b!"json" then toAbsolutePath cwd defaultStatsJsonOutputFile
    else outputFile
  let outputFile :=
    if outputType = b!"stats-txt" ∧ ¬ hasSuffix outputFile b!"txt" then toAbsolutePath cwd defaultStatsTxtOutputFile
    else outputFile
  match statKind d cwd outputFile with
  | none =>
    match mkdirAll d cwd (dir outputFile) with
    | none => (.fatal, d)
    | some d =>
      match createFile d cwd outputFile with
      | none => (.fatal, d)
      | some d => (.ok (finishOutput outputType cwd outputFile .file), d)
  | some kind => (.ok (finishOutput outputType cwd outputFile kind), d)

/-- The value of the flag `output` after `initialize`, src/main.go:77, 217-220; `none`: the flag is not given. -/
def outputFlag (cwd : Str) (flag : Option Str) : Str := toAbsolutePath cwd (flag.getD defaultEpubOutputFile)

/-- The output file of the commands "article" and "standalone", src/main.go:133-152, 269, 323, 337. -/
def articleOutput (outputType cwd : Str) (flag : Option Str) (d : Disk) : Res Str × Disk :=
  ensureOutput outputType cwd (outputFlag cwd flag) d

/-- The output file of the command "project", src/main.go:120-130, 233-251, 337. `setting` is the value of `output-file` in the
project file, or empty. -/
def projectOutput (outputType cwd projectFile : Str) (flag : Option Str) (setting : Str) (d : Disk) : Res Str × Disk :=
  let cliOutputFile := match flag with
    | none => []
    | some _ => outputFlag cwd flag
  let cwd := projectCwd cwd projectFile
  let outputFile := if cliOutputFile ≠ [] then cliOutputFile else setting
  ensureOutput outputType cwd (toAbsolutePath cwd outputFile) d

end Verif.Model
