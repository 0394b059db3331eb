import Verif.Model.Output
import Verif.Model.Book
import Verif.Model.ProcessArticle

/-!
# The command "standalone" and the files of the settings: src/main.go, lines 260-316 and 534-542

A disk (`Disk`) has the files and folders when the program is started, the file system of a run (`World`) has the contents of the files of
the cache. Simplified: whether there is an HTML file in the folder `html` of the working directory is looked up when the program starts, so
that a cache in the working directory from which the eviction removes this file in the meantime is not modelled.
-/

namespace Verif.Model
open Verif.Go

/-! ### The files of the settings -/

/-- `PathExists`, src/util/files.go:96-101. -/
def existsOnDisk (d : Disk) (cwd p : Str) : Bool := ¬ (trimSpace p ≠ [] ∧ statKind d cwd p = none)

/-- `AssertFilesAndPathsExists`, src/config/config.go:693-701, with `AssertPathExists`, src/util/files.go:90-94. -/
def assertFilesAndPathsExist (c : Config) (cwd : Str) (d : Disk) : Res Unit :=
  if ¬ existsOnDisk d cwd (c.str .cacheDir) then .fatal
  else if ¬ existsOnDisk d cwd (c.str .styleFile) then .fatal
  else if ¬ existsOnDisk d cwd (c.str .coverImage) then .fatal
  else if ¬ existsOnDisk d cwd (c.str .pandocDataDir) then .fatal
  else if ¬ (c.list .fontFiles).all (existsOnDisk d cwd) then .fatal
  else .ok ()

/-- `os.RemoveAll`, which is taken to succeed. -/
def removeTree (d : Disk) (cwd p : Str) : Disk := fun q => if hasPrefix q (place cwd p) then none else d q

/-- `EnsureDirectory` for several folders, src/util/files.go:103-112; `none`: an error, which ends the program. -/
def ensureDirectories (cwd : Str) : List Str → Disk → Option Disk
  | [], d => some d
  | p :: ps, d =>
    match if existsOnDisk d cwd p then some d else mkdirAll d cwd p with
    | none => none
    | some d => ensureDirectories cwd ps d

/-- The names of the folders of the cache, src/cache/cache.go:19-29, in the order of src/main.go:537-542. -/
def cacheFolderNames : List Str := [b!".tmp", b!"articles", b!"html", b!"images", b!"math", b!"templates"]

/-- `ensurePathsAndClearTempDir`, src/main.go:487-545: the output file, then the folders of the cache. -/
def ensurePaths (c : Config) (cwd outputFile : Str) (d : Disk) : Res Str × Disk :=
  match ensureOutput (c.str .outputType) cwd outputFile d with
  | (.ok out, d) =>
    match ensureDirectories cwd (cacheFolderNames.map fun f => pathJoin [c.str .cacheDir, f])
        (removeTree d cwd (pathJoin [c.str .cacheDir, b!".tmp"])) with
    | none => (.fatal, d)
    | some d => (.ok out, d)
  | r => r

/-- The beginning of `generateStandaloneEbook` and of `generateBookFromArticles`, src/main.go:269-272 and 337-340: the path of the output
file. -/
def prepare (c : Config) (cwd outputFile : Str) (d : Disk) : Res Str × Disk :=
  match ensurePaths c cwd outputFile d with
  | (.ok out, d) =>
    match assertFilesAndPathsExist c cwd d with
    | .ok _ => (.ok out, d)
    | _ => (.fatal, d)
  | r => r

/-- A part of the program that starts after the preparation. -/
def Run.prepared {α : Type} (p : Res Str × Disk) (rest : (out : Str) → Disk → Run α) : Run α :=
  match p with
  | (.ok out, d) => rest out d
  | _ => Run.pureResult (some .fatal)

/-! ### A single file -/

/-- The title for a file, src/main.go:266-267: the file name up to the first dot. -/
def standaloneTitle (inputFile : Str) : Str := ((split (inputFile.drop (splitDir inputFile).length) b!".").head?).getD []

/-- The text of the HTML file, src/main.go:284-301 with src/generator/html.go:100-118. -/
def standalonePage (env : ParserEnv) (c : WikiConf) (decode : Str → Option SvgAttributes) (cacheDir : Str)
    (iterate : Nat → List (Str × Str) → List (Str × Str)) (fuel : Nat) (style title content : Str) (recreate : Bool) : Run (Option Str) := do
  let (text, s) ← tokenizeRun env c iterate fuel content
  Run.call (downloadImages c cacheDir s.images)
  if recreate then do
    let body ← expandStringRun decode c cacheDir s.tokenMap fuel text
    pure (some (htmlHeader style ++ b!"\n<h1>" ++ title ++ b!"</h1>\n" ++ body ++ htmlFooter))
  else pure none

/-- The path of the HTML file in which the program looks for an earlier page, src/main.go:292: it is relative to the working directory. -/
def earlierPage (title : Str) : Str := pathJoin [htmlDirName, htmlFileName title]

/-- `shouldRecreateHtml`, src/main.go:473-483. -/
def recreates (cfg : Config) (cwd : Str) (d : Disk) (path : Str) : Bool :=
  cfg.bool .forceRegenerateHtml || cfg.str .outputType = b!"stats-json" || cfg.str .outputType = b!"stats-txt" ||
    (statKind d cwd path).isNone

/-- `write`, src/generator/html.go:412-421: the page is put into the folder `html` of the cache. -/
def writeHtml (title page : Str) : Web Str :=
  Web.files fun env now rnd => cacheToFile env htmlDirName (htmlFileName title) ⟨page, true⟩ rnd now

/-- The path of the HTML file for the e-book, src/main.go:284-301. -/
def standaloneHtml (env : ParserEnv) (c : WikiConf) (decode : Str → Option SvgAttributes) (cfg : Config)
    (iterate : Nat → List (Str × Str) → List (Str × Str)) (fuel : Nat) (title content : Str) (recreate : Bool) : Run Str := do
  let page ← standalonePage env c decode (cfg.str .cacheDir) iterate fuel
    (toRelativePathWithBasedir (cfg.str .cacheDir) (cfg.str .styleFile)) title content recreate
  match page with
  | some page => Run.call (writeHtml title page)
  | none => pure (earlierPage title)

/-- `GenerateEpub` in a run. `outside`: contents of the files that are not in the cache. -/
def bookOf (cfg : Config) (outside : Str → Option Str) (succeeds : List EpubCall → EpubCall → Bool) (file out title : Str) : Run EpubAction :=
  fun _ w => some (Web.ofRes (generateEpub ⟨fun p => ((w.fs.get p).map File.content).or (outside p), succeeds⟩ cfg [file] out
    ⟨title, [], [], [], []⟩), w)

/-- `generateStandaloneEbook`, src/main.go:260-316, up to the call for the e-book. All errors end the program. -/
def standaloneRun (env : ParserEnv) (c : WikiConf) (decode : Str → Option SvgAttributes) (cfg : Config)
    (iterate : Nat → List (Str × Str) → List (Str × Str)) (fuel : Nat) (outside : Str → Option Str)
    (succeeds : List EpubCall → EpubCall → Bool) (cwd inputFile : Str) (flag : Option Str) (d : Disk) : Run EpubAction :=
  match outside inputFile with
  | none => Run.pureResult (some .fatal)
  | some content =>
    Run.prepared (prepare cfg cwd (outputFlag cwd flag) d) fun out d => do
      let title := standaloneTitle inputFile
      let file ← standaloneHtml env c decode cfg iterate fuel title content (recreates cfg cwd d (earlierPage title))
      bookOf cfg outside succeeds file out title

end Verif.Model
