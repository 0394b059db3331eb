import Verif.Model.Web

/-!
# External commands: src/util/cmd.go and src/image/image.go
-/

namespace Verif.Model

open Verif.Go Web

/-- `InputPlaceholder`, `OutputPlaceholder`, src/config/config.go:32-33. -/
def inputPlaceholder : Str := b!"{INPUT}"
def outputPlaceholder : Str := b!"{OUTPUT}"

/-- The command line of `ConvertToPng`, src/image/image.go:37-38, and (with input = output) of
`ResizeAndCompressImage`, lines 27-28. -/
def commandLine (template input output : Str) : Str :=
  replaceAll (replaceAll template inputPlaceholder input) outputPlaceholder output

/-- The argument vector of `ExecuteCommandWithArgs`, src/util/cmd.go:12-18: split at every space. -/
def commandArgs (commandString : Str) : List Str := split commandString b!" "

/-- `Execute`, src/util/cmd.go:20-35. The external program may write its output file, nothing else. -/
def execute (args : List Str) (workDir output : Str) : Web Unit := fun e w =>
  let r := e.command args w.fs
  let fs := match r.output with
    | some c => w.fs.put output ⟨c, e.clock w.ops⟩
    | none => w.fs
  (if r.ok then .ok () else .err, { w with fs := fs, events := w.events ++ [.command args workDir] })

/-- `ConvertToPng`, src/image/image.go:34-42. -/
def convertToPng (input png template : Str) : Web Unit :=
  execute (commandArgs (commandLine template input png)) b!"." png

/-- `ResizeAndCompressImage`, src/image/image.go:24-32. -/
def resizeAndCompressImage (cacheDir image template : Str) : Web Unit :=
  execute (commandArgs (commandLine template image image)) cacheDir image

end Verif.Model
