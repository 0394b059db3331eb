import Verif.Model.Wikipedia

/-!
# Image paths in the HTML: src/generator/html.go, lines 187-199 and 422-428
-/

namespace Verif.Model

open Verif.Go

/-- `filenameToImagePath`, src/generator/html.go:187-199. The `Requiref` checks in `GetPngPathForPdf` and
`GetPngPathForSvg` (src/util/files.go:114-123) repeat the condition. -/
def filenameToImagePath (c : WikiConf) (filename : Str) : Str :=
  let filePath := getRelativeFilePathInCache imageFolder filename
  if c.commandPdfToPng ≠ [] ∧ extLower filePath = b!".pdf" then pngPath filePath
  else if c.commandSvgToPng ≠ [] ∧ extLower filePath = b!".svg" then pngPath filePath
  else if c.commandWebpToPng ≠ [] ∧ extLower filePath = b!".webp" then pngPath filePath
  else filePath

/-- `escapePathComponents`, src/generator/html.go:422-428. -/
def escapePathComponents (path : Str) : Str := join b!"/" ((split path b!"/").map queryEscape)

end Verif.Model
