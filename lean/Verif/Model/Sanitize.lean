import Verif.Go.Strings

/-!
# src/util/files.go, lines 137-230: file name sanitising

`runtime.GOOS == "windows"` (lines 191-195) is not modelled: the model is the non-Windows build where
`filepath.Separator` is `/`.
-/

namespace Verif.Model

open Verif.Go

/-- `SanitizeFilename`, src/util/files.go:141-170: ten replacements one after the other, `%` first. -/
def sanitizeFilename (filename : Str) : Str :=
  let filename := replaceAll filename b!"%" b!"%25"
  let filename := replaceAll filename b!"<" b!"%3C"
  let filename := replaceAll filename b!">" b!"%3E"
  let filename := replaceAll filename b!":" b!"%3A"
  let filename := replaceAll filename b!"\"" b!"%22"
  let filename := replaceAll filename b!"/" b!"%2F"
  let filename := replaceAll filename b!"\\" b!"%5C"
  let filename := replaceAll filename b!"|" b!"%7C"
  let filename := replaceAll filename b!"?" b!"%3F"
  let filename := replaceAll filename b!"*" b!"%2A"
  filename

/-- Body of the loop of `IsSanitized`, src/util/files.go:199-222, for one path segment. -/
def isSanitizedPart (part : Str) : Bool :=
  let part := replaceAll part b!"%25" b!""
  let part := replaceAll part b!"%3C" b!""
  let part := replaceAll part b!"%3E" b!""
  let part := replaceAll part b!"%3A" b!""
  let part := replaceAll part b!"%22" b!""
  let part := replaceAll part b!"%2F" b!""
  let part := replaceAll part b!"%5C" b!""
  let part := replaceAll part b!"%7C" b!""
  let part := replaceAll part b!"%3F" b!""
  let part := replaceAll part b!"%2A" b!""
  !(contains part b!"%" ||
    contains part b!"<" ||
    contains part b!">" ||
    contains part b!":" ||
    contains part b!"\"" ||
    contains part b!"/" ||
    contains part b!"\\" ||
    contains part b!"|" ||
    contains part b!"?" ||
    contains part b!"*")

/-- `IsSanitized`, src/util/files.go:174-226 (non-Windows). -/
def isSanitized (path : Str) : Bool :=
  (split path b!"/").all isSanitizedPart

end Verif.Model
