import Verif.Model.Tokens

/-!
# What it means that the images of an article are downloaded
-/

namespace Verif.Spec
open Verif.Model

/-- The name of the image file that a token shows in the book. -/
def pictureFile : Token → Option Str
  | .image filename _ _ _ => some filename
  | .inlineImage filename _ _ => some filename
  | _ => none

/-- One of the images to be downloaded has the given file name: in front of it there is only a prefix such as `File:`. -/
def Requested (images : List Str) (filename : Str) : Prop :=
  ∃ pre, (0x3A : Byte) ∉ pre ∧ pre ++ b!":" ++ filename ∈ images

/-- The conversion of the first letter to upper case does not create colons, vertical bars or spaces. -/
def CreatesNoSeparators (upperFirst : Str → Str) : Prop :=
  ∀ s c, c ∈ b!":| " → c ∉ s → c ∉ upperFirst s

/-- Each image of the tokens is to be downloaded and its name has no spaces. -/
def PicturesRequested (s : TokState) : Prop :=
  ∀ key token filename, (key, token) ∈ s.tokenMap → pictureFile token = some filename →
    Requested s.images filename ∧ (0x20 : Byte) ∉ filename

/-- The file name in the name of an image to be downloaded: what is behind the first colon, up to the next one. -/
def NamedBy (image name : Str) : Prop :=
  (0x3A : Byte) ∉ name ∧ ∃ pre, (0x3A : Byte) ∉ pre ∧
    (image = pre ++ b!":" ++ name ∨ ∃ rest, image = pre ++ b!":" ++ name ++ b!":" ++ rest)

end Verif.Spec
