import Verif.Go.Strings

/-!
# `strings.TrimSpace`

White space is what `unicode.IsSpace` accepts. The functions work on the UTF-8 encodings of these characters: a
text begins (ends) with such a character exactly if it begins (ends) with its encoding.
-/

namespace Verif.Go

/-- UTF-8 encodings of the white space characters of `unicode.IsSpace`: tab, line feed, vertical tab, form feed,
carriage return, space, U+0085, U+00A0, U+1680, U+2000 to U+200A, U+2028, U+2029, U+202F, U+205F, U+3000. -/
def spaceChars : List Str :=
  [[0x09], [0x0A], [0x0B], [0x0C], [0x0D], [0x20], [0xC2, 0x85], [0xC2, 0xA0], [0xE1, 0x9A, 0x80],
   [0xE2, 0x80, 0x80], [0xE2, 0x80, 0x81], [0xE2, 0x80, 0x82], [0xE2, 0x80, 0x83], [0xE2, 0x80, 0x84],
   [0xE2, 0x80, 0x85], [0xE2, 0x80, 0x86], [0xE2, 0x80, 0x87], [0xE2, 0x80, 0x88], [0xE2, 0x80, 0x89],
   [0xE2, 0x80, 0x8A], [0xE2, 0x80, 0xA8], [0xE2, 0x80, 0xA9], [0xE2, 0x80, 0xAF], [0xE2, 0x81, 0x9F],
   [0xE3, 0x80, 0x80]]

/-- Length of the element of `chars` with which the text begins; 0 if there is none. -/
def headLen (chars : List Str) (s : Str) : Nat :=
  match chars.find? (fun c => c.isPrefixOf s) with
  | some c => c.length
  | none => 0

/-- Worker of `trimLeftBy`; `skip` bytes of a removed character are still to be skipped. -/
def trimLeftGo (chars : List Str) : Nat → Str → Str
  | _, [] => []
  | skip + 1, _ :: t => trimLeftGo chars skip t
  | 0, c :: t =>
    if headLen chars (c :: t) = 0 then c :: t else trimLeftGo chars (headLen chars (c :: t) - 1) t

/-- Remove characters from the beginning. -/
def trimLeftBy (chars : List Str) (s : Str) : Str := trimLeftGo chars 0 s

/-- `strings.TrimLeftFunc(s, unicode.IsSpace)` -/
def trimSpaceLeft (s : Str) : Str := trimLeftBy spaceChars s

/-- `strings.TrimRightFunc(s, unicode.IsSpace)` -/
def trimSpaceRight (s : Str) : Str := (trimLeftBy (spaceChars.map List.reverse) s.reverse).reverse

/-- `strings.TrimSpace(s)` -/
def trimSpace (s : Str) : Str := trimSpaceRight (trimSpaceLeft s)

end Verif.Go
