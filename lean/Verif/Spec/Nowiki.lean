import Verif.Model.CloseToken

/-!
# Texts with nowiki tags
-/

namespace Verif.Spec
open Verif.Model

/-- The text with all ASCII letters in lower case. -/
def lowered (s : Str) : Str := s.map lowerByte

/-- A text, an opening tag, a content and a closing tag. -/
structure NowikiPart where
  text : Str
  opening : Str
  inner : Str
  closing : Str

/-- The tags are written in upper and lower case letters, and there are no other such tags in the text and in the
content. -/
structure NowikiPart.WellFormed (p : NowikiPart) : Prop where
  opening : lowered p.opening = b!"<nowiki>"
  closing : lowered p.closing = b!"</nowiki>"
  text : ¬ b!"<nowiki>" <:+: lowered p.text
  inner : ¬ b!"<nowiki>" <:+: lowered p.inner
  inner' : ¬ b!"</nowiki>" <:+: lowered p.inner

/-- The wikitext. -/
def nowikiText (parts : List NowikiPart) (last : Str) : Str :=
  (parts.flatMap fun p => p.text ++ p.opening ++ p.inner ++ p.closing) ++ last

/-- The text with a replacement for each element in tags. -/
def nowikiFilled : List NowikiPart → (replacements : List Str) → (last : Str) → Str
  | p :: ps, k :: ks, last => p.text ++ k ++ nowikiFilled ps ks last
  | _, _, last => last

end Verif.Spec
