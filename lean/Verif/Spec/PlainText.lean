import Verif.Go.Space

/-!
# Text without markup
-/

namespace Verif.Spec
open Verif.Go
open scoped List

/-- A character that begins a comment or the name of a tag with a meaning in wikitext: `math`, `nowiki`, `ref`, `references`,
`gallery`, `imagemap`. Other HTML tags are text. -/
def TagCharacter (c : Byte) : Prop := c ∈ b!"!mMnNrRgGiI"

/-- No tag with a meaning in wikitext begins or ends in the text. -/
structure TagFree (s : Str) : Prop where
  start : ∀ c, TagCharacter c → ¬ [0x3C, c] <:+: s
  stop : ∀ c, TagCharacter c → ¬ [0x3C, 0x2F, c] <:+: s

/-- A line of text without markup. -/
structure OrdinaryLine (l : Str) : Prop where
  notEmpty : l ≠ []
  oneLine : 0x0A ∉ l
  /-- There is no white space at the beginning and the end. -/
  trimmed : trimSpace l = l
  /-- It is no entry of a list. -/
  noList : ∀ c, l.head? = some c → c ∉ b!"*#;:"
  /-- It is no heading. -/
  noHeading : ¬ (b!"=" <+: l ∧ b!"=" <:+ l)
  /-- It is no beginning of a table. -/
  noTable : ¬ b!"{|" <+: l
  /-- There are no links. -/
  noBracket : 0x5B ∉ l
  noTemplate : ¬ b!"{{" <:+: l
  /-- There are no tags with a meaning in wikitext and no comments; other HTML tags are possible. -/
  noTag : TagFree l
  /-- There is nothing bold or italic. -/
  noEmphasis : ¬ b!"''" <:+: l
  /-- There is no text that looks like a text used within the program. -/
  noInternal : ¬ b!"$$" <:+: l
  noSwitch : ¬ b!"__NOTOC__" <:+: l

/-- The lines of paragraphs, each of them with the number of empty lines in front of it. -/
def paragraphsLines (doc : List (Nat × List Str)) : List Str := doc.flatMap fun p => List.replicate p.1 [] ++ p.2

/-- The paragraphs have at least one line each, all lines are ordinary, and there are empty lines between paragraphs. -/
def OrdinaryText (doc : List (Nat × List Str)) : Prop :=
  doc ≠ [] ∧ (∀ p ∈ doc, p.2 ≠ [] ∧ ∀ l ∈ p.2, OrdinaryLine l) ∧ ∀ p ∈ doc.tail, 0 < p.1

end Verif.Spec
