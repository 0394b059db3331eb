import Verif.Go.Strings

/-!
# Cleaning of wikitext
-/

namespace Verif.Spec
open Verif.Go

/-- `Stripped before text out`: `out` is the text without comments. A comment goes from `<!--` to the next `-->`. Text
without (terminated) comment stays as it is. `before pre post` is what remains of the text `pre` in front of a comment
that is followed by `post`. -/
inductive Stripped (before : Str → Str → Str) : Str → Str → Prop
  | noComment (text : Str) (h : ¬ ∃ a b c, text = a ++ b!"<!--" ++ b ++ b!"-->" ++ c) : Stripped before text text
  | comment (pre body post out : Str) (h1 : ¬ b!"<!--" <:+: pre) (h2 : ¬ b!"-->" <:+: body)
      (h : Stripped before post out) :
      Stripped before (pre ++ b!"<!--" ++ body ++ b!"-->" ++ post) (before pre post ++ out)

/-- A line break in front of the comment is not kept. -/
def dropLineBreak (pre _post : Str) : Str := if pre.getLast? = some 0x0A then pre.dropLast else pre

/-- A line break in front of the comment is not kept if the comment is followed by a line break, too, or by the end of
the text: there would be an empty line. -/
def dropOwnLine (pre post : Str) : Str :=
  if pre.getLast? = some 0x0A ∧ (post = [] ∨ post.head? = some 0x0A) then pre.dropLast else pre

end Verif.Spec

namespace Verif.Spec

/-- A line with a heading: the same number of equal signs on both sides of a text that neither begins nor ends with an
equal sign, or only equal signs. -/
inductive HeadingLine : Str → Nat → Prop
  | text (d : Nat) (mid : Str) (hd : 0 < d) (h0 : mid ≠ []) (h1 : mid.head? ≠ some 0x3D) (h2 : mid.getLast? ≠ some 0x3D) :
      HeadingLine (List.replicate d 0x3D ++ mid ++ List.replicate d 0x3D) d
  | signs (d : Nat) (hd : 0 < d) : HeadingLine (List.replicate d 0x3D) d

/-- A line that begins and ends with the markup of bold text. -/
def BoldLine (line : Str) : Prop := b!"'''" <+: line ∧ b!"'''" <:+ line

/-- A line that begins a section of level `d`: headings, and lines in bold, which are below all headings (level 10). -/
inductive SectionStart : Str → Nat → Prop
  | heading (line : Str) (d : Nat) (h : HeadingLine line d) : SectionStart line d
  | bold (line : Str) (h : BoldLine line) : SectionStart line 10

end Verif.Spec
