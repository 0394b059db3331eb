import Verif.Spec.Nowiki
import Verif.Spec.PlainText
import Verif.Spec.Expand
import Verif.Spec.WikiLinks

/-!
# Paragraphs with nowiki tags within their lines (C38)
-/

namespace Verif.Spec
open Verif.Go Verif.Model
open scoped List

/-- A line of text with any number of elements in nowiki tags. -/
structure NowikiLine where
  parts : List NowikiPart
  last : Str

/-- How the line is written. -/
def NowikiLine.source (l : NowikiLine) : Str := nowikiText l.parts l.last

/-- What a reader should see: the text and the contents of the tags. -/
def NowikiLine.shown (l : NowikiLine) : Str := (l.parts.flatMap fun p => p.text ++ p.inner) ++ l.last

/-- The line with a letter instead of each element. -/
def NowikiLine.outline (l : NowikiLine) : Str := (l.parts.flatMap fun p => p.text ++ b!"X") ++ l.last

/-- Contents that the steps in front of the parser leave alone: they are in one line and contain no comments, templates and switches.
Emphasis, headings, lists, references, formulas, web links and other tags are possible. -/
structure PlainInner (s : Str) : Prop where
  oneLine : (0x0A : Byte) ∉ s
  noComment : ¬ b!"<!--" <:+: s
  noTemplate : ¬ b!"{{" <:+: s
  noSwitch : ¬ b!"__NOTOC__" <:+: s
  noPlaceholder : ¬ b!"$$TEMPLATE_PLACEHOLDER_" <:+: s

/-- A line whose text besides the elements has no markup; it is more than a single element. -/
structure NowikiLine.WellFormed (l : NowikiLine) : Prop where
  parts : ∀ p ∈ l.parts, p.WellFormed ∧ PlainInner p.inner ∧ Unambiguous p.text
  outline : OrdinaryLine l.outline
  more : ∀ p, l.parts = [p] → p.text ≠ [] ∨ l.last ≠ []

/-- Paragraphs, each of them with the number of empty lines in front of it, with empty lines between each two of them. -/
def NowikiParagraphs (doc : List (Nat × List NowikiLine)) : Prop :=
  doc ≠ [] ∧ (∀ p ∈ doc, p.2 ≠ [] ∧ ∀ l ∈ p.2, l.WellFormed) ∧ ∀ p ∈ doc.tail, 0 < p.1

/-- The text has no links, or all of its links are closed, also the ones in nowiki tags, and none of them is one that is removed (C41). -/
def LinksAreKept (env : ParserEnv) (text : Str) : Prop :=
  ¬ b!"[[" <:+: text ∨ ∃ d : LinkText, d.text = text ∧ d.WellFormed ∧ d.AllLinks (KeptLink env)

end Verif.Spec
