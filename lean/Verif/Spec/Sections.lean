import Verif.Spec.Cleaner

/-!
# Articles without and with empty sections
-/

namespace Verif.Spec
open Verif.Go

/-- Behind each beginning of a section there is, after empty lines, text or the beginning of a subsection. -/
def NoEmptySections (lines : List Str) : Prop :=
  ∀ (before blanks rest : List Str) (h : Str) (d : Nat), lines = before ++ h :: (blanks ++ rest) → 0 < d → SectionStart h d →
    (∀ b ∈ blanks, b = []) → ∃ x t, rest = x :: t ∧ ∀ e, 0 < e → SectionStart x e → d < e

/-- A section of level `d` ends here: there are no more lines, or the next one is a heading of the same or a higher level. -/
def SectionEnds (d : Nat) (rest : List Str) : Prop :=
  rest = [] ∨ ∃ h t e, rest = h :: t ∧ e ≤ d ∧ HeadingLine h e

/-- `all` are the lines and sections without text: headings (for which `title` is true) with only empty lines behind them. -/
inductive WithEmptySections (title : Str → Prop) : (lines all : List Str) → Prop where
  | nil : WithEmptySections title [] []
  | line (l : Str) (lines all : List Str) : WithEmptySections title lines all → WithEmptySections title (l :: lines) (l :: all)
  | emptySection (h : Str) (d blanks : Nat) (lines all : List Str) : HeadingLine h d → d < 10 → title h → SectionEnds d all →
      WithEmptySections title lines all → WithEmptySections title lines (h :: (List.replicate blanks [] ++ all))

end Verif.Spec
