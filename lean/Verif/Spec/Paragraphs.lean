import Verif.Model.Formatting

/-!
# Paragraphs
-/

namespace Verif.Spec
open Verif.Model Verif.Go

/-- A block of an article: a line that consists of one element (heading, image, table, …), or the lines of a paragraph. -/
inductive TextBlock where
  | element (line : Str)
  | paragraph (lines : List Str)
  deriving DecidableEq, Repr

def TextBlock.lines : TextBlock → List Str
  | .element line => [line]
  | .paragraph lines => lines

def TextBlock.isParagraph : TextBlock → Bool
  | .element _ => false
  | .paragraph _ => true

/-- Characters of the kinds of elements in keys. -/
def KeyCharacter (c : Byte) : Prop := (0x41 ≤ c ∧ c ≤ 0x5A) ∨ (0x30 ≤ c ∧ c ≤ 0x39) ∨ c = 0x5F

/-- A line that consists of the key of one element: `$$TOKEN_`, the kind of the element, an underscore, a number and
`$$`. -/
def ElementLine (line : Str) : Prop :=
  ∃ kind number : Str, kind ≠ [] ∧ (∀ c ∈ kind, KeyCharacter c) ∧ number ≠ [] ∧ (∀ c ∈ number, 0x30 ≤ c ∧ c ≤ 0x39) ∧
    line = b!"$$TOKEN_" ++ kind ++ b!"_" ++ number ++ b!"$$"

/-- A paragraph has at least one line, and its lines are neither empty nor elements. -/
def TextBlock.WellFormed : TextBlock → Prop
  | .element line => ElementLine line
  | .paragraph lines => lines ≠ [] ∧ ∀ l ∈ lines, l ≠ [] ∧ ¬ ElementLine l ∧ 10 ∉ l

/-- The lines of an article: each block with the number of empty lines in front of it. -/
def blockLines : List (Nat × TextBlock) → List Str
  | [] => []
  | (n, b) :: rest => List.replicate n [] ++ b.lines ++ blockLines rest

/-- Between two paragraphs there is at least one empty line. -/
def SeparatedFrom : (afterParagraph : Bool) → List (Nat × TextBlock) → Prop
  | _, [] => True
  | afterParagraph, (n, b) :: rest => (afterParagraph && b.isParagraph → 0 < n) ∧ SeparatedFrom b.isParagraph rest

/-- What is to be shown: all blocks, with one paragraph marker between each two paragraphs that follow one another. -/
def markedLines : (afterParagraph : Bool) → List (Nat × TextBlock) → List Str
  | _, [] => []
  | afterParagraph, (_, b) :: rest =>
    (if afterParagraph && b.isParagraph then [markerParagraph] else []) ++ b.lines ++ markedLines b.isParagraph rest

end Verif.Spec
