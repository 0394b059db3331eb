import Verif.Model.Formatting

/-!
# Formatted text
-/

namespace Verif.Spec
open Verif.Model
open scoped List

/-- A part of a formatted text: ordinary text, or the begin or end of a bold or italic section with the apostrophes it was
written with. -/
inductive FormatPart where
  | text (t : Str)
  | mark (type : MarkType) (source : Str)
  deriving DecidableEq, Repr

/-- What the author wrote. -/
def FormatPart.original : FormatPart → Str
  | .text t => t
  | .mark _ source => source

/-- The text for the generator. -/
def FormatPart.rendered : FormatPart → Str
  | .text t => t
  | .mark type _ => type.marker

/-- The text without formatting. -/
def FormatPart.plain : FormatPart → Str
  | .text t => t
  | .mark _ _ => []

/-- Ordinary text has no two apostrophes in succession. Two apostrophes stand for italic, three for bold; where sections
would overlap, one of them is closed and opened again, for which there is nothing in the original. -/
def FormatPart.WellFormed : FormatPart → Prop
  | .text t => ¬ b!"''" <:+: t
  | .mark .boldOpen source => source = b!"'''" ∨ source = []
  | .mark .boldClose source => source = b!"'''" ∨ source = []
  | .mark .italicOpen source => source = b!"''" ∨ source = []
  | .mark .italicClose source => source = b!"''" ∨ source = []

def originalText (parts : List FormatPart) : Str := (parts.map FormatPart.original).flatten
def renderedText (parts : List FormatPart) : Str := (parts.map FormatPart.rendered).flatten
def plainText (parts : List FormatPart) : Str := (parts.map FormatPart.plain).flatten

/-- The begins and ends of sections in a text. -/
def marksOf : List FormatPart → List MarkType
  | [] => []
  | .text _ :: rest => marksOf rest
  | .mark type _ :: rest => type :: marksOf rest

/-- The sections that are open are given by their begins, the last one first. Sections are properly nested: the last one
that was opened is closed first, there is no bold within bold and no italic within italic, and in the end all are
closed. -/
def NestedFrom : (opened : List MarkType) → List MarkType → Prop
  | opened, [] => opened = []
  | opened, .boldOpen :: rest => .boldOpen ∉ opened ∧ NestedFrom (.boldOpen :: opened) rest
  | opened, .italicOpen :: rest => .italicOpen ∉ opened ∧ NestedFrom (.italicOpen :: opened) rest
  | opened, .boldClose :: rest => opened.head? = some .boldOpen ∧ NestedFrom opened.tail rest
  | opened, .italicClose :: rest => opened.head? = some .italicOpen ∧ NestedFrom opened.tail rest

/-- A properly formatted text. -/
def ProperlyNested (parts : List FormatPart) : Prop := NestedFrom [] (marksOf parts)

/-- The characters of a text, each with the information whether it is bold and whether it is italic. -/
def styledChars : (bold italic : Bool) → List FormatPart → List (UInt8 × Bool × Bool)
  | _, _, [] => []
  | bold, italic, .text t :: rest => t.map (·, bold, italic) ++ styledChars bold italic rest
  | _, italic, .mark .boldOpen _ :: rest => styledChars true italic rest
  | _, italic, .mark .boldClose _ :: rest => styledChars false italic rest
  | bold, _, .mark .italicOpen _ :: rest => styledChars bold true rest
  | bold, _, .mark .italicClose _ :: rest => styledChars bold false rest

/-- What an author writes: text and runs of apostrophes. -/
inductive WrittenPart where
  | text (t : Str)
  | quotes (n : Nat)
  deriving DecidableEq, Repr

/-- The wikitext. -/
def writtenText : List WrittenPart → Str
  | [] => []
  | .text t :: rest => t ++ writtenText rest
  | .quotes n :: rest => List.replicate n (39 : UInt8) ++ writtenText rest

/-- Two apostrophes switch italic on or off, three apostrophes bold, five both. -/
def switched (n : Nat) (style : Bool × Bool) : Bool × Bool :=
  if n = 2 then (style.1, !style.2) else if n = 3 then (!style.1, style.2) else (!style.1, !style.2)

/-- The characters with the styles (bold, italic) that the author wants them to have. -/
def intendedChars : (style : Bool × Bool) → List WrittenPart → List (UInt8 × Bool × Bool)
  | _, [] => []
  | style, .text t :: rest => t.map (·, style) ++ intendedChars style rest
  | style, .quotes n :: rest => intendedChars (switched n style) rest

/-- The style at the end of the text. -/
def finalStyle : (style : Bool × Bool) → List WrittenPart → Bool × Bool
  | style, [] => style
  | style, .text _ :: rest => finalStyle style rest
  | style, .quotes n :: rest => finalStyle (switched n style) rest

/-- Runs have two, three or five apostrophes, and the text between them is not empty. Within text there may be single
apostrophes that are not next to a run. -/
def WellWritten : List WrittenPart → Prop
  | [] => True
  | .text t :: rest => t ≠ [] ∧ ¬ b!"''" <:+: t ∧ t.head? ≠ some 39 ∧ t.getLast? ≠ some 39 ∧ WellWritten rest
  | .quotes n :: rest => (n = 2 ∨ n = 3 ∨ n = 5) ∧ (∀ m, rest.head? ≠ some (.quotes m)) ∧ WellWritten rest

end Verif.Spec
