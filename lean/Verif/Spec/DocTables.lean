import Verif.Spec.WikiTables

/-!
# Tables in articles
-/

namespace Verif.Spec
open Verif.Model Verif.Go
open scoped List

def spaces (n : Nat) : Str := List.replicate n 0x20

/-- A cell: the spaces around it, its attributes with the number of spaces between the bar and the text, and its text. -/
structure DocCell (α : Type) where
  before : Nat := 0
  attributes : Option (TableAttrs × Nat) := none
  text : Option α := none
  after : Nat := 0

/-- A line of cells: `| a || b`, or headings `! a !! b`. -/
structure DocCells (α : Type) where
  heading : Bool
  first : DocCell α
  others : List (DocCell α) := []

/-- A row: what follows `|-`, and the lines of cells. -/
structure DocRow (α : Type) where
  separator : Option Str := none
  lines : List (DocCells α)

/-- A table: what follows `{|` in the first line, the caption with the number of spaces in front of it, and the rows. -/
structure DocTable (α : Type) where
  attributes : Str := []
  caption : Option (Nat × α) := none
  rows : List (DocRow α)

/-- What is written in front of the text of a cell. -/
def DocCell.front {α : Type} (c : DocCell α) : Str :=
  spaces c.before ++ match c.attributes with
    | none => []
    | some (a, n) => a.written ++ b!"|" ++ spaces n

/-- A cell as it is written; `g` are the texts as they are written. -/
def DocCell.source {α : Type} (g : α → Str) (c : DocCell α) : Str :=
  c.front ++ (match c.text with
    | none => []
    | some x => g x) ++ spaces c.after

def DocCells.cells {α : Type} (l : DocCells α) : List (DocCell α) := l.first :: l.others

def DocCells.source {α : Type} (g : α → Str) (l : DocCells α) : Str :=
  cellMark l.heading :: join [cellMark l.heading, cellMark l.heading] (l.cells.map (DocCell.source g))

def DocRow.source {α : Type} (g : α → Str) (r : DocRow α) : List Str :=
  (match r.separator with
    | none => []
    | some s => [b!"|-" ++ s]) ++ r.lines.map (DocCells.source g)

/-- The lines of a table. -/
def DocTable.source {α : Type} (g : α → Str) (t : DocTable α) : List Str :=
  [b!"{|" ++ t.attributes] ++ (match t.caption with
    | none => []
    | some (n, x) => [b!"|+" ++ spaces n ++ g x]) ++ t.rows.flatMap (DocRow.source g) ++ [b!"|}"]

/-- The HTML of a cell; `h` is the HTML of the texts. Of the attributes the numbers of rows and columns and the alignment are kept. -/
def DocCell.html {α : Type} (h : α → Str) (heading : Bool) (c : DocCell α) : Str :=
  (if heading then b!"<th" else b!"<td") ++
    (match c.attributes with
      | none => []
      | some (a, _) => a.kept.flatMap fun k => b!" " ++ k) ++
    b!">\n" ++ (match c.text with
      | none => []
      | some x => h x) ++ (if heading then b!"\n</th>\n" else b!"\n</td>")

def DocRow.html {α : Type} (h : α → Str) (r : DocRow α) : Str :=
  b!"<tr>\n" ++ join b!"\n" (r.lines.flatMap fun l => l.cells.map (DocCell.html h l.heading)) ++ b!"\n</tr>"

def DocTable.html {α : Type} (h : α → Str) (t : DocTable α) : Str :=
  b!"<div class=\"figure\">\n<table>\n" ++ join b!"\n" (t.rows.map (DocRow.html h)) ++ b!"\n</table>\n<div class=\"caption\">\n" ++
    (match t.caption with
      | none => []
      | some (_, x) => h x) ++ b!"\n</div>\n</div>"

/-- The texts of a table from the beginning to the end. -/
def DocTable.texts {α : Type} (t : DocTable α) : List α :=
  t.caption.toList.map Prod.snd ++ t.rows.flatMap fun r => r.lines.flatMap fun l => l.cells.filterMap DocCell.text

/-- Attributes without characters that have another meaning in wikitext. -/
def PlainAttributes (s : Str) : Prop := ∀ c ∈ s, c ∉ b!"\n[]{<_'$|!"

/-- The attributes of a cell begin with a letter. -/
structure CellAttributes (a : TableAttrs) : Prop where
  wellFormed : a.WellFormed
  plain : PlainAttributes a.written
  start : ∃ c r, a.written = c :: r ∧ 0x41 ≤ c ∧ c ≤ 0x7A

/-- Conditions for a cell; `p atMark x` is the condition for its text, where `atMark` says that it follows the mark of the cell
directly. Cells without text have no attributes. -/
def DocCell.WellFormed {α : Type} (p : (atMark : Bool) → α → Prop) (c : DocCell α) : Prop :=
  (∀ a ∈ c.attributes, CellAttributes a.1 ∧ c.text ≠ none) ∧ ∀ x ∈ c.text, p (c.before == 0 && c.attributes.isNone) x

/-- An empty cell at the beginning of a line with several cells has a space in it, otherwise there would be three marks in succession. -/
def DocCells.WellFormed {α : Type} (p : (atMark : Bool) → α → Prop) (l : DocCells α) : Prop :=
  (∀ c ∈ l.cells, c.WellFormed p) ∧ (l.others ≠ [] → l.first.text = none → 0 < l.first.before + l.first.after)

def DocRow.WellFormed {α : Type} (p : (atMark : Bool) → α → Prop) (r : DocRow α) : Prop :=
  (∀ s ∈ r.separator, PlainAttributes s) ∧ r.lines ≠ [] ∧ ∀ l ∈ r.lines, l.WellFormed p

/-- Only the first row can do without the separator `|-`. -/
structure DocTable.WellFormed {α : Type} (p : (atMark : Bool) → α → Prop) (t : DocTable α) : Prop where
  attributes : PlainAttributes t.attributes
  caption : ∀ x ∈ t.caption, p false x.2
  rows : ∀ r ∈ t.rows, r.WellFormed p
  separators : ∀ r ∈ t.rows.tail, r.separator ≠ none

end Verif.Spec
