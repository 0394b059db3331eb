import Verif.Spec.WikiLinks

/-!
# Tables
-/

namespace Verif.Spec
open Verif.Model Verif.Go
open scoped List

/-- Spaces and tabs around the parts of a table. -/
def Padding (s : Str) : Prop := ∀ c ∈ s, c = 0x20 ∨ c = 0x09

instance (s : Str) : Decidable (Padding s) := by unfold Padding; infer_instance

/-- The attributes of a cell that belong into the book. -/
inductive TableAttr where
  /-- `colspan="2"`, `rowspan=3` and so on -/
  | span (row : Bool) (number : Str) (quoted : Bool)
  /-- `text-align:center;` -/
  | align (value : Str)

def TableAttr.code : TableAttr → Str
  | .span row number quoted =>
    (if row then b!"rowspan=" else b!"colspan=") ++ if quoted then b!"\"" ++ number ++ b!"\"" else number
  | .align value => b!"text-align:" ++ value ++ b!";"

/-- The text in front of the bar in a cell: other attributes, and the ones that are kept. -/
structure TableAttrs where
  written : Str
  lead : Str
  attrs : List (TableAttr × Str)

/-- Nothing in the text looks like an attribute that is kept. -/
def OtherAttributes (s : Str) : Prop := ¬ b!"colspan=" <:+: s ∧ ¬ b!"rowspan=" <:+: s ∧ ¬ b!"text-align:" <:+: s

/-- The attribute is complete, and ends where the text `next` behind it begins. -/
def TableAttr.WellFormed (next : Str) : TableAttr → Prop
  | .span _ number quoted => number ≠ [] ∧ (∀ c ∈ number, digit c = true) ∧
      (quoted = false → ∀ c ∈ next.head?, digit c = false ∧ c ≠ 0x22)
  | .align value => value ≠ [] ∧ ∀ c ∈ value, c ≠ 0x3B ∧ c ≠ 0x0A ∧ c ≠ 0x3A ∧ c ≠ 0x3D

def attrsCode (attrs : List (TableAttr × Str)) : Str := attrs.flatMap fun a => a.1.code ++ a.2

structure TableAttrs.WellFormed (a : TableAttrs) : Prop where
  code : trimSpace a.written = a.lead ++ attrsCode a.attrs
  lead : OtherAttributes a.lead
  others : ∀ x ∈ a.attrs, OtherAttributes x.2 ∧ x.1.WellFormed x.2

/-- What is kept: the numbers of columns and rows, and the first alignment as style. -/
def TableAttrs.kept (a : TableAttrs) : List Str :=
  (a.attrs.filterMap fun x => match x.1 with | .span .. => some x.1.code | .align _ => none) ++
  ((a.attrs.filterMap fun x => match x.1 with | .span .. => none | .align _ => some (b!"style=\"" ++ x.1.code ++ b!"\"")).take 1)

/-- A cell of a table without the marks around it. -/
structure TableCell where
  before : Str := []
  attributes : Option TableAttrs := none
  text : Str
  after : Str := []

/-- The cell without padding. -/
def TableCell.body (c : TableCell) : Str :=
  match c.attributes with
  | none => c.text
  | some a => a.written ++ b!"|" ++ c.text

def TableCell.written (c : TableCell) : Str := c.before ++ c.body ++ c.after

def TableCell.kept (c : TableCell) : List Str :=
  match c.attributes with
  | none => []
  | some a => a.kept

/-- A bar is used for attributes only, line breaks and the marks of headings do not occur. -/
structure TableCell.WellFormed (c : TableCell) : Prop where
  before : Padding c.before
  after : Padding c.after
  body : trimSpace c.body = c.body
  text : (0x7C : Byte) ∉ c.text
  lines : (0x0A : Byte) ∉ c.body
  attributes : ∀ a ∈ c.attributes, a.WellFormed ∧ (0x7C : Byte) ∉ a.written

/-- A line with cells: data cells `| a || b`, or headings `! a !! b`. The text of the last cell can be continued in
further lines; `α` are these lines, which can also be tables. -/
structure CellLine (α : Type) where
  indent : Str := []
  heading : Bool
  first : TableCell
  others : List TableCell := []
  more : List α := []

/-- The mark of a cell. -/
def cellMark (heading : Bool) : Byte := if heading then 0x21 else 0x7C

/-- Texts that can be told apart when `cc` is written between them and `front` in front of them. -/
def Separated (c : Byte) : (front : Str) → List Str → Prop
  | _, [] => True
  | front, [w] => ¬ [c, c] <:+: front ++ w
  | front, w :: rest => ¬ [c, c] <:+: front ++ w ++ [c] ∧ Separated c [] rest

def CellLine.cells {α : Type} (l : CellLine α) : List TableCell := l.first :: l.others

def CellLine.line {α : Type} (l : CellLine α) : Str :=
  l.indent ++ cellMark l.heading :: join [cellMark l.heading, cellMark l.heading] (l.cells.map TableCell.written)

/-- The first cell of a line does not begin with the mark of a heading, data cells do not look like another part of a
table, and headings have one line. -/
structure CellLine.WellFormed {α : Type} (p : α → Prop) (l : CellLine α) : Prop where
  indent : Padding l.indent
  cells : ∀ c ∈ l.cells, c.WellFormed ∧ ∀ m ∈ c.written.head?, m ≠ 0x21 ∧ (l.heading = false → m ≠ 0x2D ∧ m ≠ 0x2B ∧ m ≠ 0x7D)
  separated : Separated (cellMark l.heading) [cellMark l.heading] (l.cells.map TableCell.written)
  other : ∀ c ∈ l.cells, ¬ [cellMark (!l.heading), cellMark (!l.heading)] <:+: c.written
  heading : l.heading = true → l.more = []
  more : ∀ x ∈ l.more, p x

/-- A row. Each row except for the first one has a separator `|-`. -/
structure TableRow (α : Type) where
  separator : Option (Str × Str) := none
  lines : List (CellLine α)

/-- The line has neither line breaks nor the marks of cells in it. -/
def NoMarks (s : Str) : Prop := (0x0A : Byte) ∉ s ∧ ¬ b!"||" <:+: s ∧ ¬ b!"!!" <:+: s

def separatorLines : Option (Str × Str) → List Str
  | none => []
  | some (indent, text) => [indent ++ b!"|-" ++ text]

def separatorWellFormed : Option (Str × Str) → Prop
  | none => True
  | some (indent, text) => Padding indent ∧ NoMarks (b!"|-" ++ text)

/-- The caption of a table. -/
structure TableCaption where
  indent : Str := []
  attributes : Option Str := none
  text : Str
  after : Str := []
  more : List Str := []

def TableCaption.body (c : TableCaption) : Str :=
  match c.attributes with
  | none => c.text
  | some a => a ++ b!"|" ++ c.text

def captionsLines : Option TableCaption → List Str
  | none => []
  | some c => (c.indent ++ b!"|+" ++ c.body ++ c.after) :: c.more

/-- A further line of a cell or a caption. -/
structure FurtherLine (s : Str) : Prop where
  line : (0x0A : Byte) ∉ s
  bar : (0x7C : Byte) ∉ s
  marks : ¬ b!"!!" <:+: s
  cell : ¬ b!"!" <+: trimSpace s

structure TableCaption.WellFormed (c : TableCaption) : Prop where
  indent : Padding c.indent
  after : Padding c.after
  body : trimSpace (b!"|+" ++ c.body) = b!"|+" ++ c.body
  text : (0x7C : Byte) ∉ c.text
  attributes : ∀ a ∈ c.attributes, (0x7C : Byte) ∉ a
  lines : (0x0A : Byte) ∉ c.body
  marks : ¬ b!"!!" <:+: c.body
  more : ∀ l ∈ c.more, FurtherLine l

/-- A table. -/
structure WikiTable (α : Type) where
  /-- what follows `{|` in the first line -/
  attributes : Str := []
  caption : Option TableCaption := none
  rows : List (TableRow α)
  indent : Str := []
  after : Str := []

/-- The indentation of the first line, or of the line behind. -/
def indentOf {α : Type} (lines : List (CellLine α)) (next : Str) : Str :=
  match lines with
  | [] => next
  | l :: _ => l.indent

/-- The line behind a cell with further lines is not indented. -/
def linesWellFormed {α : Type} (p : α → Prop) (next : Str) : List (CellLine α) → Prop
  | [] => True
  | l :: rest => l.WellFormed p ∧ (l.more ≠ [] → indentOf rest next = []) ∧ linesWellFormed p next rest

/-- The indentation of the first row, which has a separator, or of the end of the table. -/
def rowIndent {α : Type} (rows : List (TableRow α)) (next : Str) : Str :=
  match rows with
  | [] => next
  | row :: _ => match row.separator with
    | some (indent, _) => indent
    | none => []

def rowsWellFormed {α : Type} (p : α → Prop) (next : Str) : List (TableRow α) → Prop
  | [] => True
  | row :: rest => separatorWellFormed row.separator ∧ row.lines ≠ [] ∧
      linesWellFormed p (rowIndent rest next) row.lines ∧ (∀ r ∈ rest.head?, r.separator ≠ none) ∧ rowsWellFormed p next rest

structure WikiTable.WellFormed {α : Type} (p : α → Prop) (t : WikiTable α) : Prop where
  attributes : NoMarks (b!"{|" ++ t.attributes)
  caption : ∀ c ∈ t.caption, c.WellFormed
  rows : rowsWellFormed p t.indent t.rows
  indent : Padding t.indent
  after : Padding t.after

/-- The lines of a table behind the first one; `f` are the lines of what is in the cells. -/
def CellLine.lines {α : Type} (f : α → List Str) (l : CellLine α) : List Str := l.line :: l.more.flatMap f
def TableRow.allLines {α : Type} (f : α → List Str) (r : TableRow α) : List Str :=
  separatorLines r.separator ++ r.lines.flatMap (CellLine.lines f)
def WikiTable.body {α : Type} (f : α → List Str) (t : WikiTable α) : List Str :=
  captionsLines t.caption ++ t.rows.flatMap (TableRow.allLines f)
def WikiTable.last {α : Type} (t : WikiTable α) : Str := t.indent ++ b!"|}" ++ t.after
/-- All lines of a table. -/
def WikiTable.lines {α : Type} (f : α → List Str) (t : WikiTable α) : List Str :=
  (b!"{|" ++ t.attributes) :: (t.body f ++ [t.last])

/-- A further line of a cell: text, or a table with tables nested up to the given depth in it. -/
def CellItem : (depth : Nat) → Type
  | 0 => Str
  | n + 1 => Str ⊕ WikiTable (CellItem n)

/-- The lines of an item. -/
def CellItem.lines : (n : Nat) → CellItem n → List Str
  | 0, s => [s]
  | _ + 1, .inl s => [s]
  | n + 1, .inr t => t.lines (CellItem.lines n)

def CellItem.WellFormed : (n : Nat) → CellItem n → Prop
  | 0, s => FurtherLine s
  | _ + 1, .inl s => FurtherLine s
  | n + 1, .inr t => t.WellFormed (CellItem.WellFormed n)

/-- Applies a function to the further lines of all cells, in the order of writing. -/
def mapLines {α : Type} (f : α → TokM Str) : List α → TokM (List Str)
  | [] => pure []
  | x :: rest => do
    let y ← f x
    let r ← mapLines f rest
    pure (y :: r)
def mapCellLines {α : Type} (f : α → TokM Str) : List (CellLine α) → TokM (List (CellLine Str))
  | [] => pure []
  | l :: rest => do
    let more ← mapLines f l.more
    let r ← mapCellLines f rest
    pure ({ l with more := more } :: r)
def mapRows {α : Type} (f : α → TokM Str) : List (TableRow α) → TokM (List (TableRow Str))
  | [] => pure []
  | row :: rest => do
    let lines ← mapCellLines f row.lines
    let r ← mapRows f rest
    pure ({ row with lines := lines } :: r)

/-- The text of a cell: the first one of the further lines is trimmed. -/
def furtherText : List Str → Str
  | [] => []
  | l :: rest => b!"\n" ++ trimSpace l ++ rest.flatMap fun l => b!"\n" ++ l

def tokenizedCell (rec : Rec) (heading : Bool) (c : TableCell) (more : List Str) : TokM TableCol := do
  let content ← rec (c.text ++ furtherText more)
  pure { attributes := c.kept, content := trimSpace content, isHeading := heading }

/-- The further lines belong to the last cell. -/
def tokenizedCells (rec : Rec) (heading : Bool) (c : TableCell) : (others : List TableCell) → (more : List Str) → TokM (List TableCol)
  | [], more => do
    let col ← tokenizedCell rec heading c more
    pure [col]
  | c' :: others, more => do
    let col ← tokenizedCell rec heading c []
    let cols ← tokenizedCells rec heading c' others more
    pure (col :: cols)

def tokenizedCellLines (rec : Rec) : List (CellLine Str) → TokM (List TableCol)
  | [] => pure []
  | l :: rest => do
    let cols ← tokenizedCells rec l.heading l.first l.others l.more
    let r ← tokenizedCellLines rec rest
    pure (cols ++ r)

def tokenizedRows (rec : Rec) : List (TableRow Str) → TokM (List (List TableCol))
  | [] => pure []
  | row :: rest => do
    let cols ← tokenizedCellLines rec row.lines
    let r ← tokenizedRows rec rest
    pure (cols :: r)

def tokenizedCaption (rec : Rec) : Option TableCaption → TokM Str
  | none => pure []
  | some c => do
    let content ← rec (c.text ++ c.more.flatMap fun l => b!"\n" ++ trimSpace l)
    pure (trimSpace content)

/-- What is to become of a table: first the tables in its cells get tokens (`inner`), then the texts are tokenized in
the order of writing, and the token of the table has one entry for each cell of each row. -/
def tokenizedTable {α : Type} (rec : Rec) (inner : α → TokM Str) (t : WikiTable α) : TokM Str := do
  let rows ← mapRows inner t.rows
  let caption ← tokenizedCaption rec t.caption
  let rows ← tokenizedRows rec rows
  newToken b!"TABLE" (.table rows caption)

/-- Tables in cells are replaced by their keys. -/
def tokenizedCellItem (rec : Rec) : (n : Nat) → CellItem n → TokM Str
  | 0, s => pure s
  | _ + 1, .inl s => pure s
  | n + 1, .inr t => tokenizedTable rec (tokenizedCellItem rec n) t

/-- A text of lines and tables. A table can be indented with spaces and then colons. -/
inductive TableBlock where
  | line (l : Str)
  | table (indent colons : Str) (depth : Nat) (t : WikiTable (CellItem depth))

def TableBlock.lines : TableBlock → List Str
  | .line l => [l]
  | .table indent colons n t => (indent ++ colons ++ b!"{|" ++ t.attributes) :: (t.body (CellItem.lines n) ++ [t.last])

/-- Other lines do not begin a table. -/
def TableBlock.WellFormed : TableBlock → Prop
  | .line l => (0x0A : Byte) ∉ l ∧ ∀ colons : Str, (∀ c ∈ colons, c = 0x3A) → ¬ colons ++ b!"{|" <+: trimSpace l
  | .table indent colons n t => Padding indent ∧ (∀ c ∈ colons, c = 0x3A) ∧ t.WellFormed (CellItem.WellFormed n)

/-- Each table is replaced by a line with the colons and its key. -/
def tokenizedTables (rec : Rec) : List TableBlock → TokM (List Str)
  | [] => pure []
  | .line l :: rest => do
    let r ← tokenizedTables rec rest
    pure (l :: r)
  | .table _ colons n t :: rest => do
    let key ← tokenizedTable rec (tokenizedCellItem rec n) t
    let r ← tokenizedTables rec rest
    pure ((colons ++ key) :: r)

/-! ### What the tokens are -/

/-- The lists have the same length and their elements belong together one by one. -/
inductive Matched {α β : Type} (p : α → β → Prop) : List α → List β → Prop where
  | nil : Matched p [] []
  | cons {a : α} {b : β} {l : List α} {r : List β} (h : p a b) (ht : Matched p l r) : Matched p (a :: l) (b :: r)

/-- `result` is what the tokenizer makes of the text. -/
def Tokenized (rec : Rec) (text result : Str) : Prop := ∃ s s', rec text s = some (.ok (result, s'))

/-- The entry of the token belongs to the cell: attributes, kind and the trimmed result of tokenizing the text. -/
def TableCell.Entry (rec : Rec) (heading : Bool) (more : List Str) (c : TableCell) (col : TableCol) : Prop :=
  col.attributes = c.kept ∧ col.isHeading = heading ∧
    ∃ result, Tokenized rec (c.text ++ furtherText more) result ∧ col.content = trimSpace result

/-- The cells of a line, the further lines belong to the last one. -/
def CellLine.withLines (l : CellLine Str) : List (Bool × TableCell × List Str) :=
  (l.cells.dropLast.map fun c => (l.heading, c, [])) ++ [(l.heading, l.cells.getLastD l.first, l.more)]

/-- One entry for each cell, in the order of writing. -/
def TableRow.Entries (rec : Rec) (r : TableRow Str) (cols : List TableCol) : Prop :=
  Matched (fun x col => x.2.1.Entry rec x.1 x.2.2 col) (r.lines.flatMap CellLine.withLines) cols

def TableCaption.Text (rec : Rec) : Option TableCaption → Str → Prop
  | none, s => s = []
  | some c, s => ∃ result, Tokenized rec (c.text ++ c.more.flatMap fun l => b!"\n" ++ trimSpace l) result ∧ s = trimSpace result

/-- The further lines are replaced, everything else is the same. -/
def CellLine.Replaced {α : Type} (p : α → Str → Prop) (l : CellLine α) (l' : CellLine Str) : Prop :=
  l'.heading = l.heading ∧ l'.first = l.first ∧ l'.others = l.others ∧ Matched p l.more l'.more
def TableRow.Replaced {α : Type} (p : α → Str → Prop) (r : TableRow α) (r' : TableRow Str) : Prop :=
  Matched (CellLine.Replaced p) r.lines r'.lines

/-- The key stands for the table: its token has the same rows, and each row the same cells. -/
def WikiTable.StandsFor {α : Type} (rec : Rec) (m : List (Str × Token)) (p : α → Str → Prop) (t : WikiTable α) (key : Str) : Prop :=
  ∃ rows entries caption, Matched (TableRow.Replaced p) t.rows rows ∧ Matched (TableRow.Entries rec) rows entries ∧
    TableCaption.Text rec t.caption caption ∧ lookupToken m key = some (.table entries caption)

/-- A further line is kept, a table in a cell is replaced by a key that stands for it. -/
def CellItem.StandsFor (rec : Rec) (m : List (Str × Token)) : (n : Nat) → CellItem n → Str → Prop
  | 0, s, line => line = s
  | _ + 1, .inl s, line => line = s
  | n + 1, .inr t, line => t.StandsFor rec m (CellItem.StandsFor rec m n) line

def TableBlock.StandsFor (rec : Rec) (m : List (Str × Token)) : TableBlock → Str → Prop
  | .line l, s => s = l
  | .table _ colons n t, s => ∃ key, s = colons ++ key ∧ t.StandsFor rec m (CellItem.StandsFor rec m n) key

/-! ### Closed tables -/

/-- The line begins a table in the text of an article. -/
def StartsTable (l : Str) : Prop := ∃ colons : Str, (∀ c ∈ colons, c = 0x3A) ∧ colons ++ b!"{|" <+: trimSpace l
/-- The line begins a table within a table. -/
def StartsInnerTable (l : Str) : Prop := b!"{|" <+: trimSpace l ∨ b!":{|" <+: trimSpace l

/-- Lines within a table, where each inner table is closed by a line that begins with `|}`. -/
inductive WithinTable : List Str → Prop where
  | nil : WithinTable []
  | line {l : Str} {rest : List Str} (h1 : ¬ StartsInnerTable l) (h2 : ¬ b!"|}" <+: trimSpace l) (hr : WithinTable rest) :
      WithinTable (l :: rest)
  | table {first last : Str} {body rest : List Str} (hf : StartsInnerTable first) (hb : WithinTable body) (hl : b!"|}" <+: last)
      (hr : WithinTable rest) : WithinTable (first :: (body ++ last :: rest))

/-- A text in which each table is closed by a line that begins with `|}`. -/
inductive TablesClosed : List Str → Prop where
  | nil : TablesClosed []
  | line {l : Str} {rest : List Str} (h : ¬ StartsTable l) (hr : TablesClosed rest) : TablesClosed (l :: rest)
  | table {first last : Str} {body rest : List Str} (hf : StartsTable first) (hb : WithinTable body) (hl : b!"|}" <+: last)
      (hr : TablesClosed rest) : TablesClosed (first :: (body ++ last :: rest))

end Verif.Spec
