import Verif.Spec.WikiLinks
import Verif.Model.Lists

/-!
# Nested lists
-/

namespace Verif.Spec
open Verif.Model Verif.Go
open scoped List

/-- The characters for lists: `*` for unordered and `#` for ordered lists, `;` and `:` for the headings and the other
items of description lists. -/
inductive ListMark where
  | star | hash | semicolon | colon
  deriving DecidableEq, Repr

def ListMark.char : ListMark → Byte
  | .star => 0x2A
  | .hash => 0x23
  | .semicolon => 0x3B
  | .colon => 0x3A

def ListMark.kind : ListMark → ListKind
  | .star => .unordered
  | .hash => .ordered
  | .semicolon | .colon => .description

def ListMark.kindName : ListMark → Str
  | .star => b!"UNORDERED_LIST"
  | .hash => b!"ORDERED_LIST"
  | .semicolon | .colon => b!"DESCRIPTION_LIST"

def ListMark.itemType : ListMark → ItemType
  | .star | .hash => .normal
  | .semicolon => .descriptionHead
  | .colon => .descriptionItem

/-- A list that begins with the character `m` can have items with the character `c`: its own one, and in description
lists that begin with a heading also the other one. -/
def ListMark.Allows (m c : ListMark) : Prop := c = m ∨ (m = .semicolon ∧ c = .colon)

instance (m c : ListMark) : Decidable (m.Allows c) := by unfold ListMark.Allows; infer_instance

mutual
/-- A list: its first character and its items. -/
inductive WikiList where
  | mk (mark : ListMark) (items : List WikiItem)
/-- An item with the lists in it:
* `hull`: nothing but lists, for a list that begins with a deeper level, as `**a`,
* `entry`: a text,
* `pair`: `;heading:item` in one line, where the lists belong to the item. -/
inductive WikiItem where
  | hull (subLists : List WikiList)
  | entry (mark : ListMark) (text : Str) (subLists : List WikiList)
  | pair (head item : Str) (subLists : List WikiList)
end

def WikiList.mark : WikiList → ListMark
  | .mk m _ => m

/-- The lines with the character in front. -/
def indented (m : ListMark) (lines : List Str) : List Str := lines.map (m.char :: ·)

mutual
/-- The lines of a list. The lines of inner lists have the character of the item they belong to in front. -/
def WikiList.lines : WikiList → List Str
  | .mk m items => itemsLines m items
def itemsLines (m : ListMark) : List WikiItem → List Str
  | [] => []
  | item :: rest => item.lines m ++ itemsLines m rest
def WikiItem.lines (m : ListMark) : WikiItem → List Str
  | .hull subLists => indented m (listsLines subLists)
  | .entry c text subLists => (c.char :: text) :: indented c (listsLines subLists)
  | .pair head item subLists =>
    (0x3B :: (head ++ b!":" ++ item)) :: indented .colon (listsLines subLists)
def listsLines : List WikiList → List Str
  | [] => []
  | l :: rest => l.lines ++ listsLines rest
end

/-- The text of an item: does not begin with a list character (which would belong to the next level) and does not end
with white space. -/
structure ItemText (text : Str) : Prop where
  first : ∀ (m : ListMark) (t : Str), text ≠ m.char :: t
  last : ∀ c ∈ spaceChars, ¬ c <:+ text

mutual
/-- Which lists are properly written. -/
def WikiList.WellFormed : WikiList → Prop
  | .mk m items => items ≠ [] ∧ itemsWellFormed m true items
/-- The first item begins with the character of the list, the other ones with an allowed character; only the first item
can be without text. -/
def itemsWellFormed (m : ListMark) : (first : Bool) → List WikiItem → Prop
  | _, [] => True
  | first, item :: rest => item.WellFormed m first ∧ itemsWellFormed m false rest
def WikiItem.WellFormed (m : ListMark) (first : Bool) : WikiItem → Prop
  | .hull subLists => first = true ∧ subLists ≠ [] ∧ listsWellFormed subLists
  | .entry c text subLists => (if first then c = m else m.Allows c) ∧ ItemText text ∧
      (c = .semicolon → (0x3A : Byte) ∉ text) ∧ listsWellFormed subLists
  | .pair head item subLists => m = .semicolon ∧ (0x3A : Byte) ∉ head ∧ ItemText (head ++ b!":" ++ item) ∧
      listsWellFormed subLists
/-- Lists in succession are different lists: the second one does not continue the first one. -/
def listsWellFormed : List WikiList → Prop
  | [] => True
  | l :: rest => l.WellFormed ∧ (∀ l' ∈ rest.head?, ¬ l.mark.Allows l'.mark) ∧ listsWellFormed rest
end

mutual
/-- The tree of the list: same kinds, items, order and nesting; `f` is what becomes of the texts. -/
def WikiList.tree (f : Str → Str) : WikiList → ListTok
  | .mk m items => .mk m.kind (itemsTree f m items)
def itemsTree (f : Str → Str) (m : ListMark) : List WikiItem → List ItemTok
  | [] => []
  | .hull subLists :: rest => .mk m.itemType [] (listsTree f subLists) :: itemsTree f m rest
  | .entry c text subLists :: rest => .mk c.itemType (f text) (listsTree f subLists) :: itemsTree f m rest
  | .pair head item subLists :: rest =>
    .mk .descriptionHead (f head) [] :: .mk .descriptionItem (f item) (listsTree f subLists) :: itemsTree f m rest
def listsTree (f : Str → Str) : List WikiList → List ListTok
  | [] => []
  | l :: rest => l.tree f :: listsTree f rest
end

mutual
/-- What is to become of a list: all texts are tokenized in the order of writing, there is a token for each list, and
the token of the outermost list has the structure of the list. -/
def tokenizedList (rec : Rec) : WikiList → TokM (ListTok × Str)
  | .mk m items => do
    let items ← tokenizedItems rec m items
    let key ← newToken m.kindName (.list (.mk m.kind items))
    pure (.mk m.kind items, key)
def tokenizedItems (rec : Rec) (m : ListMark) : List WikiItem → TokM (List ItemTok)
  | [] => pure []
  | item :: rest => do
    let new ← tokenizedItem rec m item
    let r ← tokenizedItems rec m rest
    pure (new ++ r)
def tokenizedItem (rec : Rec) (m : ListMark) : WikiItem → TokM (List ItemTok)
  | .hull subLists => do
    let subs ← tokenizedLists rec subLists
    pure [.mk m.itemType [] subs]
  | .entry c text subLists => do
    let t ← rec text
    let subs ← tokenizedLists rec subLists
    pure [.mk c.itemType t subs]
  | .pair head item subLists => do
    let h ← rec head
    let t ← rec item
    let subs ← tokenizedLists rec subLists
    pure [.mk .descriptionHead h [], .mk .descriptionItem t subs]
def tokenizedLists (rec : Rec) : List WikiList → TokM (List ListTok)
  | [] => pure []
  | l :: rest => do
    let (t, _) ← tokenizedList rec l
    let r ← tokenizedLists rec rest
    pure (t :: r)
end

/-- A text of lines and lists. The lines of a list can be surrounded by white space. -/
inductive ListBlock where
  | line (l : Str)
  | list (l : WikiList) (written : List Str)

def ListBlock.lines : ListBlock → List Str
  | .line l => [l]
  | .list _ written => written

/-- The line does not continue a list with the character `m`. -/
def NotContinued (m : ListMark) (line : Str) : Prop := ∀ c : ListMark, m.Allows c → ∀ t, trimSpace line ≠ c.char :: t

/-- Ordinary lines do not begin with a list character, and no list is continued by what follows. -/
def blocksWellFormed : List ListBlock → Prop
  | [] => True
  | .line l :: rest => 0x0A ∉ l ∧ (∀ (m : ListMark) (t : Str), trimSpace l ≠ m.char :: t) ∧ blocksWellFormed rest
  | .list l written :: rest => l.WellFormed ∧ (∀ w ∈ written, 0x0A ∉ w) ∧ written.map trimSpace = l.lines ∧
      (∀ next ∈ (rest.flatMap ListBlock.lines).head?, NotContinued l.mark next) ∧ blocksWellFormed rest

/-- What is to become of the text: each list is replaced by a line with its key. -/
def tokenizedBlocks (rec : Rec) : List ListBlock → TokM (List Str)
  | [] => pure []
  | .line l :: rest => do
    let r ← tokenizedBlocks rec rest
    pure (l :: r)
  | .list l _ :: rest => do
    let (_, key) ← tokenizedList rec l
    let r ← tokenizedBlocks rec rest
    pure (key :: r)

end Verif.Spec
