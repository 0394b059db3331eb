import Verif.Spec.Nowiki
import Verif.Spec.WikiTables
import Verif.Model.References

/-!
# Articles with references: how they are written and which numbers they should have
-/

namespace Verif.Spec
open Verif.Go Verif.Model
open scoped List

/-! ### Attributes of tags -/

/-- An attribute of a tag: `key="value"` or `key=value`. -/
structure RefAttr where
  key : Str
  value : Str
  quoted : Bool

def RefAttr.text (a : RefAttr) : Str :=
  b!" " ++ a.key ++ b!"=" ++ if a.quoted then b!"\"" ++ a.value ++ b!"\"" else a.value

/-- The key has no special character. A value in quotation marks has no quotation mark, no angle bracket and no line
break, and does not itself look like the attributes in question. A value without quotation marks has no white space and no
slash either, and it is not empty. -/
structure RefAttr.WellFormed (a : RefAttr) : Prop where
  key : ∀ c ∈ a.key, c ≠ 0x20 ∧ c ≠ 0x22 ∧ c ≠ 0x3C ∧ c ≠ 0x3D ∧ c ≠ 0x3E ∧ c ≠ 0x0A
  value : ∀ c ∈ a.value, c ≠ 0x22 ∧ c ≠ 0x3C ∧ c ≠ 0x3E ∧ c ≠ 0x0A
  name : ¬ b!" name=" <:+: a.value
  group : ¬ b!" group=" <:+: a.value
  plain : a.quoted = false → a.value ≠ [] ∧ ∀ c ∈ a.value, c ≠ 0x3D ∧ c ≠ 0x2F ∧ regexSpace c = false

abbrev RefAttrs := List RefAttr

def RefAttrs.text (as : RefAttrs) : Str := as.flatMap RefAttr.text

/-- The value of an attribute, empty if there is none. -/
def RefAttrs.get (as : RefAttrs) (key : Str) : Str := ((as.find? fun a => a.key = key).map RefAttr.value).getD []

structure RefAttrs.WellFormed (as : RefAttrs) : Prop where
  each : ∀ a ∈ as, a.WellFormed
  /-- No attribute is given twice. -/
  once : (as.map RefAttr.key).Nodup
  /-- Nobody uses the internal name of the group of the references without a group. -/
  notDefault : RefAttrs.get as b!"group" ≠ defaultReferenceGroup

/-! ### The article -/

/-- A tag, or the part from an opening to a closing tag, that has to do with references. Keywords are written with
upper and lower case letters; `space` are spaces in front of the end of the tag. The content of a reference is its wiki text
or something that stands for it. -/
inductive RefItem (α : Type) where
  /-- `<ref name="a">content</ref>` -/
  | define (tag : Str) (attrs : RefAttrs) (space : Str) (content : α) (closing : Str)
  /-- `<ref name="a" />` -/
  | use (tag : Str) (attrs : RefAttrs) (space : Str)
  /-- `<references />` -/
  | list (tag : Str) (attrs : RefAttrs) (space : Str)
  /-- `<references>` -/
  | openList (tag : Str) (attrs : RefAttrs) (space : Str)
  /-- `</references>`, the end of the list of the group -/
  | closeList (tag : Str) (group : Str)

/-- The item with another kind of content. -/
def RefItem.map {α β : Type} (f : α → β) : RefItem α → RefItem β
  | .define tag attrs space content closing => .define tag attrs space (f content) closing
  | .use tag attrs space => .use tag attrs space
  | .list tag attrs space => .list tag attrs space
  | .openList tag attrs space => .openList tag attrs space
  | .closeList tag group => .closeList tag group

def RefItem.text : RefItem Str → Str
  | .define tag attrs space content closing => tag ++ attrs.text ++ space ++ b!">" ++ content ++ closing
  | .use tag attrs space => tag ++ attrs.text ++ space ++ b!"/>"
  | .list tag attrs space => tag ++ attrs.text ++ space ++ b!"/>"
  | .openList tag attrs space => tag ++ attrs.text ++ space ++ b!">"
  | .closeList tag _ => tag ++ b!">"

/-- There is no tag of a reference in the text. -/
def NoRefTag (t : Str) : Prop := ¬ b!"<ref" <:+: lowered t ∧ ¬ b!"</re" <:+: lowered t

def Spaces (s : Str) : Prop := ∀ c ∈ s, c = 0x20

def RefItem.WellFormed : RefItem Str → Prop
  | .define tag attrs space content closing => lowered tag = b!"<ref" ∧ attrs.WellFormed ∧ Spaces space ∧
      lowered closing = b!"</ref>" ∧ ¬ b!"<ref" <:+: lowered content ∧ ¬ b!"</ref>" <:+: lowered content
  | .use tag attrs space => lowered tag = b!"<ref" ∧ attrs.WellFormed ∧ Spaces space ∧ RefAttrs.get attrs b!"name" ≠ []
  | .list tag attrs space => lowered tag = b!"<references" ∧ attrs.WellFormed ∧ Spaces space
  | .openList tag attrs space => lowered tag = b!"<references" ∧ attrs.WellFormed ∧ Spaces space
  | .closeList tag group => lowered tag = b!"</references" ∧ group ≠ defaultReferenceGroup

/-- A text and items with a text behind each of them. -/
abbrev RefParts := List (RefItem Str × Str)

def RefParts.text (parts : RefParts) : Str := parts.flatMap fun p => p.1.text ++ p.2

/-! ### The numbers -/

/-- What identifies a reference of a group: its name, or, without a name, its position in the article. -/
inductive RefId where
  | named (name : Str)
  | unnamed (position : Nat)
  deriving DecidableEq

/-- The reference that an item with the given position mentions: group (empty for references without group) and
identity. -/
def RefItem.mentions {α : Type} (position : Nat) : RefItem α → Option (Str × RefId)
  | .define _ attrs .. => some (attrs.get b!"group",
      if attrs.get b!"name" = [] then .unnamed position else .named (attrs.get b!"name"))
  | .use _ attrs _ => some (attrs.get b!"group", .named (attrs.get b!"name"))
  | _ => none

/-- The references of a group in the order in which they are mentioned for the first time. `known`: those that have
been mentioned before. -/
def refOrderFrom {α : Type} (group : Str) : (position : Nat) → (known : List RefId) → List (RefItem α) → List RefId
  | _, known, [] => known
  | p, known, item :: items =>
    refOrderFrom group (p + 1)
      (match item.mentions p with
        | some (g, id) => if g = group ∧ id ∉ known then known ++ [id] else known
        | none => known) items

def refOrder {α : Type} (group : Str) (items : List (RefItem α)) : List RefId := refOrderFrom group 0 [] items

/-- The list of references that an item shows. -/
def RefItem.listGroup {α : Type} : RefItem α → Option Str
  | .list _ attrs _ => some (attrs.get b!"group")
  | .closeList _ group => some group
  | _ => none

/-- The definitions of references of a group that have not been shown in a list yet (the last one first) behind a
further item with the given position. -/
def refDefsStep {α : Type} (group : Str) (position : Nat) (known : List (RefId × α)) (item : RefItem α) : List (RefId × α) :=
  match item with
  | .define _ _ _ content _ =>
    match item.mentions position with
    | some (g, id) => if g = group then (id, content) :: known else known
    | none => known
  | item => if item.listGroup = some group then [] else known

def refDefsFrom {α : Type} (group : Str) : (position : Nat) → (known : List (RefId × α)) → List (RefItem α) → List (RefId × α)
  | _, known, [] => known
  | p, known, item :: items => refDefsFrom group (p + 1) (refDefsStep group p known item) items

def refDefs {α : Type} (group : Str) (items : List (RefItem α)) : List (RefId × α) := refDefsFrom group 0 [] items

/-- The entries of a list of references behind the given items: in the order of the numbers, the number and the text of
each reference that has been defined (the last text if there are several). -/
def refEntries {α : Type} (group : Str) (items : List (RefItem α)) : List (Nat × α) :=
  (refOrder group items).zipIdx.filterMap fun x =>
    ((refDefs group items).find? fun d => d.1 = x.1).map fun d => (x.2, d.2)

/-- The items are within a list of references, `<references>…</references>`: its group. -/
def refOpenFrom {α : Type} : (opened : Option Str) → List (RefItem α) → Option Str
  | o, [] => o
  | _, .openList _ attrs _ :: items => refOpenFrom (some (attrs.get b!"group")) items
  | _, .closeList .. :: items => refOpenFrom none items
  | o, _ :: items => refOpenFrom o items

def refOpen {α : Type} (items : List (RefItem α)) : Option Str := refOpenFrom none items

/-- The item at the position mentions the reference of the group. -/
def RefMention (items : List (RefItem Str)) (position : Nat) (group : Str) (id : RefId) : Prop :=
  ∃ item, items[position]? = some item ∧ item.mentions position = some (group, id)

/-- The number that is shown for a mention. -/
def refNumber (items : List (RefItem Str)) (position : Nat) (group : Str) (id : RefId) : Nat :=
  (refOrder group (items.take (position + 1))).idxOf id

/-! ### What is shown -/

/-- What the parser makes of the article. -/
inductive RefPiece (α : Type) where
  | text (t : Str)
  /-- A marker with the number. -/
  | marker (number : Nat)
  /-- A list of references. -/
  | list (entries : List (Nat × α))

/-- What an item becomes behind the given items: The first mention of a reference has the number of references of the
group that have been mentioned before, each further mention has the same number. There are no markers within lists. -/
def refPieces {α : Type} (before : List (RefItem α)) (item : RefItem α) : List (RefPiece α) :=
  match item.mentions before.length with
  | some (group, id) =>
    if refOpen before = none then [.marker ((refOrder group (before ++ [item])).idxOf id)] else []
  | none =>
    match item.listGroup with
    | some group => [.list (refEntries group before)]
    | none => []

def refShown : (before : List (RefItem Str)) → RefParts → List (RefPiece Str)
  | _, [] => []
  | before, (item, text) :: parts => refPieces before item ++ [.text text] ++ refShown (before ++ [item]) parts

/-- Line breaks at the end. -/
def breaksAtEnd (t : Str) : Nat := (t.reverse.takeWhile fun c => c = 0x0A).length

def withoutBreaks (t : Str) : Str := t.take (t.length - breaksAtEnd t)

/-- The text consists of the pieces: a marker is a key of a token with the number, a list of references has a line for
each entry with a key of a token with the number and the tokenized text. Line breaks in front of a list are removed. -/
inductive RefsWritten (rec : Rec) (m : List (Str × Token)) : List (RefPiece Str) → Str → Prop where
  | nil : RefsWritten rec m [] []
  | text {ps : List (RefPiece Str)} {out : Str} (t : Str) (h : RefsWritten rec m ps out) :
      RefsWritten rec m (ps ++ [.text t]) (out ++ t)
  | marker {ps : List (RefPiece Str)} {out : Str} (n k : Nat) (h : RefsWritten rec m ps out)
      (hk : lookupToken m (tokenKey b!"REF_USAGE" k) = some (.refUsage n)) :
      RefsWritten rec m (ps ++ [.marker n]) (out ++ tokenKey b!"REF_USAGE" k)
  | list {ps : List (RefPiece Str)} {out : Str} (entries : List (Nat × Str)) (keys : List Str) (h : RefsWritten rec m ps out)
      (hk : Matched (fun e key => ∃ k content, key = tokenKey b!"REF_DEF" k ∧ Tokenized rec e.2 content ∧
        lookupToken m key = some (.refDefinition e.1 content)) entries keys) :
      RefsWritten rec m (ps ++ [.list entries]) (withoutBreaks out ++ keys.flatMap fun key => b!"\n" ++ key)

/-! ### Which articles are covered -/

/-- The number of line breaks at the end of the new text behind an item (that follows `breaks` line breaks) and a text. -/
def breaksBehind (before : List (RefItem Str)) (item : RefItem Str) (text : Str) (breaks : Nat) : Nat :=
  if ∀ c ∈ text, c = 0x0A then
    text.length + match refPieces before item with
      | [] => breaks
      | _ => 0
  else breaksAtEnd text

/-- The tags are in order: Lists are not nested and the end of a list belongs to its start. Behind a tag that is removed
there is a character in front of the next tag. The entries of a list (each with 20 characters at least) and the text
behind it are longer than the line breaks in front of the list, or there is no further tag. -/
def RefPartsOk : (before : List (RefItem Str)) → (breaks : Nat) → RefParts → Prop
  | _, _, [] => True
  | before, breaks, (item, text) :: parts =>
    item.WellFormed ∧ NoRefTag text ∧
    (match item with
      | .define .. | .use .. => refOpen before = none ∨ text ≠ []
      | .list _ attrs _ => refOpen before = none ∧
          (parts = [] ∨ breaks < 20 * (refEntries (attrs.get b!"group") before).length + text.length)
      | .openList .. => refOpen before = none ∧ text ≠ []
      | .closeList _ group => (refOpen before = some group ∨ refOpen before = none ∧ group = []) ∧
          (parts = [] ∨ breaks < 20 * (refEntries group before).length + text.length)) ∧
    RefPartsOk (before ++ [item]) (breaksBehind before item text breaks) parts

end Verif.Spec
