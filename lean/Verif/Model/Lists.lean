import Verif.Model.Tokens
import Verif.Go.Strings

/-!
# Lists, src/parser/list.go
-/

namespace Verif.Model
open Verif.Go

/-- `isListStartingCharacter`, src/parser/list.go:237-239. -/
def isListChar (c : Byte) : Bool := c = 0x2A || c = 0x23 || c = 0x3B || c = 0x3A

/-- `belongsToListPrefix`, src/parser/list.go:222-235. -/
def belongsTo (line : Str) (listPrefix : Byte) : Bool :=
  match line with
  | [] => false
  | c :: _ => if listPrefix = 0x3B then c = 0x3A || c = 0x3B else c = listPrefix

/-- `getListTokenKey`, src/parser/list.go:261-274, for the four list characters. -/
def listTokenKey (listPrefix : Byte) : Str :=
  if listPrefix = 0x2A then b!"UNORDERED_LIST" else if listPrefix = 0x23 then b!"ORDERED_LIST"
  else b!"DESCRIPTION_LIST"

/-- Lines 202-217: the type of the token. -/
def listKind (listPrefix : Byte) : ListKind :=
  if listPrefix = 0x2A then .unordered else if listPrefix = 0x23 then .ordered else .description

/-- `getListItemTypeForList`, src/parser/list.go:276-289. -/
def dummyItemType (listPrefix : Byte) : ItemType :=
  if listPrefix = 0x3B then .descriptionHead else if listPrefix = 0x3A then .descriptionItem else .normal

/-- Lines 137-149: adds a list to the last item or creates an item for it. -/
def addSubList (listPrefix : Byte) (items : List ItemTok) (l : ListTok) : List ItemTok :=
  match items.getLast? with
  | none => [.mk (dummyItemType listPrefix) [] [l]]
  | some (.mk type content subLists) => items.dropLast ++ [.mk type content (subLists ++ [l])]

/-- Lines 160-195: the items of a line that does not start a sub list. `text` is the line without its first
character. -/
def lineItems (rec : Rec) (linePrefix : Byte) (text : Str) : TokM (List ItemTok) :=
  if linePrefix = 0x3B then
    match cut b!":" text with
    | none => do
      let head ← rec text
      pure [.mk .descriptionHead head []]
    | some (a, b) => do
      let head ← rec a
      let item ← rec b
      pure [.mk .descriptionHead head [], .mk .descriptionItem item []]
  else if linePrefix = 0x3A then do
    let item ← rec text
    pure [.mk .descriptionItem item []]
  else do
    let item ← rec text
    pure [.mk .normal item []]

mutual
/-- `tokenizeList`, src/parser/list.go:74-220. `lines` are the lines from the start index on. Result: the token, its key
and the number of lines that belong to the list. -/
def tokenizeList (rec : Rec) : (fuel : Nat) → (lines : List Str) → (listPrefix : Byte) → TokM (ListTok × Str × Nat)
  | 0, _, _ => TokM.running
  | fuel + 1, lines, listPrefix => do
    let listLines := (lines.map trimSpace).takeWhile fun l => belongsTo l listPrefix
    let items ← listItems rec fuel listPrefix listLines []
    let key ← getToken (listTokenKey listPrefix)
    let token := ListTok.mk (listKind listPrefix) items
    setRawToken key (.list token)
    pure (token, key, listLines.length)

/-- The loop over the lines of a list, src/parser/list.go:106-197; `items` are the items so far. -/
def listItems (rec : Rec) : (fuel : Nat) → (listPrefix : Byte) → (listLines : List Str) → (items : List ItemTok) →
    TokM (List ItemTok)
  | 0, _, _, _ => TokM.running
  | _ + 1, _, [], items => pure items
  | fuel + 1, listPrefix, [] :: rest, items => listItems rec fuel listPrefix rest items
  | fuel + 1, listPrefix, (c :: text) :: rest, items =>
    match text with
    | d :: _ =>
      if isListChar d then do
        let subLines := (((c :: text) :: rest).map List.tail).takeWhile fun l => belongsTo l d
        let (subList, _, _) ← tokenizeList rec fuel subLines d
        listItems rec fuel listPrefix (((c :: text) :: rest).drop subLines.length) (addSubList listPrefix items subList)
      else do
        let new ← lineItems rec c text
        listItems rec fuel listPrefix rest (items ++ new)
    | [] => do
      let new ← lineItems rec c text
      listItems rec fuel listPrefix rest (items ++ new)
end

/-- The loop of `parseLists`, src/parser/list.go:46-65. `lines` are the lines from the index on. -/
def parseListLines (rec : Rec) : (fuel : Nat) → (lines : List Str) → TokM (List Str)
  | 0, _ => TokM.running
  | _ + 1, [] => pure []
  | fuel + 1, line :: rest =>
    match trimSpace line with
    | c :: _ =>
      if isListChar c then do
        let (_, key, n) ← tokenizeList rec fuel (line :: rest) c
        let rest ← parseListLines rec fuel ((line :: rest).drop n)
        pure (key :: rest)
      else do
        let rest ← parseListLines rec fuel rest
        pure (line :: rest)
    | [] => do
      let rest ← parseListLines rec fuel rest
      pure (line :: rest)

/-- `parseLists`, src/parser/list.go:43-69. -/
def parseLists (rec : Rec) (fuel : Nat) (content : Str) : TokM Str := do
  let lines ← parseListLines rec fuel (split content b!"\n")
  pure (join b!"\n" lines)

end Verif.Model
