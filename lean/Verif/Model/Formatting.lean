import Verif.Model.Tokens
import Verif.Go.Strings

/-!
# Bold, italic and paragraphs, src/parser/formatting.go
-/

namespace Verif.Model
open Verif.Go

/-- `BoldItalicStackItemType`, src/parser/formatting.go:10-17. -/
inductive MarkType where
  | boldOpen | boldClose | italicOpen | italicClose
  deriving DecidableEq, Repr

/-- `BoldItalicStackItem`, src/parser/formatting.go:19-23. -/
structure MarkItem where
  type : MarkType
  index : Nat
  length : Nat
  deriving DecidableEq, Repr

/-- `hasOddNumberOfItems`, src/parser/formatting.go:269-287, which holds if the numbers of opening and closing items are
equal for both kinds. -/
def balanced (stack : List MarkItem) : Bool :=
  let count (t : MarkType) : Int := (stack.filter fun i => i.type = t).length
  count .italicOpen - count .italicClose = 0 ∧ count .boldOpen - count .boldClose = 0

/-- `len(stack) > 0 && stack[len(stack)-1].itemType == t` -/
def topIs (stack : List MarkItem) (t : MarkType) : Bool := stack.getLast?.map (·.type) = some t

/-- Lines 117-126: the items for two apostrophes at the index; `crossover` tells whether a crossing has to be repaired. -/
def italicItems (index : Nat) (italicIsOpen crossover : Bool) : List MarkItem :=
  if crossover then
    [⟨.boldClose, index, 0⟩, ⟨if italicIsOpen then .italicClose else .italicOpen, index, 2⟩, ⟨.boldOpen, index + 2, 0⟩]
  else [⟨if italicIsOpen then .italicClose else .italicOpen, index, 2⟩]

/-- Lines 155-166: the items for three apostrophes. -/
def boldItems (index : Nat) (boldIsOpen crossover : Bool) : List MarkItem :=
  if crossover then
    [⟨.italicClose, index, 0⟩, ⟨if boldIsOpen then .boldClose else .boldOpen, index, 3⟩, ⟨.italicOpen, index + 3, 0⟩]
  else [⟨if boldIsOpen then .boldClose else .boldOpen, index, 3⟩]

/-- `tokenizeBoldAndItalic`, src/parser/formatting.go:96-210. `none`: no success (the returned stack is not used in this
case). Each iteration and each recursive call increases the index; the first argument is an upper bound for the number
of steps that are left (`content.length + 1 - index`). -/
def tokenizeBoldAndItalic (content : Str) (repair : Bool) :
    (steps : Nat) → (index : Nat) → (stack : List MarkItem) → (boldIsOpen italicIsOpen : Bool) → Option (List MarkItem)
  | 0, _, _, _, _ => none
  | steps + 1, index, stack, boldIsOpen, italicIsOpen =>
    if index < content.length then
      let mightBeItalic := hasPrefix (content.drop index) b!"''"
      let mightBeBold := hasPrefix (content.drop index) b!"'''"
      let mightBelongToPrev := decide (0 < index) && hasPrefix (content.drop (index - 1)) b!"''"
      let italicCrossover := topIs stack .boldOpen && italicIsOpen
      let boldCrossover := topIs stack .italicOpen && boldIsOpen
      let asItalic :=
        if mightBeItalic && (!italicCrossover || repair) then
          tokenizeBoldAndItalic content repair steps (index + 2) (stack ++ italicItems index italicIsOpen italicCrossover)
            boldIsOpen (!italicIsOpen)
        else none
      match asItalic with
      | some result => some result
      | none =>
        if mightBeBold then
          if boldCrossover && !repair then none
          else tokenizeBoldAndItalic content repair steps (index + 3) (stack ++ boldItems index boldIsOpen boldCrossover)
            (!boldIsOpen) italicIsOpen
        else if mightBelongToPrev then none
        else if mightBeItalic then none
        else if stack ≠ [] && balanced stack then some stack
        else tokenizeBoldAndItalic content repair steps (index + 1) stack boldIsOpen italicIsOpen
    else if balanced stack then some stack else none

/-- The marker of an item, lines 68-81. -/
def MarkType.marker : MarkType → Str
  | .boldOpen => markerBoldOpen
  | .boldClose => markerBoldClose
  | .italicOpen => markerItalicOpen
  | .italicClose => markerItalicClose

/-- Lines 60-88: replaces the apostrophes by markers. Result: the new content and the index behind the last marker. (A
marker is always longer than the apostrophes that it replaces.) -/
def applyMarks : (stack : List MarkItem) → (chars : Str) → (offset index : Nat) → Str × Nat
  | [], chars, _, index => (chars, index)
  | item :: rest, chars, offset, _ =>
    let itemIndex := item.index + offset
    applyMarks rest (chars.take itemIndex ++ item.type.marker ++ chars.drop (itemIndex + item.length))
      (offset + (item.type.marker.length - item.length)) (itemIndex + item.type.marker.length)

/-- Lines 35-37: skips characters until two apostrophes or the last character. First argument: `content[index:]`. -/
def skipToMark : Str → Nat → Nat
  | [], index => index
  | [_], index => index
  | a :: b :: t, index => if hasPrefix (a :: b :: t) b!"''" then index else skipToMark (b :: t) (index + 1)

/-- Lines 42-56: a search without repairs, and if this does not succeed, one with repairs. -/
def findMarks (content : Str) (index : Nat) : Option (List MarkItem) :=
  match tokenizeBoldAndItalic content false (content.length + 1 - index) index [] false false with
  | some stack => some stack
  | none => tokenizeBoldAndItalic content true (content.length + 1 - index) index [] false false

/-- The loop of `parseBoldAndItalic`, src/parser/formatting.go:33-89. -/
def boldItalicLoop : (fuel : Nat) → (content : Str) → (index : Nat) → Option Str
  | 0, _, _ => none
  | fuel + 1, content, index =>
    let index := skipToMark (content.drop index) index
    if index + 1 < content.length then
      match findMarks content index with
      | some stack =>
        let (content, index) := applyMarks stack content 0 index
        boldItalicLoop fuel content index
      | none => some content
    else some content

/-- `parseBoldAndItalic`, src/parser/formatting.go:25-92. -/
def parseBoldAndItalic (fuel : Nat) (content : Str) : TokM Str := fun s =>
  (boldItalicLoop fuel content 0).map fun c => .ok (c, s)

/-- The loop of `parseParagraphs`, src/parser/formatting.go:225-263. -/
def paragraphLines : (lines : List Str) → (lineBefore : Str) → (ignoreEmptyLines createParagraph : Bool) → List Str
  | [], _, _, _ => []
  | line :: rest, lineBefore, ignoreEmptyLines, createParagraph =>
    if isTokenLine line then line :: paragraphLines rest line true false
    else if ignoreEmptyLines then
      if line ≠ [] then
        (if createParagraph then [markerParagraph] else []) ++ line :: paragraphLines rest line false false
      else paragraphLines rest line true createParagraph
    else if line = [] ∧ lineBefore ≠ [] then paragraphLines rest line true true
    else line :: paragraphLines rest line false createParagraph

/-- `parseParagraphs`, src/parser/formatting.go:215-266. -/
def parseParagraphs (content : Str) : Str := join b!"\n" (paragraphLines (split content b!"\n") [] true false)

end Verif.Model
