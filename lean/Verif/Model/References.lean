import Verif.Model.Tokens
import Verif.Model.CleanTemplates

/-!
# References, src/parser/reference.go
-/

namespace Verif.Model
open Verif.Go

/-- A text without upper case letters at the beginning of a text with the flag `(?i)`: the text behind it. Letters match
without regard to case; the letter s also matches the character U+017F. (There is no k, which has a third variant as
well, in any of the texts.) -/
def foldPrefix : (pattern s : Str) → Option Str
  | [], s => some s
  | _ :: _, [] => none
  | p :: ps, b :: s =>
    if lowerByte b = p then foldPrefix ps s
    else if p = 0x73 ∧ b = 0xC5 then
      match s with
      | c :: s => if c = 0xBF then foldPrefix ps s else none
      | [] => none
    else none

/-- `MatchString`: the expression matches at some position. -/
def matchesSomewhere (f : Str → Bool) : Str → Bool
  | [] => f []
  | c :: t => f (c :: t) || matchesSomewhere f t

/-- `.*?/\s*>` -/
def slashClose : Str → Bool
  | [] => false
  | c :: t => (c = 0x2F && hasPrefix (t.dropWhile regexSpace) b!">") || (c ≠ 0x0A && slashClose t)

/-- `.*?\s*>` -/
def startClose : Str → Bool
  | [] => false
  | c :: t => hasPrefix ((c :: t).dropWhile regexSpace) b!">" || (c ≠ 0x0A && startClose t)

/-- `referencePlaceholderShortRegex`, src/parser/pattern.go:57. -/
def isPlaceholderShort : Str → Bool :=
  matchesSomewhere fun s => ((foldPrefix b!"<references" s).map slashClose).getD false

/-- `referencePlaceholderStartRegex`, src/parser/pattern.go:58. -/
def isPlaceholderStart : Str → Bool :=
  matchesSomewhere fun s => ((foldPrefix b!"<references" s).map startClose).getD false

/-- `referencePlaceholderEndRegex`, src/parser/pattern.go:59. -/
def isPlaceholderEnd : Str → Bool :=
  matchesSomewhere fun s =>
    ((foldPrefix b!"</references" s).map fun r => hasPrefix (r.dropWhile regexSpace) b!">").getD false

/-- The loop of lines 253-258 (quoted attributes): the part behind the first one that ends with the name. -/
def quotedValue (suffix : Str) : List Str → Res Str
  | [] => .ok []
  | part :: rest =>
    if hasSuffix part suffix then
      match rest with
      | value :: _ => .ok value
      | [] => .panic
    else quotedValue suffix rest

/-- `getAttribute`, src/parser/reference.go:249-276. The characters of an unquoted value are bytes here, in the code
they are runes, which is the same for valid UTF-8. -/
def getAttribute (content name : Str) : Res Str :=
  if contains content (b!" " ++ name ++ b!"=\"") then
    quotedValue (b!" " ++ name ++ b!"=") (split content b!"\"")
  else
    match cut (b!" " ++ name ++ b!"=") content with
    | some (_, value) => .ok (value.takeWhile fun c => c ≠ 0x2F && c ≠ 0x20 && c ≠ 0x3E)
    | none => .ok []

/-- `defaultReferenceGroup`, src/parser/reference.go:22. -/
def defaultReferenceGroup : Str := b!"__wiki2book_ungrouped_references_group__"

/-- `getGroupOrDefault`, src/parser/reference.go:238-244. -/
def getGroupOrDefault (content : Str) : Res Str := do
  let value ← getAttribute content b!"group"
  .ok (if value ≠ [] then value else defaultReferenceGroup)

/-- The local variables of `parseReferences`, src/parser/reference.go:49-60. The maps have pairs of the keys of the
outer and inner map as keys and are lists of the assignments, the last one first. -/
structure RefState where
  /-- `refNumberToContent` -/
  contents : List ((Str × Nat) × Str)
  /-- `nameToRefNumber` -/
  names : List ((Str × Str) × Nat)
  /-- `refNumberCounter` -/
  counters : List (Str × Nat)
  /-- `cursorWithinReferencePlaceholder` -/
  within : Bool
  /-- `currentPlaceholderGroup` -/
  placeholderGroup : Str

/-- Access to a map given by its assignments. -/
def assoc {α β : Type} [DecidableEq α] (m : List (α × β)) (k : α) : Option β := (m.find? fun e => e.1 = k).map Prod.snd

/-- `refNumberCounter[group]` -/
def RefState.counter (st : RefState) (group : Str) : Nat := (assoc st.counters group).getD 0

/-- Lines 146-160: the tokens of the references with numbers below `n` in the order of the numbers. Result: the text
with the keys. -/
def refDefinitions (contents : List ((Str × Nat) × Str)) (group : Str) (n : Nat) : (number : Nat) → TokM Str
  | 0 => pure []
  | k + 1 => do
    let number := n - (k + 1)
    match assoc contents (group, number) with
    | none => refDefinitions contents group n k
    | some content => do
      let key ← getToken b!"REF_DEF"
      setRawToken key (.refDefinition number content)
      let rest ← refDefinitions contents group n k
      pure (key ++ b!"\n" ++ rest)

/-- `strings.TrimRight(s, "\n")` -/
def trimNewlines (s : Str) : Str := trimRightOf (fun c => c = 0x0A) s

/-- `parseReferenceEndPlaceholder`, src/parser/reference.go:139-164. Result: the new content and the map without the
references of the group that have been output. -/
def refEndPlaceholder (content : Str) (i startEnd : Nat) (group : Str) (st : RefState) :
    TokM (Str × List ((Str × Nat) × Str)) := do
  let before := trimNewlines (content.take i) ++ b!"\n"
  let after := content.drop (startEnd + 1)
  let keys ← refDefinitions st.contents group (st.counter group) (st.counter group)
  pure (trimNewlines (before ++ keys) ++ after,
    st.contents.filter fun e => ¬ (e.1.1 = group ∧ e.1.2 < st.counter group))

/-- The key of a usage of a reference outside of the list of references; nothing within the list, lines 181-189 and
216-224. -/
def refUsage (within : Bool) (number : Nat) : TokM Str :=
  if within then pure []
  else do
    let key ← getToken b!"REF_USAGE"
    setRawToken key (.refUsage number)
    pure key

/-- `parseNamedReferenceUsage`, src/parser/reference.go:170-194. -/
def namedReferenceUsage (content : Str) (i startEnd : Nat) (name group : Str) (st : RefState) :
    TokM (Str × RefState) :=
  if name ≠ [] then do
    let known := assoc st.names (group, name)
    let number := known.getD (st.counter group)
    let st := match known with
      | some _ => st
      | none => { st with names := ((group, name), number) :: st.names, counters := (group, number + 1) :: st.counters }
    let key ← refUsage st.within number
    pure (content.take i ++ key ++ content.drop (startEnd + 1), st)
  else pure (content, st)

/-- `parseReferenceDefinition`, src/parser/reference.go:201-232. -/
def referenceDefinition (rec : Rec) (content : Str) (i startEnd refEnd : Nat) (name group : Str) (st : RefState) :
    TokM (Str × RefState) := do
  let counter := st.counter group
  let known := if name ≠ [] then assoc st.names (group, name) else none
  let number := known.getD counter
  let names := if name ≠ [] ∧ known = none then ((group, name), counter) :: st.names else st.names
  let text ← rec ((content.take refEnd).drop (startEnd + 1))
  let key ← refUsage st.within number
  pure (content.take i ++ key ++ content.drop (refEnd + 6),
    { st with
      names := names
      contents := ((group, number), text) :: st.contents
      counters := (group, if number = counter then counter + 1 else counter) :: st.counters })

/-- The body of the loop of `parseReferences` for a tag from `i` to `startEnd`, src/parser/reference.go:75-129. A missing
end of a reference makes the slice expression of line 214 panic. -/
def refTag (rec : Rec) (content : Str) (i startEnd : Nat) (st : RefState) : TokM (Str × RefState) := do
  let tag := (content.take (startEnd + 1)).drop i
  if isPlaceholderEnd tag || isPlaceholderShort tag then
    let group ← TokM.lift
      (if st.placeholderGroup = [] then getGroupOrDefault ((content.take startEnd).drop i) else .ok st.placeholderGroup)
    let (content, contents) ← refEndPlaceholder content i startEnd group st
    pure (content, { st with contents := contents, within := false, placeholderGroup := [] })
  else if isPlaceholderStart tag then
    let group ← TokM.lift (getGroupOrDefault ((content.take startEnd).drop i))
    pure (content.take i ++ content.drop (startEnd + 1), { st with within := true, placeholderGroup := group })
  else
    let attributes := (content.take startEnd).drop (i + 4)
    let name ← TokM.lift (getAttribute attributes b!"name")
    let group ← TokM.lift (getGroupOrDefault attributes)
    if content[startEnd - 1]? = some 0x2F then
      namedReferenceUsage content i startEnd name group st
    else
      match findCloseIgnoreCase content startEnd b!"<ref" b!"</ref>" with
      | none => TokM.panic
      | some refEnd => referenceDefinition rec content i startEnd refEnd name group st

/-- The loop of `parseReferences`, src/parser/reference.go:62-130. Without the end of the tag the slice expressions
panic (lines 75 and 99). -/
def refLoop (rec : Rec) : (fuel : Nat) → (content : Str) → (i : Nat) → RefState → TokM Str
  | 0, _, _, _ => TokM.running
  | fuel + 1, content, i, st =>
    if i + 4 < content.length then
      let cursor := (content.drop i).take 4
      if equalsIgnoreCase cursor b!"<ref" || equalsIgnoreCase cursor b!"</re" then
        match findCloseIgnoreCase content (i + 4) b!"<ref" b!">" with
        | none => TokM.panic
        | some startEnd => do
          let (content, st) ← refTag rec content i startEnd st
          refLoop rec fuel content (i + 1) st
      else refLoop rec fuel content (i + 1) st
    else pure content

/-- `parseReferences`, src/parser/reference.go:24-133. -/
def parseReferences (rec : Rec) (fuel : Nat) (content : Str) : TokM Str :=
  refLoop rec fuel content 0 { contents := [], names := [], counters := [], within := false, placeholderGroup := [] }

end Verif.Model
