import Verif.Go.Decimal
import Verif.Go.Space
import Verif.Model.Parser

/-!
# Tokens and the state of the tokenizer, src/parser/tokenizer.go
-/

namespace Verif.Model
open Verif.Go

/-- `UnorderedListToken`, `OrderedListToken`, `DescriptionListToken`, src/parser/list.go:13-41. -/
inductive ListKind where
  | unordered | ordered | description
  deriving DecidableEq, Repr

/-- `ListItemTokenType`, src/parser/list.go:23-29. -/
inductive ItemType where
  | normal | descriptionItem | descriptionHead
  deriving DecidableEq, Repr

mutual
/-- The three list tokens, src/parser/list.go:13-41. -/
inductive ListTok where
  | mk (kind : ListKind) (items : List ItemTok)
/-- `ListItemToken`, src/parser/list.go:31-36. -/
inductive ItemTok where
  | mk (type : ItemType) (content : Str) (subLists : List ListTok)
end

/-- `TableColToken` with its `TableColAttributeToken`, src/parser/table.go:16-31. -/
structure TableCol where
  attributes : List Str
  content : Str
  isHeading : Bool
  deriving DecidableEq, Repr

/-- The values of the token map. The token types for list items, rows, columns, captions and attributes occur as parts
of other tokens only. -/
inductive Token where
  /-- `HeadingToken`, src/parser/heading.go:7-11 -/
  | heading (content : Str) (depth : Nat)
  /-- `InternalLinkToken`, src/parser/link.go:17-21 -/
  | internalLink (articleName linkText : Str)
  /-- `ExternalLinkToken`, src/parser/link.go:23-27 -/
  | externalLink (url linkText : Str)
  /-- `StringToken`, src/parser/tokenizer.go:66-70 -/
  | string (s : Str)
  /-- `TableToken`, src/parser/table.go:5-9 -/
  | table (rows : List (List TableCol)) (caption : Str)
  /-- src/parser/list.go:13-41 -/
  | list (l : ListTok)
  /-- `ImageToken`, src/parser/image.go:19-25 -/
  | image (filename caption : Str) (sizeX sizeY : Int)
  /-- `InlineImageToken`, src/parser/image.go:27-32 -/
  | inlineImage (filename : Str) (sizeX sizeY : Int)
  /-- `RefDefinitionToken`, src/parser/reference.go:10-14 -/
  | refDefinition (index : Nat) (content : Str)
  /-- `RefUsageToken`, src/parser/reference.go:16-19 -/
  | refUsage (index : Nat)
  /-- `MathToken`, src/parser/math.go:5-8 -/
  | math (content : Str)
  /-- `NowikiToken`, src/parser/nowiki.go:5-8 -/
  | nowiki (content : Str)

/-- The fields of `Tokenizer` that change, src/parser/tokenizer.go:47-54. The map is represented by the list of all
assignments to it, the last one first, see `lookupToken`. -/
structure TokState where
  tokenMap : List (Str × Token)
  counter : Nat
  images : List Str

/-- `NewTokenizer`, src/parser/tokenizer.go:72-81. -/
def TokState.initial : TokState := { tokenMap := [], counter := 0, images := [] }

/-- Access to the map of tokens: the last assignment to the key counts. -/
def lookupToken (m : List (Str × Token)) (key : Str) : Option Token :=
  (m.find? fun e => e.1 == key).map Prod.snd

/-- A part of the tokenizer: changes the state and returns normally or panics. `none` means that it has not finished
after the given number of steps (each function with an unbounded loop or recursion has such a number as parameter). -/
def TokM (α : Type) := TokState → Option (Res (α × TokState))

namespace TokM

instance : Monad TokM where
  pure a := fun s => some (.ok (a, s))
  bind m f := fun s =>
    match m s with
    | none => none
    | some (.ok (a, s')) => f a s'
    | some .err => some .err
    | some .panic => some .panic
    | some .fatal => some .fatal

/-- A run time panic. -/
def panic {α : Type} : TokM α := fun _ => some .panic

/-- Not finished. -/
def running {α : Type} : TokM α := fun _ => none

/-- A computation without effect on the state. -/
def lift {α : Type} (r : Res α) : TokM α := fun s =>
  match r with
  | .ok a => some (.ok (a, s))
  | .err => some .err
  | .panic => some .panic
  | .fatal => some .fatal

end TokM

/-- The template `$$TOKEN_%s_%d$$` of token keys, src/parser/pattern.go:23. -/
def tokenKey (tokenType : Str) (n : Nat) : Str := b!"$$TOKEN_" ++ tokenType ++ b!"_" ++ decimal n ++ b!"$$"

/-- `getToken`, src/parser/tokenizer.go:122-126. -/
def getToken (tokenType : Str) : TokM Str := fun s =>
  some (.ok (tokenKey tokenType s.counter, { s with counter := s.counter + 1 }))

/-- `setRawToken`, src/parser/tokenizer.go:132-134. -/
def setRawToken (key : Str) (token : Token) : TokM Unit := fun s =>
  some (.ok ((), { s with tokenMap := (key, token) :: s.tokenMap }))

/-- `t.images = append(t.images, …)`, src/parser/image.go:81. -/
def addImage (name : Str) : TokM Unit := fun s =>
  some (.ok ((), { s with images := s.images ++ [name] }))

/-- The field `tokenizeContent` of the tokenizer, src/parser/tokenizer.go:53, which the parsing functions call for the
content of what they have found. -/
abbrev Rec := Str → TokM Str

/-- `MARKER_BOLD_OPEN`, src/parser/tokenizer.go:40. -/
def markerBoldOpen : Str := b!"$$MARKER_BOLD_OPEN$$"
/-- `MARKER_BOLD_CLOSE`, src/parser/tokenizer.go:41. -/
def markerBoldClose : Str := b!"$$MARKER_BOLD_CLOSE$$"
/-- `MARKER_ITALIC_OPEN`, src/parser/tokenizer.go:42. -/
def markerItalicOpen : Str := b!"$$MARKER_ITALIC_OPEN$$"
/-- `MARKER_ITALIC_CLOSE`, src/parser/tokenizer.go:43. -/
def markerItalicClose : Str := b!"$$MARKER_ITALIC_CLOSE$$"
/-- `MARKER_PARAGRAPH`, src/parser/tokenizer.go:44. -/
def markerParagraph : Str := b!"$$MARKER_PARAGRAPH$$"

/-- The class `[A-Z_0-9]` of `TOKEN_REGEX`. -/
def tokenChar (c : Byte) : Bool := (65 ≤ c && c ≤ 90) || c = 0x5F || (48 ≤ c && c ≤ 57)

/-- `\d` -/
def digit (c : Byte) : Bool := 48 ≤ c && c ≤ 57

/-- `[A-Z_0-9]+_\d+` on a whole text of characters of the class: digits at the end, an underscore in front of them and
at least one character in front of the underscore. -/
def tokenName (s : Str) : Bool :=
  let r := s.reverse
  let digits := r.takeWhile digit
  match r.dropWhile digit with
  | u :: rest => digits ≠ [] && u = 0x5F && rest ≠ []
  | [] => false

/-- `TOKEN_REGEX` at the beginning of a text, src/parser/pattern.go:21: the text behind the match. The characters of the
name are followed by a dollar sign, so that all of them are taken. -/
def matchToken (s : Str) : Option Str :=
  if hasPrefix s b!"$$TOKEN_" then
    let rest := s.drop 8
    let name := rest.takeWhile tokenChar
    let after := rest.dropWhile tokenChar
    if tokenName name && hasPrefix after b!"$$" then some (after.drop 2) else none
  else none

/-- `tokenLineRegex.MatchString`, src/parser/pattern.go:22 and 27. -/
def isTokenLine (line : Str) : Bool := matchToken line == some []

end Verif.Model
