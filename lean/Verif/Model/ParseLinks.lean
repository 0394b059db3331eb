import Verif.Model.Tokens
import Verif.Model.CleanTemplates

/-!
# Links, src/parser/link.go
-/

namespace Verif.Model
open Verif.Go

/-- The parameters of `parseLink`, src/parser/link.go:42. `delimiterRequired` and `removeSectionReference` are
`LINK_TYPE_EXTERNAL` and `LINK_TYPE_INTERNAL`, see lines 29-35. -/
structure LinkSyntax where
  opening : Str
  closing : Str
  delimiter : Str
  internal : Bool

/-- `parseInternalLinks`, src/parser/link.go:29-31. -/
def internalSyntax : LinkSyntax := ⟨b!"[[", b!"]]", b!"|", true⟩

/-- `parseExternalLinks`, src/parser/link.go:33-35. -/
def externalSyntax : LinkSyntax := ⟨b!"[", b!"]", b!" ", false⟩

/-- Lines 63-71: the text behind the opening brackets belongs to a file. -/
def isFileLink (env : ParserEnv) (item : Str) : Bool :=
  match cut b!":" item with
  | none => false
  | some (p, _) => decide (env.lower p ∈ env.config.list .filePrefixes)

/-- The first element of `strings.Split` and the other ones. -/
def splitHead (s sep : Str) : Str × List Str :=
  match split s sep with
  | [] => ([], [])
  | p :: ps => (p, ps)

/-- Lines 78-82: the target. -/
def linkTarget (x : LinkSyntax) (element : Str) : Str :=
  trimSpace (if x.internal then (splitN b!"#" 2 element).headD [] else element)

/-- Lines 84-107: the text of a link; `none` if the delimiter is missing but required. The index expression of line 93
panics for an empty target. -/
def linkText (x : LinkSyntax) (target : Str) (others : List Str) : Res (Option Str) :=
  if others = [] then
    if !x.internal then .ok none
    else
      match target with
      | [] => .panic
      | c :: _ => if c = 0x3A then .ok (some ((split target b!":").getLastD [])) else .ok (some target)
  else .ok (some (join x.delimiter others))

/-- Lines 109-133: the token of a link with its kind, if there is one. -/
def linkToken (rec : Rec) (x : LinkSyntax) (target text : Str) : TokM (Option (Str × Token)) :=
  if x.internal then do
    let t ← rec text
    pure (some (b!"INTERNAL_LINK", .internalLink target t))
  else if hasAnyPrefix target [b!"http://", b!"https://"] then do
    let t ← rec text
    pure (some (b!"EXTERNAL_LINK", .externalLink target t))
  else if contains target b!"://" then do
    let t ← rec text
    pure (some (b!"STRING", .string t))
  else pure none

/-- Lines 109-143: the text that replaces a link: the key of its token or the brackets with the text between them. -/
def linkKey (rec : Rec) (x : LinkSyntax) (target text segment : Str) : TokM Str := do
  match ← linkToken rec x target text with
  | some (kind, token) => do
    let key ← getToken kind
    setRawToken key token
    pure key
  | none => pure (x.opening ++ segment ++ x.closing)

/-- The body of the loop of `parseLink` for all parts but the first one, lines 63-149. Result: the text added to the
result. -/
def linkSegment (env : ParserEnv) (rec : Rec) (x : LinkSyntax) (item : Str) : TokM Str :=
  if isFileLink env item then pure (x.opening ++ item)
  else
    let segments := splitHead item x.closing
    let elements := splitHead segments.1 x.delimiter
    let target := linkTarget x elements.1
    do
      match ← TokM.lift (linkText x target elements.2) with
      | none => pure (x.opening ++ item)
      | some text =>
        let link ← linkKey rec x target text segments.1
        pure (link ++ (if segments.2 ≠ [] then join x.closing segments.2 else []))

/-- The loop of `parseLink`, lines 55-150, for all parts but the first one. -/
def linkSegments (env : ParserEnv) (rec : Rec) (x : LinkSyntax) : List Str → TokM (List Str)
  | [] => pure []
  | item :: rest => do
    let s ← linkSegment env rec x item
    let r ← linkSegments env rec x rest
    pure (s :: r)

/-- `parseLink`, src/parser/link.go:42-153. -/
def parseLink (env : ParserEnv) (rec : Rec) (x : LinkSyntax) (content : Str) : TokM Str := do
  let parts := splitHead content x.opening
  let segments ← linkSegments env rec x parts.2
  pure (parts.1 ++ segments.flatten)

/-- `parseInternalLinks`, src/parser/link.go:29-31. -/
def parseInternalLinks (env : ParserEnv) (rec : Rec) (content : Str) : TokM Str :=
  parseLink env rec internalSyntax content

/-- `parseExternalLinks`, src/parser/link.go:33-35. -/
def parseExternalLinks (env : ParserEnv) (rec : Rec) (content : Str) : TokM Str :=
  parseLink env rec externalSyntax content

end Verif.Model
