import Verif.Model.Tokens

/-!
# Texts with tokens and markers, used for the properties of the generator
-/

namespace Verif.Spec
open Verif.Model
open scoped List

/-- The five internal markers for formatting. -/
inductive Marker where
  | boldOpen | boldClose | italicOpen | italicClose | paragraph
  deriving DecidableEq, Repr

/-- The name of a marker. -/
def Marker.name : Marker → Str
  | .boldOpen => b!"MARKER_BOLD_OPEN"
  | .boldClose => b!"MARKER_BOLD_CLOSE"
  | .italicOpen => b!"MARKER_ITALIC_OPEN"
  | .italicClose => b!"MARKER_ITALIC_CLOSE"
  | .paragraph => b!"MARKER_PARAGRAPH"

/-- The HTML tag a marker stands for. -/
def Marker.html : Marker → Str
  | .boldOpen => b!"<b>"
  | .boldClose => b!"</b>"
  | .italicOpen => b!"<i>"
  | .italicClose => b!"</i>"
  | .paragraph => b!"<br><br>"

/-- An element of a text: a marker or the key of a token. -/
inductive Element where
  | marker (m : Marker)
  | token (type : Str) (n : Nat)
  deriving DecidableEq, Repr

/-- How an element is written. -/
def Element.code : Element → Str
  | .marker m => b!"$$" ++ m.name ++ b!"$$"
  | .token type n => tokenKey type n

/-- Types of tokens consist of upper case letters, digits and underscores. -/
def Element.WellFormed : Element → Prop
  | .marker _ => True
  | .token type _ => type ≠ [] ∧ ∀ c ∈ type, tokenChar c = true

/-- A text followed by an element. -/
structure ElementPiece where
  text : Str
  element : Element

/-- Text that can stand in front of an element: single dollar signs are possible, but not two in succession, none
directly in front of the element, and the text is not the name of a marker. -/
def Unambiguous (t : Str) : Prop :=
  ¬ b!"$$" <:+: t ∧ ¬ b!"$" <:+ t ∧ ∀ m : Marker, t ≠ m.name ∧ t ≠ b!"$" ++ m.name

def ElementPiece.WellFormed (p : ElementPiece) : Prop := Unambiguous p.text ∧ p.element.WellFormed

/-- The text of some pieces with a text at the end. -/
def piecesText (pieces : List ElementPiece) (last : Str) : Str :=
  (pieces.map fun p => p.text ++ p.element.code).flatten ++ last

/-- The leaves occur in the text one after the other, without overlapping. -/
inductive InOrder : List Str → Str → Prop
  | nil (rest : Str) : InOrder [] rest
  | cons (before leaf : Str) {leaves : List Str} {rest : Str} : InOrder leaves rest →
      InOrder (leaf :: leaves) (before ++ leaf ++ rest)

mutual
/-- The texts of a list and its sub lists in the order of reading. -/
def listTexts : ListTok → List Str
  | .mk _ items => itemsTexts items
def itemsTexts : List ItemTok → List Str
  | [] => []
  | item :: rest => itemTexts item ++ itemsTexts rest
def itemTexts : ItemTok → List Str
  | .mk _ content subLists => content :: listsTexts subLists
def listsTexts : List ListTok → List Str
  | [] => []
  | l :: rest => listTexts l ++ listsTexts rest
end

/-- The texts within a token that a reader of the book should see, in the order of reading. These texts may contain
tokens. -/
def tokenTexts : Token → List Str
  | .heading content _ => [content]
  | .internalLink _ text => [text]
  | .externalLink _ text => [text]
  | .string s => [s]
  | .table rows caption => rows.flatMap (fun row => row.map TableCol.content) ++ [caption]
  | .list l => listTexts l
  | .image _ caption _ _ => [caption]
  | .inlineImage .. => []
  | .refDefinition _ content => [content]
  | .refUsage _ => []
  | .math _ => []
  | .nowiki _ => []

/-- `Visible tokens contents leaves`: the texts `contents` show the parts `leaves` of ordinary text if each token is
replaced by its texts, and the ones in these texts, and so on. Text in nowiki tokens is shown as it is. `StringToken`
does not occur. -/
inductive Visible (tokens : List (Str × Token)) : List Str → List Str → Prop
  | nil : Visible tokens [] []
  | last {text : Str} {contents leaves : List Str} (h : ¬ b!"$$" <:+: text) (hr : Visible tokens contents leaves) :
      Visible tokens (text :: contents) (text :: leaves)
  | marker {text content : Str} {contents leaves : List Str} (m : Marker) (h : Unambiguous text)
      (hr : Visible tokens (content :: contents) leaves) :
      Visible tokens ((text ++ (b!"$$" ++ m.name ++ b!"$$") ++ content) :: contents) (text :: leaves)
  | token {text content type : Str} {n : Nat} {token : Token} {contents inner leaves : List Str} (h : Unambiguous text)
      (ht : type ≠ [] ∧ ∀ c ∈ type, tokenChar c = true)
      (hk : lookupToken tokens (tokenKey type n) = some token)
      (hs : (∀ s, token ≠ .string s) ∧ (∀ s, token ≠ .nowiki s)) (hi : Visible tokens (tokenTexts token) inner)
      (hr : Visible tokens (content :: contents) leaves) :
      Visible tokens ((text ++ tokenKey type n ++ content) :: contents) (text :: (inner ++ leaves))
  | nowiki {text content type verbatim : Str} {n : Nat} {contents leaves : List Str} (h : Unambiguous text)
      (ht : type ≠ [] ∧ ∀ c ∈ type, tokenChar c = true)
      (hk : lookupToken tokens (tokenKey type n) = some (.nowiki verbatim))
      (hr : Visible tokens (content :: contents) leaves) :
      Visible tokens ((text ++ tokenKey type n ++ content) :: contents) (text :: verbatim :: leaves)

end Verif.Spec
