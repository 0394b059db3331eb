import Verif.Spec.Expand
import Verif.Go.Strings

/-!
# What is in an article, used for the statistics
-/

namespace Verif.Spec
open Verif.Go Verif.Model
open scoped List

/-- A text without formatting. -/
def withoutMarkers (s : Str) : Str :=
  [Marker.boldOpen, .boldClose, .italicOpen, .italicClose, .paragraph].foldl
    (fun s m => replaceAll s (b!"$$" ++ m.name ++ b!"$$") []) s

/-- What a reader of an article comes across: a text without any tokens, or a token. -/
inductive ReadItem where
  | text (s : Str)
  | token (t : Token)

/-- `Shows tokens contents items`: `items` are the texts and tokens in `contents` and, after each token, those in the
texts of the token, in the order of reading. Formatting has been removed from `contents`. -/
inductive Shows (tokens : List (Str × Token)) : List Str → List ReadItem → Prop
  | nil : Shows tokens [] []
  | last {text : Str} {contents : List Str} {items : List ReadItem} (h : ¬ b!"$$" <:+: text)
      (hr : Shows tokens contents items) : Shows tokens (text :: contents) (.text text :: items)
  | token {text content type : Str} {n : Nat} {token : Token} {contents : List Str} {inner items : List ReadItem}
      (h : Unambiguous text) (ht : type ≠ [] ∧ ∀ c ∈ type, tokenChar c = true)
      (hk : lookupToken tokens (tokenKey type n) = some token)
      (hi : Shows tokens ((tokenTexts token).map withoutMarkers) inner)
      (hr : Shows tokens (content :: contents) items) :
      Shows tokens ((text ++ tokenKey type n ++ content) :: contents) (.text text :: .token token :: (inner ++ items))

/-- The number of tokens of a kind. -/
def howMany (items : List ReadItem) (kind : Token → Bool) : Nat :=
  items.countP fun | .token t => kind t | .text _ => false

/-- The texts. -/
def textsOf (items : List ReadItem) : List Str := items.filterMap fun | .text s => some s | .token _ => none

def isImage : Token → Bool
  | .image .. => true
  | .inlineImage .. => true
  | _ => false
def isInternalLink : Token → Bool
  | .internalLink .. => true
  | _ => false
def isLinkTo (name : Str) : Token → Bool
  | .internalLink name' _ => name' = name
  | _ => false
def isExternalLink : Token → Bool
  | .externalLink .. => true
  | _ => false
def isMath : Token → Bool
  | .math .. => true
  | _ => false
def isRefDefinition : Token → Bool
  | .refDefinition .. => true
  | _ => false
def isRefUsage : Token → Bool
  | .refUsage .. => true
  | _ => false

/-- No item of the list has a list of its own. -/
def FlatList : ListTok → Prop
  | .mk _ items => ∀ item ∈ items, match item with | .mk _ _ subLists => subLists = []

/-- All tokens except for nowiki, strings and nested lists. -/
def Countable : Token → Prop
  | .nowiki _ => False
  | .string _ => False
  | .list l => FlatList l
  | _ => True

/-- The number of words: the letters or numbers that have no letter or number in front of them. -/
def wordStarts (isWord : Nat → Bool) (runes : List Nat) : Nat :=
  ((false :: runes.map isWord).zip (runes.map isWord)).countP fun p => !p.1 && p.2

/-- Words per minute by language (codes of the Wikipedias), according to the study that the comment in
src/generator/stats.go:73 names. -/
def readingSpeeds : List (Str × Int) :=
  [(b!"en", 228), (b!"de", 179), (b!"fr", 195), (b!"nl", 202), (b!"fi", 161), (b!"he", 187), (b!"it", 188), (b!"ja", 193),
    (b!"pl", 166), (b!"pt", 181), (b!"ru", 184), (b!"sl", 180), (b!"es", 218), (b!"sv", 199), (b!"tr", 166)]

/-- The reading speed of a language; for others the average. -/
def readingSpeed (language : Str) : Int := (readingSpeeds.lookup language).getD 183

end Verif.Spec
