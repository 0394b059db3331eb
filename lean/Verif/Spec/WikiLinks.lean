import Verif.Model.ParseLinks
import Verif.Go.Space
import Verif.Spec.Links

/-!
# Links to articles and web pages
-/

namespace Verif.Spec
open Verif.Model Verif.Go
open scoped List

/-- A link to an article: name, section and text. The section and the text can be missing. -/
structure WikiLink where
  name : Str
  sect : Option Str
  label : Option Str

/-- How the link is written: `[[name#section|text]]`. -/
def WikiLink.inner (l : WikiLink) : Str :=
  l.name ++ (match l.sect with | none => [] | some s => b!"#" ++ s) ++
    (match l.label with | none => [] | some t => b!"|" ++ t)

/-- The article that the link belongs to: the name without surrounding space. -/
def WikiLink.target (l : WikiLink) : Str := trimSpace l.name

/-- The part of a text behind the last colon. -/
def afterLastColon (s : Str) : Str := (s.reverse.takeWhile (· ≠ 0x3A)).reverse

/-- The text that is shown: the given one, otherwise the name, and for names with a colon at the beginning the part
behind the last colon. -/
def WikiLink.shown (l : WikiLink) : Str :=
  match l.label with
  | some t => t
  | none => if l.target.head? = some 0x3A then afterLastColon l.target else l.target

/-- The name does not belong to a file: the text before its first colon, if there is one, is not one of the configured
names of the file namespace. -/
def NoFile (env : ParserEnv) (name : Str) : Prop :=
  (0x3A : Byte) ∈ name → env.lower (name.takeWhile (· ≠ 0x3A)) ∉ env.config.list .filePrefixes

/-- Names and sections have no brackets and no characters that separate the parts of a link. The text of a link may have
brackets as long as they are no links, and may not end with a closing bracket. There is something to show. -/
structure WikiLink.WellFormed (env : ParserEnv) (l : WikiLink) : Prop where
  name : ∀ c ∈ l.name, c ≠ 0x5B ∧ c ≠ 0x5D ∧ c ≠ 0x7C ∧ c ≠ 0x23
  sect : ∀ s, l.sect = some s → ∀ c ∈ s, c ≠ 0x5B ∧ c ≠ 0x5D ∧ c ≠ 0x7C
  label : ∀ t, l.label = some t → ¬ b!"[[" <:+: t ∧ ¬ b!"]]" <:+: t ++ b!"]"
  nonEmpty : l.label = none → l.target ≠ []
  noFile : NoFile env l.name

/-- The configured names of the file namespace have no characters that cannot occur in the name of a namespace. -/
def PlainPrefixes (env : ParserEnv) : Prop :=
  ∀ x, env.lower x ∈ env.config.list .filePrefixes → (0x5D : Byte) ∉ x ∧ (0x7C : Byte) ∉ x ∧ (0x23 : Byte) ∉ x

/-- A text with links: each link with the text behind it. -/
def linkedText : List (WikiLink × Str) → Str
  | [] => []
  | (l, after) :: rest => b!"[[" ++ l.inner ++ b!"]]" ++ after ++ linkedText rest

/-- Creates a token and returns its key. -/
def newToken (kind : Str) (token : Token) : TokM Str := do
  let key ← getToken kind
  setRawToken key token
  pure key

/-- What is to become of the links: one token each, with the article and the text, which is tokenized itself. -/
def tokenizedLinks (rec : Rec) : List (WikiLink × Str) → TokM Str
  | [] => pure []
  | (l, after) :: rest => do
    let text ← rec l.shown
    let key ← newToken b!"INTERNAL_LINK" (.internalLink l.target text)
    let r ← tokenizedLinks rec rest
    pure (key ++ after ++ r)

/-- Text in single brackets: a link to a web page, or anything else. -/
inductive Bracket where
  | web (url label : Str)
  | other (inner : Str)

/-- How it is written. -/
def Bracket.inner : Bracket → Str
  | .web url label => url ++ b!" " ++ label
  | .other inner => inner

/-- A link to a web page begins with the protocol; other texts have no protocol in front of the first space. -/
def Bracket.WellFormed (env : ParserEnv) : Bracket → Prop
  | .web url label => (b!"http://" <+: url ∨ b!"https://" <+: url) ∧ (∀ c ∈ url, c ≠ 0x5B ∧ c ≠ 0x5D ∧ c ≠ 0x20) ∧ trimSpace url = url ∧
      (∀ c ∈ label, c ≠ 0x5B ∧ c ≠ 0x5D) ∧ NoFile env url
  | .other inner => (∀ c ∈ inner, c ≠ 0x5B ∧ c ≠ 0x5D) ∧ ((0x20 : Byte) ∈ inner → ¬ b!"://" <:+: inner.takeWhile (· ≠ 0x20))

/-- A text with brackets: each with the text behind it. -/
def bracketText : List (Bracket × Str) → Str
  | [] => []
  | (x, after) :: rest => b!"[" ++ x.inner ++ b!"]" ++ after ++ bracketText rest

/-- What is to become of the brackets: one token for each link, everything else stays. -/
def tokenizedBrackets (rec : Rec) : List (Bracket × Str) → TokM Str
  | [] => pure []
  | (.web url label, after) :: rest => do
    let text ← rec label
    let key ← newToken b!"EXTERNAL_LINK" (.externalLink url text)
    let r ← tokenizedBrackets rec rest
    pure (key ++ after ++ r)
  | (.other inner, after) :: rest => do
    let r ← tokenizedBrackets rec rest
    pure (b!"[" ++ inner ++ b!"]" ++ after ++ r)

/-- Text between links: no link begins in it, and none begins with its last character. -/
def LinkFree (t : Str) : Prop := ¬ b!"[[" <:+: t ++ b!"["

/-- The part of the configuration that is about links. -/
def linkRules (env : ParserEnv) : LinkRules :=
  ⟨env.lower, env.config.list .filePrefixes, env.config.list .allowedLinkPrefixes, env.config.list .categoryPrefixes⟩

/-- The link is not one that is to be removed because of its prefixes, and there is no colon in the text behind a bar. -/
def KeptLink (env : ParserEnv) (inner : Str) : Prop := ¬ Unwanted (linkRules env) inner ∧ 0x3A ∉ linkLabel inner

end Verif.Spec
