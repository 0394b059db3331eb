import Verif.Go.Strings

/-!
# Texts with links
-/

namespace Verif.Spec
open Verif.Go

/-- A text with nested brackets and links. -/
inductive LinkText where
  | nil
  | char (c : Byte) (rest : LinkText)
  /-- `[inner]` -/
  | bracket (inner rest : LinkText)
  /-- `[[inner]]` -/
  | link (inner rest : LinkText)

namespace LinkText

/-- The text as it is written. -/
def text : LinkText → Str
  | nil => []
  | char c rest => c :: rest.text
  | bracket inner rest => b!"[" ++ inner.text ++ b!"]" ++ rest.text
  | link inner rest => b!"[[" ++ inner.text ++ b!"]]" ++ rest.text

/-- The text begins with a bracket. -/
def startsWithBracket : LinkText → Bool
  | bracket _ _ => true
  | link _ _ => true
  | _ => false

/-- Characters are not brackets, and three brackets never follow each other. -/
def WellFormed : LinkText → Prop
  | nil => True
  | char c rest => c ≠ 0x5B ∧ c ≠ 0x5D ∧ rest.WellFormed
  | bracket inner rest => inner.startsWithBracket = false ∧ inner.WellFormed ∧ rest.WellFormed
  | link inner rest => inner.startsWithBracket = false ∧ inner.WellFormed ∧ rest.WellFormed

/-- All links of the text, also the ones in other links, satisfy `p`. -/
def AllLinks (p : Str → Prop) : LinkText → Prop
  | nil => True
  | char _ rest => rest.AllLinks p
  | bracket inner rest => inner.AllLinks p ∧ rest.AllLinks p
  | link inner rest => p inner.text ∧ inner.AllLinks p ∧ rest.AllLinks p

/-- The text without the links that satisfy `unwanted`. -/
def without (unwanted : Str → Prop) [DecidablePred unwanted] : LinkText → LinkText
  | nil => nil
  | char c rest => char c (rest.without unwanted)
  | bracket inner rest => bracket (inner.without unwanted) (rest.without unwanted)
  | link inner rest =>
    if unwanted inner.text then rest.without unwanted
    else link (inner.without unwanted) (rest.without unwanted)

end LinkText

/-- Target of a link: everything in front of the first `|`. -/
def linkAim (inner : Str) : Str :=
  match cut b!"|" inner with
  | some (target, _) => target
  | none => inner

/-- The text to show, behind the first `|`. -/
def linkLabel (inner : Str) : Str :=
  match cut b!"|" inner with
  | some (_, label) => label
  | none => []

/-- The prefixes of a link target like `de` in `de:Berlin`. -/
def linkPrefixes (target : Str) : List Str := (split target b!":").dropLast

/-- The configuration of links. -/
structure LinkRules where
  lower : Str → Str
  files : List Str
  allowed : List Str
  categories : List Str

/-- The link is a file: its first prefix is the one of files. -/
def IsFile (r : LinkRules) (target : Str) : Prop := ∃ p, (linkPrefixes target).head? = some p ∧ r.lower p ∈ r.files

/-- A link that is to be removed: it has a prefix that is neither allowed nor a prefix of files, or it is a category.
Files and targets that begin with a colon (links to categories) are not removed. -/
def Unwanted (r : LinkRules) (inner : Str) : Prop :=
  ¬ IsFile r (linkAim inner) ∧ ¬ b!":" <+: linkAim inner ∧
  ∃ p ∈ linkPrefixes (linkAim inner), r.lower p ≠ [] ∧
    (r.lower p ∈ r.categories ∨ (r.lower p ∉ r.files ∧ r.lower p ∉ r.allowed))

end Verif.Spec
