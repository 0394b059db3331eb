import Verif.Go.Space

/-!
# Texts with templates
-/

namespace Verif.Spec
open Verif.Go

/-- A text with nested templates. A template consists of white space, its name and its arguments (with the separator in
front of them). -/
inductive TemplateText where
  | nil
  | char (c : Byte) (rest : TemplateText)
  | template (lead name : Str) (args rest : TemplateText)

/-- White space in front of the name of a template. -/
def isLead (c : Byte) : Bool := c ∈ [0x20, 0x09, 0x0A, 0x0C, 0x0D]

namespace TemplateText

/-- The text as it is written. -/
def text : TemplateText → Str
  | nil => []
  | char c rest => c :: rest.text
  | template lead name args rest => b!"{{" ++ lead ++ name ++ args.text ++ b!"}}" ++ rest.text

/-- The text begins with a line break, `|` or `}`, the end of a name. -/
def EndsName (s : Str) : Prop := ∃ c t, s = c :: t ∧ c ∈ [0x0A, 0x7C, 0x7D]

/-- The text, followed by `after`, is read in the intended way: braces outside of templates are no beginning and no end
of a template, and names do not contain braces and separators. -/
def WellFormed : TemplateText → (after : Str) → Prop
  | nil, _ => True
  | char c rest, after =>
    ¬ b!"{{" <+: c :: (rest.text ++ after) ∧ ¬ b!"}}" <+: c :: (rest.text ++ after) ∧ rest.WellFormed after
  | template lead name args rest, after =>
    (∀ c ∈ lead, isLead c = true) ∧ (∃ c t, name = c :: t ∧ isLead c = false) ∧ (∀ c ∈ name, c ∉ b!"{}|\n") ∧
    EndsName (args.text ++ b!"}}") ∧ args.WellFormed (b!"}}" ++ rest.text ++ after) ∧ rest.WellFormed after

/-- The text without the templates whose names satisfy `p` (including everything in their arguments). -/
def without (p : Str → Bool) : TemplateText → TemplateText
  | nil => nil
  | char c rest => char c (rest.without p)
  | template lead name args rest =>
    if p name then rest.without p else template lead name (args.without p) (rest.without p)

/-- The templates whose names satisfy `q`, except the ones inside of templates whose names satisfy `p`. -/
def outermost (p q : Str → Bool) : TemplateText → List (Str × Str × TemplateText)
  | nil => []
  | char _ rest => rest.outermost p q
  | template lead name args rest =>
    (if p name then (if q name then [(lead, name, args)] else []) else args.outermost p q) ++ rest.outermost p q

end TemplateText

end Verif.Spec
