import Verif.Go.Strings
import Verif.Model.CloseToken

/-!
# Evaluation of templates, src/parser/template.go
-/

namespace Verif.Model
open Verif.Go

/-- What the evaluation of templates depends on. -/
structure TemplateEnv where
  /-- `util.Hash`, src/util/hash.go:8-12. -/
  hash : Str → Str
  /-- `EvaluateTemplate` of the service for Wikipedia, see `Model.evaluateTemplate`: template and key. -/
  evaluate : Str → Str → Res Str

/-- The calls of `EvaluateTemplate` (template and key) so far, and `placeholderToContent`, a map with one entry for each
key. -/
structure TemplateState where
  calls : List (Str × Str)
  results : List (Str × Str)

/-- Assignment to an element of a map. -/
def setResult (m : List (Str × Str)) (key value : Str) : List (Str × Str) := (key, value) :: m.filter fun e => e.1 ≠ key

/-- `templatePlaceholderPrefix`, src/parser/template.go:12. -/
def templatePlaceholderPrefix : Str := b!"$$TEMPLATE_PLACEHOLDER_"

/-- `fmt.Sprintf(templatePlaceholderTemplate, key)`, src/parser/template.go:13. -/
def templatePlaceholder (key : Str) : Str := templatePlaceholderPrefix ++ key ++ b!"$$"

/-- `replaceTemplateByPlaceholders`, src/parser/template.go:57-100, at the position `i`. `none`: not finished within the
given number of steps. The condition of the loop is `i < len(content)-2`. -/
def placeholderLoop (env : TemplateEnv) : (fuel : Nat) → (content : Str) → (i : Nat) → TemplateState →
    Option (Res (Str × TemplateState))
  | 0, _, _, _ => none
  | fuel + 1, content, i, st =>
    if i + 2 < content.length then
      if (content.drop i).take 2 = b!"{{" then
        match findClose content (i + 2) b!"{{" b!"}}" with
        | none => some .err
        | some endIndex =>
          let original := (content.take (endIndex + 2)).drop i
          match (if contains (original.drop 2) b!"{{" then placeholderLoop env fuel (original.drop 2) 0 st
              else some (.ok (original.drop 2, st))) with
          | none => none
          | some (.ok (inner, st)) =>
            let templateText := b!"{{" ++ inner
            let key := env.hash templateText
            match env.evaluate templateText key with
            | .ok evaluated =>
              placeholderLoop env fuel (replaceFirst original (templatePlaceholder key) content) (i + 1)
                ⟨st.calls ++ [(templateText, key)], setResult st.results key evaluated⟩
            | .err => some .err
            | .panic => some .panic
            | .fatal => some .fatal
          | some .err => some .err
          | some .panic => some .panic
          | some .fatal => some .fatal
      else placeholderLoop env fuel content (i + 1) st
    else some (.ok (content, st))

/-- The loop over the entries of the map, src/parser/template.go:41-50, in the given order. -/
def replacePlaceholders (content : Str) (entries : List (Str × Str)) : Str :=
  entries.foldl (fun content e =>
    if contains content (templatePlaceholder e.1) then replaceAll content (templatePlaceholder e.1) e.2 else content) content

/-- The outer loop, src/parser/template.go:38-51. `iterate n` is the order in which the `n`-th loop over the map visits its
entries. -/
def resolvePlaceholders (iterate : Nat → List (Str × Str) → List (Str × Str)) (results : List (Str × Str)) :
    (fuel n : Nat) → (content : Str) → Option Str
  | 0, _, _ => none
  | fuel + 1, n, content =>
    if contains content templatePlaceholderPrefix then
      resolvePlaceholders iterate results fuel (n + 1) (replacePlaceholders content (iterate n results))
    else some content

/-- `evaluateTemplates`, src/parser/template.go:23-55. Result: the text and the calls of `EvaluateTemplate`. -/
def evaluateTemplates (env : TemplateEnv) (iterate : Nat → List (Str × Str) → List (Str × Str)) (fuel : Nat) (content : Str) :
    Option (Res (Str × List (Str × Str))) :=
  match placeholderLoop env fuel content 0 ⟨[], []⟩ with
  | none => none
  | some (.ok (content, st)) => (resolvePlaceholders iterate st.results fuel 0 content).map fun text => .ok (text, st.calls)
  | some .err => some .err
  | some .panic => some .panic
  | some .fatal => some .fatal

end Verif.Model
