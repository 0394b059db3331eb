import Verif.Model.Tokenize
import Verif.Model.Expand

/-!
# From wikitext to HTML
-/

namespace Verif.Model

/-- The tokenizer (src/parser/tokenizer.go:107) followed by the generator (src/generator/html.go:101-113, without the
frame around the text) on a text that has been cleaned and has no templates: `none` means not finished with the given
number of steps. -/
def articleBody (env : ParserEnv) (html : HtmlEnv) (fuel : Nat) (content : Str) : Option (Res Str) :=
  match tokenizeContent env fuel content TokState.initial with
  | none => none
  | some (.ok (text, s)) => expandString html s.tokenMap fuel text
  | some .err => some .err
  | some .panic => some .panic
  | some .fatal => some .fatal

end Verif.Model
