import Verif.Model.Formatting
import Verif.Model.Headings
import Verif.Model.ParseLinks
import Verif.Model.References
import Verif.Model.Images
import Verif.Model.Lists
import Verif.Model.Tables

/-!
# The whole tokenizer, src/parser/tokenizer.go
-/

namespace Verif.Model
open Verif.Go

/-- One iteration of the loop of `tokenizeContent`, src/parser/tokenizer.go:140-157. -/
def tokenizePass (env : ParserEnv) (rec : Rec) (fuel : Nat) (content : Str) : TokM Str := do
  let content ← parseNowiki fuel content
  let content ← parseBoldAndItalic fuel content
  let content ← parseHeadings rec content
  let content ← parseReferences rec fuel content
  let content ← parseInternalLinks env rec content
  let content ← parseGalleries env content
  let content ← parseImageMaps env content
  let content ← parseImages env rec fuel content
  let content ← parseExternalLinks env rec content
  let content ← parseMath content
  let content ← parseLists rec fuel content
  let content ← parseTables rec fuel content
  pure (parseParagraphs content)

/-- `tokenizeContent`, src/parser/tokenizer.go:138-165. -/
def tokenizeContent (env : ParserEnv) : (fuel : Nat) → (content : Str) → TokM Str
  | 0, _ => TokM.running
  | fuel + 1, content => do
    let new ← tokenizePass env (tokenizeContent env fuel) fuel content
    if new = content then pure new else tokenizeContent env fuel new

end Verif.Model
