import Verif.Model.Article
import Verif.Model.Cleaner
import Verif.Model.CleanLinks
import Verif.Model.CleanTemplates
import Verif.Model.EvaluateTemplates

/-!
# The whole way from the wikitext of an article to its HTML, src/parser/tokenizer.go and src/parser/hacks.go
-/

namespace Verif.Model
open Verif.Go

/-- `hackGermanRailwayTemplates`, src/parser/hacks.go:15-57, at the position `i`. `none`: not finished within the given
number of steps. The condition of the loop is `i < len(content)-slidingWindowSize`. -/
def railwayLoop : (fuel : Nat) → (content : Str) → (i : Nat) → Option (Res Str)
  | 0, _, _ => none
  | fuel + 1, content, i =>
    if i + 12 < content.length then
      if (content.drop i).take 12 = b!"{{BS-table}}" then
        match railwayLoop fuel content (i + 12) with
        | some (.ok content) =>
          match findClose content (i + 12) b!"{{BS-table}}" b!"|}" with
          | none => some .err
          | some endIndex =>
            let content := content.take endIndex ++ content.drop (endIndex + 2)
            railwayLoop fuel (content.take i ++ content.drop (i + 12)) (i + 1)
        | other => other
      else railwayLoop fuel content (i + 1)
    else some (.ok content)

/-- `clean`, src/parser/cleaner.go:11-29. -/
def cleanText (env : ParserEnv) (fuel : Nat) (content : Str) : Option (Res Str) :=
  match removeUnwantedInternalLinks env (removeComments content) with
  | .ok content =>
    let content := handleUnwantedAndTrailingTemplates env content
    let content := removeUnwantedWikitext content
    let content := removeEmptyListEntries content
    railwayLoop fuel (removeEmptySections content) 0
  | .err => some .err
  | .panic => some .panic
  | .fatal => some .fatal

/-- `Tokenize`, src/parser/tokenizer.go:83-116. Result: the content and the state of the tokenizer, which has the tokens and
the images of the article. -/
def tokenizeArticle (env : ParserEnv) (templates : TemplateEnv) (iterate : Nat → List (Str × Str) → List (Str × Str))
    (fuel : Nat) (content : Str) : Option (Res (Str × TokState)) :=
  match cleanText env fuel content with
  | some (.ok content) =>
    match evaluateTemplates templates iterate fuel content with
    | some (.ok (content, _)) =>
      match cleanText env fuel content with
      | some (.ok content) => tokenizeContent env fuel content TokState.initial
      | some .err => some .err
      | some .panic => some .panic
      | some .fatal => some .fatal
      | none => none
    | some .err => some .err
    | some .panic => some .panic
    | some .fatal => some .fatal
    | none => none
  | some .err => some .err
  | some .panic => some .panic
  | some .fatal => some .fatal
  | none => none

/-- The text of the HTML file of an article with the given wikitext: `Tokenize` followed by `Generate`, see
src/main.go:430-460 and `generateHtml`. -/
def articleHtml (env : ParserEnv) (templates : TemplateEnv) (iterate : Nat → List (Str × Str) → List (Str × Str))
    (html : HtmlEnv) (fuel : Nat) (style title content : Str) : Option (Res Str) :=
  match tokenizeArticle env templates iterate fuel content with
  | some (.ok (text, s)) => (generateHtml html s.tokenMap fuel style title text).run
  | some .err => some .err
  | some .panic => some .panic
  | some .fatal => some .fatal
  | none => none

end Verif.Model
