import Verif.Model.ArticleText
import Verif.Model.MathPicture
import Verif.Model.Answers

/-!
# An article with all its requests: `processArticle`, src/main.go, lines 424-471

The functions of src/parser/template.go, src/generator/expand.go and src/generator/html.go as in Model/EvaluateTemplates.lean and
Model/Expand.lean, but with the files and requests that they cause, in their order. The parts without effects are the same.
-/

namespace Verif.Model
open Verif.Go Web

/-- A part of the program with effects: `none` means that it has not finished after the given number of steps. -/
def Run (α : Type) := WebEnv → World → Option (Outcome α × World)

namespace Run

instance : Monad Run where
  pure a := fun _ w => some (.ok a, w)
  bind m f := fun e w =>
    match m e w with
    | none => none
    | some (.ok a, w') => f a e w'
    | some (.err, w') => some (.err, w')
    | some (.panic, w') => some (.panic, w')
    | some (.fatal, w') => some (.fatal, w')
    | some (.waiting, w') => some (.waiting, w')

/-- A call that always comes to an end. -/
def call {α : Type} (m : Web α) : Run α := fun e w => some (m e w)

/-- A computation without effects. -/
def pureResult {α : Type} (r : Option (Res α)) : Run α := fun _ w => r.map fun r => (Web.ofRes r, w)

/-- A loop over the elements of a slice that collects the results and ends with the first error, see `ExpM.mapM`. -/
def mapM {α β : Type} (f : α → Run β) : List α → Run (List β)
  | [] => pure []
  | a :: l => do
    let b ← f a
    let bs ← mapM f l
    pure (b :: bs)

end Run

/-- `replaceTemplateByPlaceholders`, src/parser/template.go:57-100, see `placeholderLoop`. -/
def placeholderRun (c : WikiConf) : (fuel : Nat) → (content : Str) → (i : Nat) → TemplateState → Run (Str × TemplateState)
  | 0, _, _, _ => Run.pureResult none
  | fuel + 1, content, i, st =>
    if i + 2 < content.length then
      if (content.drop i).take 2 = b!"{{" then
        match findClose content (i + 2) b!"{{" b!"}}" with
        | none => Run.pureResult (some .err)
        | some endIndex => do
          let original := (content.take (endIndex + 2)).drop i
          let (inner, st) ←
            if contains (original.drop 2) b!"{{" then placeholderRun c fuel (original.drop 2) 0 st
            else pure (original.drop 2, st)
          let templateText := b!"{{" ++ inner
          let key := c.sha1hex templateText
          let evaluated ← Run.call (evaluateTemplate c templateText key)
          placeholderRun c fuel (replaceFirst original (templatePlaceholder key) content) (i + 1)
            ⟨st.calls ++ [(templateText, key)], setResult st.results key evaluated⟩
      else placeholderRun c fuel content (i + 1) st
    else pure (content, st)

/-- `evaluateTemplates`, src/parser/template.go:23-55. -/
def evaluateTemplatesRun (c : WikiConf) (iterate : Nat → List (Str × Str) → List (Str × Str)) (fuel : Nat) (content : Str) :
    Run Str := do
  let (content, st) ← placeholderRun c fuel content 0 ⟨[], []⟩
  Run.pureResult ((resolvePlaceholders iterate st.results fuel 0 content).map .ok)

/-- `Tokenize`, src/parser/tokenizer.go:83-116. -/
def tokenizeRun (env : ParserEnv) (c : WikiConf) (iterate : Nat → List (Str × Str) → List (Str × Str)) (fuel : Nat) (content : Str) :
    Run (Str × TokState) := do
  let content ← Run.pureResult (cleanText env fuel content)
  let content ← evaluateTemplatesRun c iterate fuel content
  let content ← Run.pureResult (cleanText env fuel content)
  Run.pureResult (tokenizeContent env fuel content TokState.initial)

/-- The loop of `expandString`, src/generator/expand.go:82-127, see `expandLoop`. -/
def expandLoopRun (expandKey : Str → Run Str) (content : Str) : Str → (skip i : Nat) →
    (segment : Option Nat) → (new : Str) → Run Str
  | [], _, _, segment, new => pure (addSegment new segment fun s => expandSimpleString (content.drop s))
  | _ :: t, skip + 1, i, segment, new => expandLoopRun expandKey content t skip (i + 1) segment new
  | d :: t, 0, i, segment, new =>
    if hasPrefix (d :: t) b!"$$" then
      match findClose content (i + 2) b!"$$" b!"$$" with
      | none => Run.pureResult (some .panic)
      | some stop => do
        let x ← expandKey ((content.drop (i + 2)).take (stop - (i + 2)))
        expandLoopRun expandKey content t (stop + 1 - i) (i + 1) none
          (addSegment new segment (fun s => expandSimpleString ((content.drop s).take (i - s))) ++ x)
    else expandLoopRun expandKey content t 0 (i + 1) (segment.or (some i)) new

/-- `expandTableColumn`, src/generator/html.go:250-266. -/
def expandColRun (ex : Str → Run Str) (col : TableCol) : Run Str := do
  let content ← ex col.content
  let joined := join b!" " col.attributes
  let attributes := if joined ≠ [] then b!" " ++ joined else joined
  pure (if col.isHeading then b!"<th" ++ attributes ++ b!">\n" ++ content ++ b!"\n</th>\n"
    else b!"<td" ++ attributes ++ b!">\n" ++ content ++ b!"\n</td>")

/-- `expandTableRow`, src/generator/html.go:236-248. -/
def expandRowRun (ex : Str → Run Str) (row : List TableCol) : Run Str := do
  let cols ← Run.mapM (expandColRun ex) row
  pure (b!"<tr>\n" ++ join b!"\n" cols ++ b!"\n</tr>")

/-- `expandTable` and `expandTableCaption`, src/generator/html.go:216-234 and 268-275. -/
def expandTableRun (ex : Str → Run Str) (rows : List (List TableCol)) (caption : Str) : Run Str := do
  let rows ← Run.mapM (expandRowRun ex) rows
  let caption ← ex caption
  pure (b!"<div class=\"figure\">\n<table>\n" ++ join b!"\n" rows ++ b!"\n</table>" ++
    (b!"\n<div class=\"caption\">\n" ++ caption ++ b!"\n</div>") ++ b!"\n</div>")

mutual
/-- `expandUnorderedList`, `expandOrderedList`, `expandDescriptionList`, src/generator/html.go:277-299. -/
def expandListRun (ex : Str → Run Str) : ListTok → Run Str
  | .mk kind items => do
    let items ← expandItemsRun ex items
    pure (listHtml kind (join b!"\n" items))
/-- `expandListItems`, src/generator/html.go:301-315. -/
def expandItemsRun (ex : Str → Run Str) : List ItemTok → Run (List Str)
  | [] => pure []
  | item :: rest => do
    let x ← expandItemRun ex item
    let xs ← expandItemsRun ex rest
    pure (x :: xs)
/-- `expandListItem`, src/generator/html.go:317-359. -/
def expandItemRun (ex : Str → Run Str) : ItemTok → Run Str
  | .mk type content subLists => do
    let c ← ex content
    let subs ← expandSubListsRun ex subLists
    pure (itemHtml type (join b!"\n" (c :: subs)))
/-- The loop over the sub lists, src/generator/html.go:325-331. -/
def expandSubListsRun (ex : Str → Run Str) : List ListTok → Run (List Str)
  | [] => pure []
  | l :: rest => do
    let x ← expandListRun ex l
    let xs ← expandSubListsRun ex rest
    pure (x :: xs)
end

/-- `expandToken`, src/generator/expand.go:10-56, with the functions of src/generator/html.go; formulas: `expandMath`,
src/generator/html.go:374-391. -/
def expandTokenRun (decode : Str → Option SvgAttributes) (c : WikiConf) (cacheDir : Str) (ex : Str → Run Str) : Token → Run Str
  | .heading content depth => do
    let c ← ex content
    pure (b!"<h" ++ decimal depth ++ b!">" ++ c ++ b!"</h" ++ decimal depth ++ b!">")
  | .inlineImage filename x y =>
    pure (b!"<img alt=\"image\" class=\"inline\" src=\"./" ++ escapePathComponents (filenameToImagePath c filename) ++ b!"\" " ++
      expandSizeTemplate x y ++ b!">")
  | .image filename caption x y => do
    let t ← ex caption
    pure (b!"<div class=\"figure\">\n<img alt=\"image\" src=\"./" ++ escapePathComponents (filenameToImagePath c filename) ++ b!"\" " ++
      expandSizeTemplate x y ++ b!">\n<div class=\"caption\">\n" ++ t ++ b!"\n</div>\n</div>")
  | .externalLink url text => do
    let t ← ex text
    pure (b!"<a href=\"" ++ url ++ b!"\">" ++ t ++ b!"</a>")
  | .internalLink _ text => ex text
  | .list l => expandListRun ex l
  | .table rows caption => expandTableRun ex rows caption
  | .math content => do
    let (path, width, height, style) ← Run.call (mathPicture decode c cacheDir content)
    pure (b!"<img alt=\"image\" src=\"./" ++ escapePathComponents path ++ b!"\" style=\"width: " ++ width ++
        b!"; height: " ++ height ++ b!"; " ++ style ++ b!"\">")
  | .refDefinition index content => do
    let t ← ex content
    pure (b!"[" ++ decimal (index + 1) ++ b!"] " ++ t ++ b!"<br>")
  | .refUsage index => pure (b!"[" ++ decimal (index + 1) ++ b!"]")
  | .nowiki content => pure content
  | .string _ => pure []

/-- The expansion of a token key, src/generator/expand.go:100-111. -/
def expandKeyRun (decode : Str → Option SvgAttributes) (c : WikiConf) (cacheDir : Str) (tokens : List (Str × Token))
    (ex : Str → Run Str) (key : Str) : Run Str :=
  match lookupToken tokens (b!"$$" ++ key ++ b!"$$") with
  | none => Run.pureResult (some .err)
  | some token => expandTokenRun decode c cacheDir ex token

/-- `expandString`, src/generator/expand.go:71-130. -/
def expandStringRun (decode : Str → Option SvgAttributes) (c : WikiConf) (cacheDir : Str) (tokens : List (Str × Token)) :
    (fuel : Nat) → (content : Str) → Run Str
  | 0, _ => Run.pureResult none
  | fuel + 1, content =>
    if hasToken (expandMarker content) then
      expandLoopRun (expandKeyRun decode c cacheDir tokens (expandStringRun decode c cacheDir tokens fuel)) (expandMarker content)
        (expandMarker content) 0 0 none []
    else pure (expandSimpleString (expandMarker content))

/-- `processArticle`, src/main.go:424-461, for e-books up to the text of the HTML file: the article is downloaded, read, its images
are downloaded, and the page is generated. -/
def articleRun (env : ParserEnv) (c : WikiConf) (decode : Str → Option SvgAttributes) (cacheDir : Str)
    (iterate : Nat → List (Str × Str) → List (Str × Str)) (fuel : Nat) (style article : Str) : Run Str := do
  let dto ← Run.call (downloadArticle c (c.wikiInstance ++ b!"." ++ c.host) article)
  let (text, s) ← tokenizeRun env c iterate fuel dto.content
  Run.call (downloadImages c cacheDir s.images)
  let body ← expandStringRun decode c cacheDir s.tokenMap fuel text
  pure (htmlHeader style ++ b!"\n<h1>" ++ dto.originalTitle ++ b!"</h1>\n" ++ body ++ htmlFooter)

end Verif.Model
