import Verif.Model.Tokens
import Verif.Model.References
import Verif.Model.ImagePath
import Verif.Model.CachePath
import Verif.Model.CloseToken

/-!
# From tokens to HTML, src/generator/expand.go and src/generator/html.go
-/

namespace Verif.Model
open Verif.Go

/-- A part of the generator: returns normally, with an error or panics. `none` means that it has not finished after the
given number of steps. -/
def ExpM (α : Type) := Option (Res α)

namespace ExpM

instance : Monad ExpM where
  pure a := some (.ok a)
  bind m f :=
    match m with
    | none => none
    | some (.ok a) => f a
    | some .err => some .err
    | some .panic => some .panic
    | some .fatal => some .fatal

/-- The result. -/
def run {α : Type} (m : ExpM α) : Option (Res α) := m

/-- A returned error. -/
def err {α : Type} : ExpM α := some .err
/-- A run time panic. -/
def panic {α : Type} : ExpM α := some .panic
/-- Not finished. -/
def running {α : Type} : ExpM α := none

/-- A loop over the elements of a slice that collects the results and ends with the first error, e.g. lines 217-225 of
src/generator/html.go. -/
def mapM {α β : Type} (f : α → ExpM β) : List α → ExpM (List β)
  | [] => pure []
  | a :: l => do
    let b ← f a
    let bs ← mapM f l
    pure (b :: bs)

end ExpM

/-- What the generator depends on. `math` stands for lines 375-391 of src/generator/html.go: rendering a formula, reading
the attributes of the SVG file and computing the relative path of the PNG file; the result consists of the path, the
width, the height and the style (`mathPicture` in Model/MathPicture.lean). (The same formula always has the same result, it is cached.) -/
structure HtmlEnv where
  conf : WikiConf
  math : Str → Res (Str × Str × Str × Str)

/-- `HtmlGenerator.expandMarker`, src/generator/html.go:123-134. -/
def expandMarker (content : Str) : Str :=
  let content := replaceAll content markerBoldOpen b!"<b>"
  let content := replaceAll content markerBoldClose b!"</b>"
  let content := replaceAll content markerItalicOpen b!"<i>"
  let content := replaceAll content markerItalicClose b!"</i>"
  replaceAll content markerParagraph b!"<br><br>"

/-- `tokenRegex.FindAllString` finds something, src/generator/expand.go:75-80. -/
def hasToken (content : Str) : Bool := matchesSomewhere (fun s => (matchToken s).isSome) content

/-- Adds the text segment that begins at `textSegmentStartIndex`, if there is one, src/generator/expand.go:91-95 and
121-125. -/
def addSegment {α : Type} (new : List α) (segment : Option Nat) (text : Nat → List α) : List α :=
  match segment with
  | some s => new ++ text s
  | none => new

/-- `expandSimpleString`, src/generator/html.go:119-121. -/
def expandSimpleString (content : Str) : Str := content

/-- The loop of `expandString`, src/generator/expand.go:82-127. `simple` is `expandSimpleString` of the handler, and
`expandKey` the expansion of the token with a key. Fourth argument: `content[i:]`; `skip` is the number of characters that
are still to be skipped after a token (line 116); `segment` is `textSegmentStartIndex` (`none` is -1) and `new` is
`newContent`. Without a closing `$$` the slice expression of line 98 panics. (In the statistics, the result consists of
the things that are counted.) -/
def expandLoop {α : Type} (simple : Str → List α) (expandKey : Str → ExpM (List α)) (content : Str) : Str → (skip i : Nat) →
    (segment : Option Nat) → (new : List α) → ExpM (List α)
  | [], _, _, segment, new => pure (addSegment new segment fun s => simple (content.drop s))
  | _ :: t, skip + 1, i, segment, new => expandLoop simple expandKey content t skip (i + 1) segment new
  | c :: t, 0, i, segment, new =>
    if hasPrefix (c :: t) b!"$$" then
      match findClose content (i + 2) b!"$$" b!"$$" with
      | none => ExpM.panic
      | some stop => do
        let x ← expandKey ((content.drop (i + 2)).take (stop - (i + 2)))
        expandLoop simple expandKey content t (stop + 1 - i) (i + 1) none
          (addSegment new segment (fun s => simple ((content.drop s).take (i - s))) ++ x)
    else expandLoop simple expandKey content t 0 (i + 1) (segment.or (some i)) new

/-- `expandSizeTemplate`, src/generator/html.go:163-185. -/
def expandSizeTemplate (x y : Int) : Str :=
  if x ≠ -1 ∨ y ≠ -1 then
    b!"style=\"" ++ join b!" "
      [b!"vertical-align: middle;",
       if x ≠ -1 then b!"width: " ++ decimalInt x ++ b!"px;" else b!"width: auto;",
       if y ≠ -1 then b!"height: " ++ decimalInt y ++ b!"px;" else b!"height: auto;"] ++ b!"\""
  else []

/-- The path of an image in the HTML, lines 146-148 and 158-160 of src/generator/html.go. -/
def imageSource (env : HtmlEnv) (filename : Str) : Str := escapePathComponents (filenameToImagePath env.conf filename)

/-- `expandTableColumn`, src/generator/html.go:250-266. -/
def expandCol (ex : Str → ExpM Str) (col : TableCol) : ExpM Str := do
  let content ← ex col.content
  let joined := join b!" " col.attributes
  let attributes := if joined ≠ [] then b!" " ++ joined else joined
  pure (if col.isHeading then b!"<th" ++ attributes ++ b!">\n" ++ content ++ b!"\n</th>\n"
    else b!"<td" ++ attributes ++ b!">\n" ++ content ++ b!"\n</td>")

/-- `expandTableRow`, src/generator/html.go:236-248. -/
def expandRow (ex : Str → ExpM Str) (row : List TableCol) : ExpM Str := do
  let cols ← ExpM.mapM (expandCol ex) row
  pure (b!"<tr>\n" ++ join b!"\n" cols ++ b!"\n</tr>")

/-- `expandTable` and `expandTableCaption`, src/generator/html.go:216-234 and 268-275. -/
def expandTable (ex : Str → ExpM Str) (rows : List (List TableCol)) (caption : Str) : ExpM Str := do
  let rows ← ExpM.mapM (expandRow ex) rows
  let caption ← ex caption
  pure (b!"<div class=\"figure\">\n<table>\n" ++ join b!"\n" rows ++ b!"\n</table>" ++
    (b!"\n<div class=\"caption\">\n" ++ caption ++ b!"\n</div>") ++ b!"\n</div>")

/-- The template of an item and its content, src/generator/html.go:335-358. -/
def itemHtml (type : ItemType) (s : Str) : Str :=
  match type with
  | .normal =>
    if hasPrefix (trimSpace s) b!"<li" then (if contains s b!"</li" then s else s ++ b!"</li>")
    else b!"<li>\n" ++ s ++ b!"\n</li>"
  | .descriptionHead => b!"<div class=\"dt\">\n" ++ s ++ b!"\n</div>"
  | .descriptionItem => b!"<div class=\"dd\">\n" ++ s ++ b!"\n</div>"

/-- `expandUnorderedList`, `expandOrderedList` and `expandDescriptionList`, src/generator/html.go:277-299. -/
def listHtml (kind : ListKind) (s : Str) : Str :=
  match kind with
  | .unordered => b!"<ul>\n" ++ s ++ b!"\n</ul>"
  | .ordered => b!"<ol>\n" ++ s ++ b!"\n</ol>"
  | .description => b!"<div class=\"description-list\">\n" ++ s ++ b!"\n</div>"

mutual
/-- The three list tokens, src/generator/html.go:277-299. -/
def expandList (ex : Str → ExpM Str) : ListTok → ExpM Str
  | .mk kind items => do
    let items ← expandItems ex items
    pure (listHtml kind (join b!"\n" items))

/-- `expandListItems`, src/generator/html.go:301-315. -/
def expandItems (ex : Str → ExpM Str) : List ItemTok → ExpM (List Str)
  | [] => pure []
  | item :: rest => do
    let x ← expandItem ex item
    let xs ← expandItems ex rest
    pure (x :: xs)

/-- `expandListItem`, src/generator/html.go:317-359. -/
def expandItem (ex : Str → ExpM Str) : ItemTok → ExpM Str
  | .mk type content subLists => do
    let c ← ex content
    let subs ← expandSubLists ex subLists
    pure (itemHtml type (join b!"\n" (c :: subs)))

/-- The loop over the sub lists, src/generator/html.go:325-331. -/
def expandSubLists (ex : Str → ExpM Str) : List ListTok → ExpM (List Str)
  | [] => pure []
  | l :: rest => do
    let x ← expandList ex l
    let xs ← expandSubLists ex rest
    pure (x :: xs)
end

/-- `expandToken`, src/generator/expand.go:10-56, with the functions of src/generator/html.go. There is no case for
`StringToken`, for which the result is empty. -/
def expandToken (env : HtmlEnv) (ex : Str → ExpM Str) : Token → ExpM Str
  | .heading content depth => do
    let c ← ex content
    pure (b!"<h" ++ decimal depth ++ b!">" ++ c ++ b!"</h" ++ decimal depth ++ b!">")
  | .inlineImage filename x y =>
    pure (b!"<img alt=\"image\" class=\"inline\" src=\"./" ++ imageSource env filename ++ b!"\" " ++
      expandSizeTemplate x y ++ b!">")
  | .image filename caption x y => do
    let c ← ex caption
    pure (b!"<div class=\"figure\">\n<img alt=\"image\" src=\"./" ++ imageSource env filename ++ b!"\" " ++
      expandSizeTemplate x y ++ b!">\n<div class=\"caption\">\n" ++ c ++ b!"\n</div>\n</div>")
  | .externalLink url text => do
    let t ← ex text
    pure (b!"<a href=\"" ++ url ++ b!"\">" ++ t ++ b!"</a>")
  | .internalLink _ text => ex text
  | .list l => expandList ex l
  | .table rows caption => expandTable ex rows caption
  | .math content =>
    match env.math content with
    | .ok (path, width, height, style) =>
      pure (b!"<img alt=\"image\" src=\"./" ++ escapePathComponents path ++ b!"\" style=\"width: " ++ width ++
        b!"; height: " ++ height ++ b!"; " ++ style ++ b!"\">")
    | .err => some .err
    | .panic => some .panic
    | .fatal => some .fatal
  | .refDefinition index content => do
    let c ← ex content
    pure (b!"[" ++ decimal (index + 1) ++ b!"] " ++ c ++ b!"<br>")
  | .refUsage index => pure (b!"[" ++ decimal (index + 1) ++ b!"]")
  | .nowiki content => pure content
  | .string _ => pure []

/-- The expansion of a token key, src/generator/expand.go:100-111. `key` is the text between the dollar signs. -/
def expandKey (env : HtmlEnv) (tokens : List (Str × Token)) (ex : Str → ExpM Str) (key : Str) : ExpM Str :=
  match lookupToken tokens (b!"$$" ++ key ++ b!"$$") with
  | none => ExpM.err
  | some token => expandToken env ex token

/-- `expandString`, src/generator/expand.go:71-130. -/
def expandString (env : HtmlEnv) (tokens : List (Str × Token)) : (fuel : Nat) → (content : Str) → ExpM Str
  | 0, _ => ExpM.running
  | fuel + 1, content =>
    if hasToken (expandMarker content) then
      expandLoop expandSimpleString (expandKey env tokens (expandString env tokens fuel)) (expandMarker content)
        (expandMarker content) 0 0 none []
    else pure (expandSimpleString (expandMarker content))

/-- `HEADER`, src/generator/html.go:21-28, with the path of the style file. -/
def htmlHeader (style : Str) : Str :=
  b!"<?xml version=\"1.0\" encoding=\"UTF-8\"?>\n<html xmlns=\"http://www.w3.org/1999/xhtml\">\n<head>\n<meta charset=\"utf-8\">\n<link rel=\"stylesheet\" href=\"" ++
    style ++ b!"\">\n</head>\n<body xmlns:epub=\"http://www.idpf.org/2007/ops\">\n"

/-- `FOOTER`, src/generator/html.go:29-32. -/
def htmlFooter : Str := b!"\n</body>\n</html>\n"

/-- The text of the HTML file, `Generate`, src/generator/html.go:101-113. `style` is the relative path of the style
file. -/
def generateHtml (env : HtmlEnv) (tokens : List (Str × Token)) (fuel : Nat) (style title content : Str) : ExpM Str := do
  let body ← expandString env tokens fuel content
  pure (htmlHeader style ++ b!"\n<h1>" ++ title ++ b!"</h1>\n" ++ body ++ htmlFooter)

end Verif.Model
