import Verif.Spec.Expand

/-!
# HTML as a sequence of tags and texts

Used for the property that the elements of an article become the corresponding HTML elements.
-/

namespace Verif.Spec
open Verif.Go Verif.Model
open scoped List

/-- A part of an HTML document: a text, a tag like `<td colspan="2">` and a closing tag like `</td>`. -/
inductive HtmlPart where
  | text (s : Str)
  | tag (name : Str) (attributes : List Str)
  | close (name : Str)
  deriving DecidableEq, Repr

/-- White space between tags. -/
def White (c : Byte) : Prop := c = 0x20 ∨ c = 0x0A ∨ c = 0x09

/-- Attributes can be written with any white space between them. -/
inductive Attributes : List Str → Str → Prop
  | nil {w : Str} (hw : ∀ c ∈ w, White c) : Attributes [] w
  | cons {w a s : Str} {attributes : List Str} (hw : ∀ c ∈ w, White c) (hne : w ≠ []) (h : Attributes attributes s) :
      Attributes (a :: attributes) (w ++ a ++ s)

/-- A text is a way of writing a document: white space is possible between its parts, but nothing else. -/
inductive Written : List HtmlPart → Str → Prop
  | nil : Written [] []
  | space {c : Byte} {es : List HtmlPart} {s : Str} (hc : White c) (h : Written es s) : Written es (c :: s)
  | text {t : Str} {es : List HtmlPart} {s : Str} (ht : (0x3C : Byte) ∉ t) (h : Written es s) : Written (.text t :: es) (t ++ s)
  | tag {name a : Str} {attributes : List Str} {es : List HtmlPart} {s : Str} (ha : Attributes attributes a) (h : Written es s) :
      Written (.tag name attributes :: es) (b!"<" ++ name ++ a ++ b!">" ++ s)
  | close {name : Str} {es : List HtmlPart} {s : Str} (h : Written es s) :
      Written (.close name :: es) (b!"</" ++ name ++ b!">" ++ s)

/-- Elements without content have no closing tag. -/
def voidNames : List Str := [b!"br", b!"img", b!"hr", b!"wbr", b!"meta", b!"link", b!"?xml"]

/-- Every tag is closed, the last one first. The first argument consists of the names of the elements that are open at
the beginning. -/
inductive WellNested : List Str → List HtmlPart → Prop
  | nil : WellNested [] []
  | text {t : Str} {stack : List Str} {es : List HtmlPart} (h : WellNested stack es) : WellNested stack (.text t :: es)
  | void {name : Str} {attributes stack : List Str} {es : List HtmlPart} (hn : name ∈ voidNames) (h : WellNested stack es) :
      WellNested stack (.tag name attributes :: es)
  | opening {name : Str} {attributes stack : List Str} {es : List HtmlPart} (hn : name ∉ voidNames)
      (h : WellNested (name :: stack) es) : WellNested stack (.tag name attributes :: es)
  | closing {name : Str} {stack : List Str} {es : List HtmlPart} (h : WellNested stack es) :
      WellNested (name :: stack) (.close name :: es)

/-- An element with its content. -/
def element (name : Str) (attributes : List Str) (inner : List HtmlPart) : List HtmlPart :=
  .tag name attributes :: (inner ++ [.close name])

/-- The size of an image; -1 means that it is not given. -/
def sizeAttributes (x y : Int) : List Str :=
  if x = -1 ∧ y = -1 then []
  else [b!"style=\"vertical-align: middle; width: " ++ (if x = -1 then b!"auto" else decimalInt x ++ b!"px") ++
    b!"; height: " ++ (if y = -1 then b!"auto" else decimalInt y ++ b!"px") ++ b!";\""]

/-- How an article's elements are presented: the path of each picture and the path, width, height and style of each
formula. -/
structure Pictures where
  file : Str → Str
  formula : Str → Str × Str × Str × Str

mutual
/-- The HTML of lists, if `f` is the HTML of the texts. -/
def listParts (f : Str → List HtmlPart) : ListTok → List HtmlPart
  | .mk .unordered items => element b!"ul" [] (itemsParts f items)
  | .mk .ordered items => element b!"ol" [] (itemsParts f items)
  | .mk .description items => element b!"div" [b!"class=\"description-list\""] (itemsParts f items)
def itemsParts (f : Str → List HtmlPart) : List ItemTok → List HtmlPart
  | [] => []
  | item :: rest => itemParts f item ++ itemsParts f rest
def itemParts (f : Str → List HtmlPart) : ItemTok → List HtmlPart
  | .mk .normal content subLists => element b!"li" [] (f content ++ subListsParts f subLists)
  | .mk .descriptionHead content subLists => element b!"div" [b!"class=\"dt\""] (f content ++ subListsParts f subLists)
  | .mk .descriptionItem content subLists => element b!"div" [b!"class=\"dd\""] (f content ++ subListsParts f subLists)
def subListsParts (f : Str → List HtmlPart) : List ListTok → List HtmlPart
  | [] => []
  | l :: rest => listParts f l ++ subListsParts f rest
end

/-- The HTML of a cell of a table. -/
def cellParts (f : Str → List HtmlPart) (c : TableCol) : List HtmlPart :=
  element (if c.isHeading then b!"th" else b!"td") (c.attributes.filter (· ≠ [])) (f c.content)

/-- The HTML of a token, if `f` is the HTML of the texts within it. -/
def tokenParts (pictures : Pictures) (f : Str → List HtmlPart) : Token → List HtmlPart
  | .heading content level => element (b!"h" ++ decimal level) [] (f content)
  | .internalLink _ text => f text
  | .externalLink url text => element b!"a" [b!"href=\"" ++ url ++ b!"\""] (f text)
  | .table rows caption =>
    element b!"div" [b!"class=\"figure\""]
      (element b!"table" [] (rows.flatMap fun row => element b!"tr" [] (row.flatMap (cellParts f))) ++
       element b!"div" [b!"class=\"caption\""] (f caption))
  | .list l => listParts f l
  | .image filename caption x y =>
    element b!"div" [b!"class=\"figure\""]
      (.tag b!"img" ([b!"alt=\"image\"", b!"src=\"./" ++ pictures.file filename ++ b!"\""] ++ sizeAttributes x y) ::
       element b!"div" [b!"class=\"caption\""] (f caption))
  | .inlineImage filename x y =>
    [.tag b!"img" ([b!"alt=\"image\"", b!"class=\"inline\"", b!"src=\"./" ++ pictures.file filename ++ b!"\""] ++ sizeAttributes x y)]
  | .refDefinition index content => .text (b!"[" ++ decimal (index + 1) ++ b!"] ") :: (f content ++ [.tag b!"br" []])
  | .refUsage index => [.text (b!"[" ++ decimal (index + 1) ++ b!"]")]
  | .math content =>
    [.tag b!"img" [b!"alt=\"image\"", b!"src=\"./" ++ (pictures.formula content).1 ++ b!"\"",
      b!"style=\"width: " ++ (pictures.formula content).2.1 ++ b!"; height: " ++ (pictures.formula content).2.2.1 ++ b!"; " ++
        (pictures.formula content).2.2.2 ++ b!"\""]]
  | .nowiki content => [.text content]
  | .string s => [.text s]

/-- The HTML of a marker. -/
def Marker.parts : Marker → List HtmlPart
  | .boldOpen => [.tag b!"b" []]
  | .boldClose => [.close b!"b"]
  | .italicOpen => [.tag b!"i" []]
  | .italicClose => [.close b!"i"]
  | .paragraph => [.tag b!"br" [], .tag b!"br" []]

/-- A marker opens or closes a bold or italic section; `before` and `after` are the open sections. -/
inductive Marker.Step : Marker → (before after : List Str) → Prop
  | boldOpen (stack : List Str) : Step .boldOpen stack (b!"b" :: stack)
  | boldClose (stack : List Str) : Step .boldClose (b!"b" :: stack) stack
  | italicOpen (stack : List Str) : Step .italicOpen stack (b!"i" :: stack)
  | italicClose (stack : List Str) : Step .italicClose (b!"i" :: stack) stack
  | paragraph (stack : List Str) : Step .paragraph stack stack

/-- Ordinary text of an article may contain HTML tags like `<sub>` that are closed in the same text; here, their names do
not begin with the letter l (the program treats `<li>` in a special way). -/
structure Leaf (text : Str) (es : List HtmlPart) : Prop where
  written : Written es text
  nested : WellNested [] es
  names : ∀ name attributes, .tag name attributes ∈ es → ∃ c rest, name = c :: rest ∧ c ≠ 0x6C

/-- `Describes pictures tokens stack content es`: the document `es` is what the text `content` with its tokens and markers
describes, if the bold and italic sections `stack` are open at its beginning. Bold and italic sections are closed in the text
in which they are opened. -/
inductive Describes (pictures : Pictures) (tokens : List (Str × Token)) : List Str → Str → List HtmlPart → Prop
  | last {text : Str} {es : List HtmlPart} (h : ¬ b!"$$" <:+: text) (hl : Leaf text es) : Describes pictures tokens [] text es
  | marker {text content : Str} {ts es : List HtmlPart} {before after : List Str} (m : Marker) (h : Unambiguous text)
      (hl : Leaf text ts) (hs : m.Step before after) (hr : Describes pictures tokens after content es) :
      Describes pictures tokens before (text ++ (b!"$$" ++ m.name ++ b!"$$") ++ content) (ts ++ m.parts ++ es)
  | token {text content type : Str} {n : Nat} {token : Token} {ts es : List HtmlPart} {stack : List Str} (h : Unambiguous text)
      (hl : Leaf text ts) (ht : type ≠ [] ∧ ∀ c ∈ type, tokenChar c = true)
      (hk : lookupToken tokens (tokenKey type n) = some token)
      (hs : ∀ s, token ≠ .string s) (hn : ∀ s, token = .nowiki s → (0x3C : Byte) ∉ s)
      (f : Str → List HtmlPart) (hi : ∀ t ∈ tokenTexts token, Describes pictures tokens [] t (f t))
      (hr : Describes pictures tokens stack content es) :
      Describes pictures tokens stack (text ++ tokenKey type n ++ content) (ts ++ tokenParts pictures f token ++ es)

/-- The HTML file of an article with the given style file, title and text. -/
def documentParts (style : Str) (title body : List HtmlPart) : List HtmlPart :=
  .tag b!"?xml" [b!"version=\"1.0\"", b!"encoding=\"UTF-8\"?"] ::
  element b!"html" [b!"xmlns=\"http://www.w3.org/1999/xhtml\""]
    (element b!"head" [] [.tag b!"meta" [b!"charset=\"utf-8\""], .tag b!"link" [b!"rel=\"stylesheet\"", b!"href=\"" ++ style ++ b!"\""]] ++
     element b!"body" [b!"xmlns:epub=\"http://www.idpf.org/2007/ops\""] (element b!"h1" [] title ++ body))

end Verif.Spec
