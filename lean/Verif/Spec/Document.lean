import Verif.Spec.WikiLists
import Verif.Spec.WikiImages
import Verif.Spec.Images
import Verif.Spec.DocTables
import Verif.Spec.References
import Verif.Spec.PlainText
import Verif.Model.Expand

/-!
# Articles of headings, paragraphs, lists, tables, images, formulas and references
-/

namespace Verif.Spec
open Verif.Model Verif.Go
open scoped List

/-! ### Lines -/

/-- Italic text, bold text, or both. -/
inductive Emphasis where
  | italic | bold | both
  deriving DecidableEq, Repr

/-- The apostrophes in front of and behind the text. -/
def Emphasis.quotes : Emphasis → Str
  | .italic => b!"''"
  | .bold => b!"'''"
  | .both => b!"'''''"

def Emphasis.openTags : Emphasis → Str
  | .italic => b!"<i>"
  | .bold => b!"<b>"
  | .both => b!"<i><b>"

def Emphasis.closeTags : Emphasis → Str
  | .italic => b!"</i>"
  | .bold => b!"</b>"
  | .both => b!"</b></i>"

/-- A part of a caption: text or a link to an article. -/
inductive CaptionPart where
  | text (t : Str)
  | link (l : WikiLink)

def CaptionPart.source : CaptionPart → Str
  | .text t => t
  | .link l => b!"[[" ++ l.inner ++ b!"]]"

def CaptionPart.html : CaptionPart → Str
  | .text t => t
  | .link l => l.shown

/-- Parts of a caption with the same style. -/
structure CaptionRun where
  style : Option Emphasis
  parts : List CaptionPart

def CaptionRun.source (r : CaptionRun) : Str :=
  match r.style with
  | none => r.parts.flatMap CaptionPart.source
  | some e => e.quotes ++ r.parts.flatMap CaptionPart.source ++ e.quotes

def CaptionRun.html (r : CaptionRun) : Str :=
  match r.style with
  | none => r.parts.flatMap CaptionPart.html
  | some e => e.openTags ++ r.parts.flatMap CaptionPart.html ++ e.closeTags

def captionSource (c : List CaptionRun) : Str := c.flatMap CaptionRun.source
def captionHtml (c : List CaptionRun) : Str := c.flatMap CaptionRun.html

/-- An image with its options and its caption. -/
structure ArticleImage where
  space : Str
  name : Str
  options : List ImageOption
  caption : Option (List CaptionRun)

/-- How it is written: `[[space:name|option|…|caption]]`. -/
def ArticleImage.written (p : ArticleImage) : WikiImage := ⟨p.space, p.name, p.options, p.caption.map captionSource⟩

/-- The attribute with the size of an image; -1 stands for none. -/
def sizeStyle (size : Int × Int) : Str :=
  if size = (-1, -1) then []
  else b!"style=\"vertical-align: middle; width: " ++ (if size.1 = -1 then b!"auto" else decimalInt size.1 ++ b!"px") ++
    b!"; height: " ++ (if size.2 = -1 then b!"auto" else decimalInt size.2 ++ b!"px") ++ b!";\""

/-- The HTML of an image: a figure or a part of a line. Only images with a frame have a caption. -/
def imageHtml (path : Str) (i : WikiImage) (caption : Str) : Str :=
  if i.block then
    b!"<div class=\"figure\">\n<img alt=\"image\" src=\"./" ++ path ++ b!"\" " ++ sizeStyle (lastSize i.options) ++ b!">\n" ++
      b!"<div class=\"caption\">\n" ++ (if i.framed then caption else []) ++ b!"\n</div>\n</div>"
  else b!"<img alt=\"image\" class=\"inline\" src=\"./" ++ path ++ b!"\" " ++ sizeStyle (lastSize i.options) ++ b!">"

/-- The HTML of an image; `path` is the path of a file. -/
def ArticleImage.html (env : ParserEnv) (path : Str → Str) (p : ArticleImage) : Str :=
  imageHtml (path (p.written.file env)) p.written (match p.caption with | none => [] | some c => captionHtml c)

/-- A part of the text of a reference: text, a link to an article, or a link to a web page. -/
inductive NotePart where
  | text (t : Str)
  | link (l : WikiLink)
  | web (url label : Str)

def NotePart.source : NotePart → Str
  | .text t => t
  | .link l => b!"[[" ++ l.inner ++ b!"]]"
  | .web url label => b!"[" ++ url ++ b!" " ++ label ++ b!"]"

def NotePart.html : NotePart → Str
  | .text t => t
  | .link l => l.shown
  | .web url label => b!"<a href=\"" ++ url ++ b!"\">" ++ label ++ b!"</a>"

/-- Parts of the text of a reference with the same style. -/
structure NoteRun where
  style : Option Emphasis
  parts : List NotePart

def NoteRun.source (r : NoteRun) : Str :=
  match r.style with
  | none => r.parts.flatMap NotePart.source
  | some e => e.quotes ++ r.parts.flatMap NotePart.source ++ e.quotes

def NoteRun.html (r : NoteRun) : Str :=
  match r.style with
  | none => r.parts.flatMap NotePart.html
  | some e => e.openTags ++ r.parts.flatMap NotePart.html ++ e.closeTags

abbrev NoteText := List NoteRun

def noteSource (c : NoteText) : Str := c.flatMap NoteRun.source
def noteHtml (c : NoteText) : Str := c.flatMap NoteRun.html

/-- A reference with its text, a further mention of a reference with a name, or a list of references, which are shown with their
numbers (counted from 0) and texts. -/
inductive RefKind (α : Type) where
  | mention
  | define (text : α)
  | list (entries : List (Nat × α))

/-- A reference: the number with which it is shown (counted from 0; it has no meaning for lists), the attributes of the tag, the
number of spaces at the end of the tag, and its kind. -/
structure ArticleRef where
  number : Nat
  attrs : RefAttrs
  space : Nat
  kind : RefKind NoteText

def ArticleRef.source (r : ArticleRef) : Str :=
  match r.kind with
  | .mention => b!"<ref" ++ r.attrs.text ++ spaces r.space ++ b!"/>"
  | .define c => b!"<ref" ++ r.attrs.text ++ spaces r.space ++ b!">" ++ noteSource c ++ b!"</ref>"
  | .list _ => b!"<references" ++ r.attrs.text ++ spaces r.space ++ b!"/>"

/-- The line of a list for a reference with number and text. -/
def entryHtml (e : Nat × NoteText) : Str := b!"[" ++ decimal (e.1 + 1) ++ b!"] " ++ noteHtml e.2 ++ b!"<br>"

/-- The marker of a reference or the lines of a list. -/
def ArticleRef.html (r : ArticleRef) : Str :=
  match r.kind with
  | .list entries => join b!"\n" (entries.map entryHtml)
  | _ => b!"[" ++ decimal (r.number + 1) ++ b!"]"

/-- The reference as an item of a text with references. -/
def ArticleRef.item (r : ArticleRef) : RefItem NoteText :=
  match r.kind with
  | .mention => .use b!"<ref" r.attrs (spaces r.space)
  | .define c => .define b!"<ref" r.attrs (spaces r.space) c b!"</ref>"
  | .list _ => .list b!"<references" r.attrs (spaces r.space)

/-- What it becomes. -/
def ArticleRef.pieces (r : ArticleRef) : List (RefPiece NoteText) :=
  match r.kind with
  | .list entries => [.list entries]
  | _ => [.marker r.number]

/-- A part of a line: text, a link to an article, a link to a web page, an image, a formula with the attributes of its tag, or a
reference. -/
inductive Inline where
  | text (t : Str)
  | link (l : WikiLink)
  | web (url label : Str)
  | image (p : ArticleImage)
  | math (attributes formula : Str)
  | ref (r : ArticleRef)

/-- How it is written. -/
def Inline.source : Inline → Str
  | .text t => t
  | .link l => b!"[[" ++ l.inner ++ b!"]]"
  | .web url label => b!"[" ++ url ++ b!" " ++ label ++ b!"]"
  | .image p => p.written.source
  | .math attributes formula => b!"<math" ++ attributes ++ b!">" ++ formula ++ b!"</math>"
  | .ref r => r.source

/-- The HTML of images and of formulas. -/
structure ArticlePictures where
  image : ArticleImage → Str
  formula : Str → Str

/-- The HTML of a rendered formula. -/
def formulaHtml (path width height style : Str) : Str :=
  b!"<img alt=\"image\" src=\"./" ++ path ++ b!"\" style=\"width: " ++ width ++ b!"; height: " ++ height ++ b!"; " ++ style ++ b!"\">"

/-- What is shown; `pic` is the HTML of images and formulas. There are no links between articles in the book, only their text. -/
def Inline.html (pic : ArticlePictures) : Inline → Str
  | .text t => t
  | .link l => l.shown
  | .web url label => b!"<a href=\"" ++ url ++ b!"\">" ++ label ++ b!"</a>"
  | .image p => pic.image p
  | .math _ formula => pic.formula formula
  | .ref r => r.html

/-- Parts with the same style. -/
structure Run where
  style : Option Emphasis
  parts : List Inline

def Run.source (r : Run) : Str :=
  match r.style with
  | none => r.parts.flatMap Inline.source
  | some e => e.quotes ++ r.parts.flatMap Inline.source ++ e.quotes

def Run.html (pic : ArticlePictures) (r : Run) : Str :=
  match r.style with
  | none => r.parts.flatMap (Inline.html pic)
  | some e => e.openTags ++ r.parts.flatMap (Inline.html pic) ++ e.closeTags

/-- A line with bold and italic text, with links, with images, with formulas and with references. -/
abbrev RichLine := List Run

def lineSource (l : RichLine) : Str := l.flatMap Run.source
def lineHtml (pic : ArticlePictures) (l : RichLine) : Str := l.flatMap (Run.html pic)

/-- Text without characters that have a meaning in wikitext (or for the program); it is not the beginning of the UTF-8 code
of a white space. -/
structure Words (t : Str) : Prop where
  chars : ∀ c ∈ t, c ∉ b!"\n[]{<"
  pairs : ∀ c ∈ b!"'$_", ¬ [c, c] <:+: t
  first : t.head? ≠ some 0x27
  last : ∀ c ∈ b!"'$_", t.getLast? ≠ some c
  complete : ∀ sp ∈ spaceChars, t <+: sp → t = [] ∨ t = sp

/-- The text outside of links: HTML tags without a meaning in wikitext (such as `<br>` and `<sup>`) and underscores are possible, too.
The text does not end within the beginning of a tag and does not begin with the tag of an item of a list; with an underscore it is not
in capital letters as a whole. -/
structure TextWords (t : Str) : Prop where
  chars : ∀ c ∈ t, c ∉ b!"\n[]{"
  pairs : ∀ c ∈ b!"'$_", ¬ [c, c] <:+: t
  first : t.head? ≠ some 0x27
  last : ∀ c ∈ b!"'$_<", t.getLast? ≠ some c
  complete : ∀ sp ∈ spaceChars, t <+: sp → t = [] ∨ t = sp
  tags : TagFree t
  slash : ¬ b!"</" <:+ t
  item : ¬ b!"<l" <+: t
  marker : 0x5F ∈ t → ∃ c ∈ t, ¬ (65 ≤ c ∧ c ≤ 90) ∧ ¬ (48 ≤ c ∧ c ≤ 57) ∧ c ∉ b!"_$"

/-- The text of a link. -/
structure LabelText (t : Str) : Prop where
  words : Words t
  nonEmpty : t ≠ []
  trimmed : trimSpace t = t
  start : ∀ c, t.head? = some c → c ∉ b!"*#;:="

/-- Bold or italic runs do not follow one another directly. -/
def RunsSeparated : RichLine → Prop
  | r :: r' :: rest => (r.style = none ∨ r'.style = none) ∧ RunsSeparated (r' :: rest)
  | _ => True

/-- The parts of a caption as parts of a line. -/
def CaptionPart.inline : CaptionPart → Inline
  | .text t => .text t
  | .link l => .link l

def CaptionRun.run (r : CaptionRun) : Run := ⟨r.style, r.parts.map CaptionPart.inline⟩

def CaptionPart.WellFormed (env : ParserEnv) : CaptionPart → Prop
  | .text t => t ≠ [] ∧ TextWords t ∧ 0x3C ∉ t ∧ 0x7C ∉ t
  | .link l => l.WellFormed env ∧ Words l.inner ∧ KeptLink env l.inner ∧ LabelText l.shown

/-- The caption is not taken for an option. -/
structure CaptionOk (env : ParserEnv) (c : List CaptionRun) : Prop where
  nonEmpty : c ≠ []
  runs : ∀ r ∈ c, r.parts ≠ [] ∧ ∀ p ∈ r.parts, p.WellFormed env
  separated : RunsSeparated (c.map CaptionRun.run)
  trimmed : trimSpace (captionSource c) = captionSource c
  start : ∀ x, (captionSource c).head? = some x → x ∉ b!"*#;:="
  free : FreeText (captionSource c) ∧ ¬ IgnoredOption env (captionSource c)

/-- The configuration of images: `File` is a name of the file namespace, and no option with a dollar sign is ignored. The
conversion of the first letter to upper case does not create colons, vertical bars or spaces. -/
structure ReadsImages (env : ParserEnv) : Prop where
  file : env.lower b!"File" ∈ env.config.list .filePrefixes
  options : ∀ p ∈ env.config.list .ignoredImageParams, 0x24 ∉ p
  upper : CreatesNoSeparators env.upperFirst

/-- The image is one that is wanted in the book. -/
structure ArticleImage.WellFormed (env : ParserEnv) (p : ArticleImage) : Prop where
  reads : ReadsImages env
  image : p.written.WellFormed env
  wanted : ¬ p.written.Unwanted env
  file : env.lower p.space ∈ env.config.list .filePrefixes
  words : Words (p.space ++ b!":" ++ { p.written with caption := none }.inner)
  trimmed : trimSpace { p.written with caption := none }.inner = { p.written with caption := none }.inner
  start : ∀ x, p.name.head? = some x → x ∉ b!"*#;:="
  caption : ∀ c, p.caption = some c → CaptionOk env c

/-- A formula without characters that have a meaning outside of formulas: no tags, no brackets, no dollar signs, no line breaks, no
doubled apostrophes (second derivatives are not possible), no doubled braces. -/
structure FormulaOk (attributes formula : Str) : Prop where
  attributes : ∀ c ∈ attributes, c ∉ b!"\n[]{<>'$_"
  chars : ∀ c ∈ formula, c ∉ b!"\n[]<$"
  pairs : ∀ c ∈ b!"'{_", ¬ [c, c] <:+: formula

/-- The parts of the text of a reference as parts of a line. -/
def NotePart.inline : NotePart → Inline
  | .text t => .text t
  | .link l => .link l
  | .web url label => .web url label

def NoteRun.run (r : NoteRun) : Run := ⟨r.style, r.parts.map NotePart.inline⟩

def NotePart.WellFormed (env : ParserEnv) : NotePart → Prop
  | .text t => t ≠ [] ∧ TextWords t ∧ 0x3C ∉ t
  | .link l => l.WellFormed env ∧ Words l.inner ∧ KeptLink env l.inner ∧ LabelText l.shown
  | .web url label => (Bracket.web url label).WellFormed env ∧ Words (url ++ b!" " ++ label) ∧ LabelText label

structure NoteOk (env : ParserEnv) (c : NoteText) : Prop where
  nonEmpty : c ≠ []
  runs : ∀ r ∈ c, r.parts ≠ [] ∧ ∀ p ∈ r.parts, p.WellFormed env
  separated : RunsSeparated (c.map NoteRun.run)
  trimmed : trimSpace (noteSource c) = noteSource c
  start : ∀ x, (noteSource c).head? = some x → x ∉ b!"*#;:="

/-- The attributes have no characters with a meaning in wikitext. A reference without a text has a name. A list of references is not empty. -/
structure ArticleRef.WellFormed (env : ParserEnv) (r : ArticleRef) : Prop where
  attributes : r.attrs.WellFormed
  chars : ∀ c ∈ r.attrs.text, c ∉ b!"[]{"
  pairs : ∀ c ∈ b!"'$_", ¬ [c, c] <:+: r.attrs.text
  name : r.kind = .mention → RefAttrs.get r.attrs b!"name" ≠ []
  text : ∀ c, r.kind = .define c → NoteOk env c
  entries : r.kind ≠ .list []

def Inline.WellFormed (env : ParserEnv) : Inline → Prop
  | .text t => t ≠ [] ∧ TextWords t
  | .link l => l.WellFormed env ∧ Words l.inner ∧ KeptLink env l.inner ∧ LabelText l.shown
  | .web url label => (Bracket.web url label).WellFormed env ∧ Words (url ++ b!" " ++ label) ∧ LabelText label
  | .image p => p.WellFormed env
  | .math attributes formula => FormulaOk attributes formula
  | .ref r => r.WellFormed env

/-- There is no bold or italic text in the caption or in the text of the reference. -/
def Inline.unstyled : Inline → Prop
  | .image p => ∀ c, p.caption = some c → ∀ r ∈ c, r.style = none
  | .ref x => ∀ c, x.kind = .define c → ∀ r ∈ c, r.style = none
  | _ => True

/-- Within bold or italic text the captions of images and the texts of references are neither bold nor italic. -/
def Run.WellFormed (env : ParserEnv) (r : Run) : Prop :=
  r.parts ≠ [] ∧ (∀ p ∈ r.parts, p.WellFormed env) ∧ (r.style ≠ none → ∀ p ∈ r.parts, p.unstyled)

structure RichLineOk (env : ParserEnv) (l : RichLine) : Prop where
  nonEmpty : l ≠ []
  runs : ∀ r ∈ l, r.WellFormed env
  separated : RunsSeparated l
  trimmed : trimSpace (lineSource l) = lineSource l
  start : ∀ c, (lineSource l).head? = some c → c ∉ b!"*#;:="

/-- The line is nothing but one link, one image, one formula or one reference. -/
def isLinkOnly : RichLine → Bool
  | [⟨none, [.link _]⟩] => true
  | [⟨none, [.web _ _]⟩] => true
  | [⟨none, [.image _]⟩] => true
  | [⟨none, [.math _ _]⟩] => true
  | [⟨none, [.ref _]⟩] => true
  | _ => false

/-! ### Lists -/

mutual
/-- A list with the character of its first item. -/
inductive TreeList (α : Type) where
  | mk (mark : ListMark) (items : List (TreeItem α))
/-- An item: its character, its text and the lists in it. -/
inductive TreeItem (α : Type) where
  | mk (mark : ListMark) (text : α) (subLists : List (TreeList α))
end

def TreeList.mark {α : Type} : TreeList α → ListMark
  | .mk m _ => m

mutual
/-- The list with the texts as they are written. -/
def TreeList.toWiki {α : Type} (g : α → Str) : TreeList α → WikiList
  | .mk m items => .mk m (treeItemsToWiki g items)
def treeItemsToWiki {α : Type} (g : α → Str) : List (TreeItem α) → List WikiItem
  | [] => []
  | .mk c text subLists :: rest => .entry c (g text) (treesToWiki g subLists) :: treeItemsToWiki g rest
def treesToWiki {α : Type} (g : α → Str) : List (TreeList α) → List WikiList
  | [] => []
  | l :: rest => l.toWiki g :: treesToWiki g rest
end

mutual
/-- Which lists are properly written; `p` is the condition for the texts. -/
def TreeList.WellFormed {α : Type} (p : ListMark → α → Prop) : TreeList α → Prop
  | .mk m items => items ≠ [] ∧ treeItemsWellFormed p m true items
/-- The first item begins with the character of the list, the other ones with an allowed character. -/
def treeItemsWellFormed {α : Type} (p : ListMark → α → Prop) (m : ListMark) : (first : Bool) → List (TreeItem α) → Prop
  | _, [] => True
  | first, .mk c text subLists :: rest => (if first then c = m else m.Allows c) ∧ p c text ∧ treesWellFormed p subLists ∧
      treeItemsWellFormed p m false rest
/-- Lists in succession are different lists. -/
def treesWellFormed {α : Type} (p : ListMark → α → Prop) : List (TreeList α) → Prop
  | [] => True
  | l :: rest => l.WellFormed p ∧ (∀ l' ∈ rest.head?, ¬ l.mark.Allows l'.mark) ∧ treesWellFormed p rest
end

def ListMark.listOpen : ListMark → Str
  | .star => b!"<ul>"
  | .hash => b!"<ol>"
  | .semicolon | .colon => b!"<div class=\"description-list\">"

def ListMark.listClose : ListMark → Str
  | .star => b!"</ul>"
  | .hash => b!"</ol>"
  | .semicolon | .colon => b!"</div>"

def ListMark.itemOpen : ListMark → Str
  | .star | .hash => b!"<li>"
  | .semicolon => b!"<div class=\"dt\">"
  | .colon => b!"<div class=\"dd\">"

def ListMark.itemClose : ListMark → Str
  | .star | .hash => b!"</li>"
  | .semicolon | .colon => b!"</div>"

mutual
/-- The HTML of a list; `h` is the HTML of the texts. -/
def TreeList.html {α : Type} (h : α → Str) : TreeList α → Str
  | .mk m items => m.listOpen ++ b!"\n" ++ join b!"\n" (treeItemsHtml h items) ++ b!"\n" ++ m.listClose
def treeItemsHtml {α : Type} (h : α → Str) : List (TreeItem α) → List Str
  | [] => []
  | .mk c text subLists :: rest =>
    (c.itemOpen ++ b!"\n" ++ join b!"\n" (h text :: treesHtml h subLists) ++ b!"\n" ++ c.itemClose) :: treeItemsHtml h rest
def treesHtml {α : Type} (h : α → Str) : List (TreeList α) → List Str
  | [] => []
  | l :: rest => l.html h :: treesHtml h rest
end

/-! ### Articles -/

/-- A block of an article: a heading (with the number of spaces around its text), the lines of a paragraph, a list
(with the number of spaces in front of each text), an image, a table, a list of references (with the attributes of the tag, the
number of spaces at its end and the references that are shown), or nothing behind the last empty lines. -/
inductive DocBlock where
  | heading (level before after : Nat) (title : RichLine)
  | paragraph (lines : List RichLine)
  | list (l : TreeList (Nat × RichLine))
  | image (p : ArticleImage)
  | table (t : DocTable RichLine)
  | references (attrs : RefAttrs) (space : Nat) (entries : List (Nat × NoteText))
  | gap

def DocBlock.isParagraph : DocBlock → Bool
  | .paragraph _ => true
  | _ => false

/-- The lines of a block. -/
def DocBlock.source : DocBlock → List Str
  | .heading level before after title =>
    [List.replicate level 0x3D ++ spaces before ++ lineSource title ++ spaces after ++ List.replicate level 0x3D]
  | .paragraph lines => lines.map lineSource
  | .list l => (l.toWiki fun p => spaces p.1 ++ lineSource p.2).lines
  | .image p => [p.written.source]
  | .table t => t.source lineSource
  | .references attrs space _ => [b!"<references" ++ attrs.text ++ spaces space ++ b!"/>"]
  | .gap => []

/-- The HTML of a block. -/
def DocBlock.html (pic : ArticlePictures) : DocBlock → List Str
  | .heading level _ _ title => [b!"<h" ++ decimal level ++ b!">" ++ lineHtml pic title ++ b!"</h" ++ decimal level ++ b!">"]
  | .paragraph lines => lines.map (lineHtml pic)
  | .list l => [l.html fun p => spaces p.1 ++ lineHtml pic p.2]
  | .image p => [pic.image p]
  | .table t => [t.html (lineHtml pic)]
  | .references _ _ entries => entries.map entryHtml
  | .gap => []

/-- There is no colon in the texts outside of links. -/
def NoColon (l : RichLine) : Prop := ∀ r ∈ l, ∀ p ∈ r.parts, ∀ t, p = .text t → 0x3A ∉ t

/-- There is no mark of cells in the texts outside of links, and the text is not taken for a separator, a caption or the end of a table. -/
def NoCellMarks (atMark : Bool) (l : RichLine) : Prop :=
  (∀ r ∈ l, ∀ p ∈ r.parts, ∀ t, p = .text t → 0x7C ∉ t ∧ 0x21 ∉ t) ∧ (atMark = true → ∀ c, (lineSource l).head? = some c → c ∉ b!"-+}")

/-- The references (and lists of references) of a line. -/
def lineRefs (l : RichLine) : List ArticleRef := l.flatMap fun r => r.parts.filterMap fun
  | .ref x => some x
  | _ => none

/-- The line with nothing but the list of references. -/
def referencesLine (attrs : RefAttrs) (space : Nat) (entries : List (Nat × NoteText)) : RichLine := [⟨none, [.ref ⟨0, attrs, space, .list entries⟩]⟩]

/-- Conditions for single blocks. There are no references in headings. A line of a paragraph is neither a link, an image, a formula
or a reference and nothing else nor bold from the beginning to the end. The heading of a description list is in a line of its own. There are no spaces at the ends of the lines of a table. -/
def DocBlock.WellFormed (env : ParserEnv) : DocBlock → Prop
  | .heading level _ _ title => 1 ≤ level ∧ level ≤ 6 ∧ RichLineOk env title ∧ 0x3D ∉ lineSource title ∧ lineRefs title = []
  | .paragraph lines => lines ≠ [] ∧ ∀ l ∈ lines, RichLineOk env l ∧ isLinkOnly l = false ∧
      ¬ (b!"'''" <+: lineSource l ∧ b!"'''" <:+ lineSource l)
  | .list l => l.WellFormed fun c p => RichLineOk env p.2 ∧ (c = .semicolon → NoColon p.2)
  | .image p => p.WellFormed env
  | .table t => (t.WellFormed fun atMark l => RichLineOk env l ∧ NoCellMarks atMark l) ∧ ∀ l ∈ t.source lineSource, trimSpace l = l
  | .references attrs space entries => (⟨0, attrs, space, .list entries⟩ : ArticleRef).WellFormed env
  | .gap => True

/-- The block can follow the block before with this number of empty lines between them. A section that is empty apart from
its heading is removed, so that headings are followed by text or deeper headings. There are at most 18 empty lines in front of
a list of references. There is nothing behind the last empty lines. -/
def CanFollow : DocBlock → Nat → DocBlock → Prop
  | .gap, _, _ => False
  | .heading _ _ _ _, _, .gap => False
  | _, n, .gap => 0 < n
  | .paragraph _, n, .paragraph _ => 0 < n
  | .list l, n, .list l' => 0 < n ∨ ¬ l.mark.Allows l'.mark
  | .heading level _ _ _, _, .heading level' _ _ _ => level < level'
  | _, n, .references _ _ _ => n < 19
  | _, _, _ => True

/-- The blocks, each with the number of empty lines in front of it, can follow one another, and the last one is no heading. -/
def BlocksFollow : List (Nat × DocBlock) → Prop
  | [] => True
  | [(_, b)] => ∀ level before after title, b ≠ .heading level before after title
  | (_, b) :: (n, b') :: rest => CanFollow b n b' ∧ BlocksFollow ((n, b') :: rest)

mutual
/-- The texts of a list from the beginning to the end. -/
def TreeList.texts {α : Type} : TreeList α → List α
  | .mk _ items => treeItemsTexts items
def treeItemsTexts {α : Type} : List (TreeItem α) → List α
  | [] => []
  | .mk _ text subLists :: rest => text :: (treesTexts subLists ++ treeItemsTexts rest)
def treesTexts {α : Type} : List (TreeList α) → List α
  | [] => []
  | l :: rest => l.texts ++ treesTexts rest
end

/-- The texts of a block from the beginning to the end. -/
def DocBlock.texts : DocBlock → List RichLine
  | .heading _ _ _ title => [title]
  | .paragraph lines => lines
  | .list l => l.texts.map Prod.snd
  | .image _ => []
  | .table t => t.texts
  | .references attrs space entries => [referencesLine attrs space entries]
  | .gap => []

/-- The references and lists of references of an article in their order. -/
def documentRefs (doc : List (Nat × DocBlock)) : List ArticleRef := doc.flatMap fun b => b.2.texts.flatMap lineRefs

/-- Each reference has the number that it should have behind the references before it, each list has the references that it should have. -/
def RefsNumbered : (before : List (RefItem NoteText)) → List ArticleRef → Prop
  | _, [] => True
  | before, r :: rest => refPieces before r.item = r.pieces ∧ RefsNumbered (before ++ [r.item]) rest

/-- There is no list of references in the line. -/
def NoReferences (l : RichLine) : Prop := ∀ r ∈ lineRefs l, ∀ entries, r.kind ≠ .list entries

def DocBlock.isReferences : DocBlock → Bool
  | .references _ _ _ => true
  | _ => false

/-- Lists of references are blocks of their own. An article does not consist of empty lines. -/
structure DocOk (env : ParserEnv) (doc : List (Nat × DocBlock)) : Prop where
  nonEmpty : doc ≠ []
  blocks : ∀ b ∈ doc, b.2.WellFormed env
  follow : BlocksFollow doc
  numbers : RefsNumbered [] (documentRefs doc)
  lists : ∀ b ∈ doc, b.2.isReferences = false → ∀ l ∈ b.2.texts, NoReferences l
  start : ∀ b ∈ doc.head?, b.2 ≠ .gap

/-- A condition for all lines of text. -/
def DocBlock.AllLines (p : RichLine → Prop) : DocBlock → Prop
  | .heading _ _ _ title => p title
  | .paragraph lines => ∀ l ∈ lines, p l
  | .list l => l.WellFormed fun _ x => p x.2
  | .image _ => True
  | .table t => t.WellFormed fun _ l => p l
  | .references _ _ _ => True
  | .gap => True

/-- The formulas of the line can be rendered. -/
def Rendered (html : HtmlEnv) (l : RichLine) : Prop :=
  ∀ r ∈ l, ∀ p ∈ r.parts, ∀ attributes formula, p = .math attributes formula → ∃ picture, html.math formula = .ok picture

/-- The HTML of a formula that can be rendered. -/
def formulaPicture (html : HtmlEnv) (formula : Str) : Str :=
  match html.math formula with
  | .ok (path, width, height, style) => formulaHtml (escapePathComponents path) width height style
  | _ => formulaHtml [] [] [] []

/-- The lines of the article. -/
def documentSource (doc : List (Nat × DocBlock)) : List Str := doc.flatMap fun b => List.replicate b.1 [] ++ b.2.source

/-- The lines of the HTML: all blocks, with two line breaks between paragraphs that follow one another. -/
def documentHtml (pic : ArticlePictures) : (afterParagraph : Bool) → List (Nat × DocBlock) → List Str
  | _, [] => []
  | afterParagraph, (_, b) :: rest =>
    (if afterParagraph && b.isParagraph then [b!"<br><br>"] else []) ++ b.html pic ++ documentHtml pic b.isParagraph rest

end Verif.Spec
