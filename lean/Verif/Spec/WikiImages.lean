import Verif.Go.Decimal
import Verif.Go.Space
import Verif.Go.Path
import Verif.Model.CleanTemplates
import Verif.Spec.WikiLinks
import Verif.Spec.Links
import Verif.Spec.Nowiki
import Verif.Spec.WikiTables

/-!
# Images in wikitext
-/

namespace Verif.Spec
open Verif.Model Verif.Go
open scoped List

/-- An option of an image. -/
inductive ImageOption where
  /-- `thumb`, `mini` and longer words such as `thumbnail` and `miniatur`: an image with a frame and a caption. -/
  | frame (word more : Str)
  /-- `100px`, `x50px` and `100x50px`. -/
  | size (width height : Option Nat)
  /-- One that the configuration ignores. -/
  | ignored (text : Str)
  /-- Any other one. -/
  | other (text : Str)

def ImageOption.source : ImageOption → Str
  | .frame word more => word ++ more
  | .size width height =>
    (match width with | none => [] | some w => decimal w) ++ (match height with | none => [] | some h => b!"x" ++ decimal h) ++ b!"px"
  | .ignored text => text
  | .other text => text

def ImageOption.isFrame : ImageOption → Bool
  | .frame _ _ => true
  | _ => false

def ImageOption.isOther : ImageOption → Bool
  | .other _ => true
  | _ => false

/-- An image of this size is no part of a line of text. -/
def ImageOption.isLarge : ImageOption → Bool
  | .size width height => decide (100 ≤ width.getD 0) || decide (50 ≤ height.getD 0)
  | _ => false

/-- The image `[[space:name|option|…|caption]]`. -/
structure WikiImage where
  space : Str
  name : Str
  options : List ImageOption
  caption : Option Str

/-- The part behind the name of the namespace. -/
def WikiImage.inner (i : WikiImage) : Str :=
  i.name ++ (i.options.flatMap fun o => b!"|" ++ o.source) ++ (match i.caption with | none => [] | some c => b!"|" ++ c)

def WikiImage.source (i : WikiImage) : Str := b!"[[" ++ i.space ++ b!":" ++ i.inner ++ b!"]]"

/-- Spaces are written as underscores in the names of files. -/
def underscored : Str → Str
  | [] => []
  | 0x20 :: t => 0x5F :: underscored t
  | 0x25 :: 0x32 :: 0x30 :: t => 0x5F :: underscored t
  | c :: t => c :: underscored t

/-- The name of the file: without surrounding space, with underscores, and with an upper-case letter at the beginning. -/
def WikiImage.file (env : ParserEnv) (i : WikiImage) : Str := env.upperFirst (underscored (trimSpace i.name))

def WikiImage.framed (i : WikiImage) : Bool := i.options.any ImageOption.isFrame

/-- The image is a block of its own. -/
def WikiImage.block (i : WikiImage) : Bool := i.framed || i.options.any ImageOption.isLarge

/-- Width and height; the last size counts, -1 stands for none. -/
def lastSize : List ImageOption → Int × Int
  | [] => (-1, -1)
  | .size w h :: rest =>
    if rest.any (fun o => match o with | .size _ _ => true | _ => false) then lastSize rest
    else ((w.map Int.ofNat).getD (-1), (h.map Int.ofNat).getD (-1))
  | _ :: rest => lastSize rest

/-- Kind and content of the token. Only images with a frame have a caption. -/
def WikiImage.token (env : ParserEnv) (i : WikiImage) : Str × Token :=
  if i.block then
    (b!"IMAGE", .image (i.file env) (if i.framed then i.caption.getD [] else []) (lastSize i.options).1 (lastSize i.options).2)
  else (b!"IMAGE_INLINE", .inlineImage (i.file env) (lastSize i.options).1 (lastSize i.options).2)

/-- Files of this type are not wanted in the book. -/
def UnwantedFile (env : ParserEnv) (name : Str) : Prop :=
  let extension := env.lower (trimPrefix (ext (trimSpace name)) b!".")
  extension ∈ env.config.list .ignoredMediaTypes ∧
    ¬ (extension = b!"pdf" ∧ env.config.str .commandTemplatePdfToPng ≠ []) ∧
    ¬ (extension = b!"svg" ∧ env.config.str .commandTemplateSvgToPng ≠ [])

instance (env : ParserEnv) (name : Str) : Decidable (UnwantedFile env name) := by unfold UnwantedFile; infer_instance

def WikiImage.Unwanted (env : ParserEnv) (i : WikiImage) : Prop := UnwantedFile env i.name

instance (env : ParserEnv) (i : WikiImage) : Decidable (i.Unwanted env) := by unfold WikiImage.Unwanted; infer_instance

/-- The configuration ignores options with this text. -/
def IgnoredOption (env : ParserEnv) (text : Str) : Prop := ∃ p ∈ env.config.list .ignoredImageParams, p <+: text

instance (env : ParserEnv) (text : Str) : Decidable (IgnoredOption env text) := by unfold IgnoredOption; infer_instance

/-- The text is not read as frame or size. -/
def FreeText (text : Str) : Prop := ¬ b!"mini" <+: text ∧ ¬ b!"thumb" <+: text ∧ ¬ b!"px" <:+ text

def ImageOption.WellFormed (env : ParserEnv) : ImageOption → Prop
  | .frame word more => (word = b!"mini" ∨ word = b!"thumb") ∧ ¬ IgnoredOption env (word ++ more)
  | .size width height => (∀ w ∈ width, w ≤ 9223372036854775807) ∧ (∀ h ∈ height, h ≤ 9223372036854775807) ∧
      ¬ IgnoredOption env (ImageOption.size width height).source
  | .ignored text => IgnoredOption env text
  | .other text => FreeText text ∧ ¬ IgnoredOption env text

structure WikiImage.WellFormed (env : ParserEnv) (i : WikiImage) : Prop where
  space : i.space ≠ [] ∧ ∀ c ∈ i.space, c ∉ b!"[]:"
  name : trimSpace i.name ≠ [] ∧ ∀ c ∈ i.name, c ∉ b!"[]:|"
  file : FreeText (b!"File:" ++ i.file env) ∧ ¬ IgnoredOption env (b!"File:" ++ i.file env)
  options : ∀ o ∈ i.options, o.WellFormed env ∧ ∀ c ∈ o.source, c ∉ b!"[]|"
  /-- The last option that has no other meaning is the caption. -/
  last : i.caption = none → ∀ o ∈ i.options, o.isOther = false

/-- The text is not read as an option. -/
def CaptionText (env : ParserEnv) (c : Str) : Prop := FreeText c ∧ ¬ IgnoredOption env c ∧ 0x7C ∉ c

/-- Only the caption of the image is changed by the tokenizer `rec`; the result is a caption that is not changed again. The
brackets in the caption are closed. -/
def WikiImage.Tokenizable (env : ParserEnv) (rec : Rec) (i : WikiImage) : Prop :=
  match i.caption with
  | none => rec i.inner = pure i.inner
  | some c =>
    (∃ d : LinkText, d.WellFormed ∧ d.text = c) ∧
    rec i.inner = (do
      let c' ← rec c
      pure { i with caption := some c' }.inner) ∧
    ∀ s c' s', rec c s = some (.ok (c', s')) → CaptionText env c' ∧ rec c' = pure c'

/-- A text with images: each image with the text behind it. -/
def imagesText : List (WikiImage × Str) → Str
  | [] => []
  | (i, after) :: rest => i.source ++ after ++ imagesText rest

/-- What is to become of an image: its file is to be downloaded, and a token is in its place; nothing if its type is not
wanted. -/
def placedImage (env : ParserEnv) (i : WikiImage) : TokM Str :=
  if i.Unwanted env then pure []
  else do
    addImage (b!"File:" ++ i.file env)
    newToken (i.token env).1 (i.token env).2

/-- The same with the tokenized caption. -/
def tokenizedImage (env : ParserEnv) (rec : Rec) (i : WikiImage) : TokM Str :=
  match i.caption with
  | none => placedImage env i
  | some c => do
    let c' ← rec c
    placedImage env { i with caption := some c' }

def tokenizedImages (env : ParserEnv) (rec : Rec) : List (WikiImage × Str) → TokM Str
  | [] => pure []
  | (i, after) :: rest => do
    let key ← tokenizedImage env rec i
    let r ← tokenizedImages env rec rest
    pure (key ++ after ++ r)

/-! ### Galleries and image maps -/

/-- The name of a file with or without a namespace, and what is behind it. -/
structure FileEntry where
  space : Option Str
  name : Str
  more : Option Str

def FileEntry.text (e : FileEntry) : Str :=
  (match e.space with | none => [] | some s => s ++ b!":") ++ e.name ++ (match e.more with | none => [] | some c => b!"|" ++ c)

structure FileEntry.WellFormed (e : FileEntry) : Prop where
  space : ∀ s, e.space = some s → ∀ c ∈ s, c ∉ b!":|"
  name : trimSpace e.name ≠ [] ∧ ∀ c ∈ e.name, c ∉ b!":|"
  trimmed : trimSpace e.text = e.text
  oneLine : 0x0A ∉ e.text
  noTag : ¬ b!"<" <+: e.text

/-- The name of the file in the namespace. -/
def FileEntry.file (env : ParserEnv) (e : FileEntry) : Str :=
  e.space.getD b!"File" ++ b!":" ++ env.upperFirst (underscored (trimSpace e.name))

/-- The image with the file and the given options and caption: the file is to be downloaded, and the image is written in
its place; nothing if the type is not wanted. -/
def writtenImage (env : ParserEnv) (e : FileEntry) (options : Str) : TokM Str :=
  if UnwantedFile env e.name then pure []
  else do
    addImage (e.file env)
    pure (b!"[[" ++ e.file env ++ options ++ (match e.more with | none => [] | some c => b!"|" ++ c) ++ b!"]]")

/-- The line is a tag with the given name, possibly with white space around it and with attributes. -/
def OpeningTag (name line : Str) : Prop :=
  ∃ before tag attributes after, Padding before ∧ Padding after ∧ lowered tag = name ∧ (∀ c ∈ attributes, c ∉ b!">\n") ∧
    line = before ++ b!"<" ++ tag ++ attributes ++ b!">" ++ after

/-- A gallery: the line of the tag, the lines of the images with white space around them, and the line of the closing tag. -/
structure Gallery where
  opening : Str
  entries : List (Str × FileEntry × Str)
  closing : Str

def Gallery.lines (g : Gallery) : List Str := g.opening :: g.entries.map (fun e => e.1 ++ e.2.1.text ++ e.2.2) ++ [g.closing]

/-- No text in a gallery is taken for the option of a frame. -/
structure Gallery.WellFormed (g : Gallery) : Prop where
  opening : OpeningTag b!"gallery" g.opening
  entries : ∀ e ∈ g.entries, Padding e.1 ∧ Padding e.2.2 ∧ e.2.1.WellFormed ∧
    ¬ b!"mini" <:+: lowered e.2.1.text ∧ ¬ b!"thumb" <:+: lowered e.2.1.text
  closing : lowered (trimSpace g.closing) = b!"</gallery>" ∧ 0x0A ∉ g.closing

/-- Lines without galleries, or a gallery. -/
inductive GalleryPart where
  | lines (ls : List Str)
  | gallery (g : Gallery)

def GalleryPart.source : GalleryPart → List Str
  | .lines ls => ls
  | .gallery g => g.lines

def GalleryPart.WellFormed : GalleryPart → Prop
  | .lines ls => ∀ l ∈ ls, ¬ b!"<gallery" <+: lowered (trimSpace l) ∧ ¬ b!"</gallery>" <+: lowered (trimSpace l) ∧ 0x0A ∉ l
  | .gallery g => g.WellFormed

def writtenEntries (env : ParserEnv) : List FileEntry → TokM (List Str)
  | [] => pure []
  | e :: rest => do
    let image ← writtenImage env e b!"|mini"
    let r ← writtenEntries env rest
    pure (image :: r)

/-- The images of galleries are images with frames in lines of their own. -/
def writtenGalleries (env : ParserEnv) : List GalleryPart → TokM (List Str)
  | [] => pure []
  | .lines ls :: rest => do
    let r ← writtenGalleries env rest
    pure (ls ++ r)
  | .gallery g :: rest => do
    let images ← writtenEntries env (g.entries.map fun e => e.2.1)
    let r ← writtenGalleries env rest
    pure (images ++ r)

/-- An image map: the line of the tag, the line of the image, lines with the areas, and the line of the closing tag. -/
structure ImageMap where
  opening : Str
  image : FileEntry
  areas : List Str
  closing : Str

def ImageMap.lines (m : ImageMap) : List Str := m.opening :: m.image.text :: m.areas ++ [m.closing]

structure ImageMap.WellFormed (env : ParserEnv) (m : ImageMap) : Prop where
  opening : ∃ tag attributes after, Padding after ∧ lowered tag = b!"imagemap" ∧ (∀ c ∈ attributes, c ∉ b!">\n") ∧
    m.opening = b!"<" ++ tag ++ attributes ++ b!">" ++ after
  image : m.image.WellFormed ∧ ¬ UnwantedFile env m.image.name
  areas : ∀ l ∈ m.areas, lowered l ≠ b!"</imagemap>" ∧ 0x0A ∉ l
  closing : lowered m.closing = b!"</imagemap>"

inductive MapPart where
  | lines (ls : List Str)
  | map (m : ImageMap)

def MapPart.source : MapPart → List Str
  | .lines ls => ls
  | .map m => m.lines

def MapPart.WellFormed (env : ParserEnv) : MapPart → Prop
  | .lines ls => ∀ l ∈ ls, ¬ b!"<imagemap" <+: lowered l ∧ lowered l ≠ b!"</imagemap>" ∧ 0x0A ∉ l
  | .map m => m.WellFormed env

/-- Image maps are images with the given options. -/
def writtenMaps (env : ParserEnv) : List MapPart → TokM (List Str)
  | [] => pure []
  | .lines ls :: rest => do
    let r ← writtenMaps env rest
    pure (ls ++ r)
  | .map m :: rest => do
    let image ← writtenImage env m.image []
    let r ← writtenMaps env rest
    pure (image :: r)

end Verif.Spec
