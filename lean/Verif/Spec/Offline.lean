import Verif.Spec.Cache
import Verif.Spec.Images
import Verif.Model.ProcessArticle

/-!
# What is in the cache
-/

namespace Verif.Spec
open Verif.Go Verif.Model

/-- The content of a file in a folder of the cache. -/
def cachedBytes (cacheDir : Str) (fs : FS) (folder name : Str) : Option Str :=
  (fs.get (getFilePathInCache cacheDir folder name)).map File.content

/-- The templates whose answers are in the cache; there is no answer to other requests. -/
def cachedTemplates (c : WikiConf) (cacheDir : Str) (fs : FS) : TemplateEnv where
  hash := c.sha1hex
  evaluate _ key :=
    match (cachedBytes cacheDir fs b!"templates" key).bind c.decodeTemplate with
    | some text => .ok text
    | none => .err

/-- The picture of a formula with this name, if it is in the cache: the path in the page, and the attributes of the SVG file. Without
an own PNG file the SVG file is shown. -/
def cachedPicture (decode : Str → Option SvgAttributes) (c : WikiConf) (cacheDir : Str) (fs : FS) (name : Str) :
    Option (Str × Str × Str × Str) :=
  match (cachedBytes cacheDir fs b!"images" (name ++ b!".svg")).bind (parseSvgAttributes decode), c.mathConverter with
  | some a, .none => some (getPathRelativeToCache cacheDir (getFilePathInCache cacheDir b!"images" (name ++ b!".svg")), a.width, a.height, a.style)
  | some a, .wikimedia =>
    (cachedBytes cacheDir fs b!"images" (name ++ b!".png")).map fun _ =>
      (getPathRelativeToCache cacheDir (getFilePathInCache cacheDir b!"images" (name ++ b!".png")), a.width, a.height, a.style)
  | _, _ => none

/-- The formulas whose pictures are in the cache. -/
def cachedMath (decode : Str → Option SvgAttributes) (c : WikiConf) (cacheDir : Str) (fs : FS) : HtmlEnv where
  conf := c
  math formula :=
    match (cachedBytes cacheDir fs b!"math" (c.sha1hex formula)).bind (cachedPicture decode c cacheDir fs) with
    | some picture => .ok picture
    | none => .err

/-- The page about an image, the image, and the result of its conversion if it has to be converted are in the cache. -/
def ImageCached (c : WikiConf) (cacheDir : Str) (fs : FS) (image : Str) : Prop :=
  ∃ name : Str, NamedBy image name ∧ name ∉ [b!"", b!".", b!".."] ∧
    (∃ bytes title text, cachedBytes cacheDir fs b!"articles" (underscores (b!"File:" ++ name) ++ b!".json") = some bytes ∧
      c.decodeArticle bytes = some (title, text) ∧ (0x3A : Byte) ∈ title) ∧
    (cachedBytes cacheDir fs b!"images" (underscores name)).isSome ∧
    (conversionFor c (getFilePathInCache cacheDir b!"images" (underscores name)) = [] ∨
      (fs.get (getFilePathInCache cacheDir b!"images" (underscores name) ++ b!".png")).isSome)

/-- No file is too old at any time of the run, and the run is shorter than the maximum age. -/
def NothingOutdated (e : WebEnv) (fs : FS) : Prop :=
  (∀ p f, fs.get p = some f → ∀ k, e.clock k - f.mtime < (e.cache.maxAge + 1) * 60000000000) ∧
    ∀ k l, e.clock k - e.clock l < (e.cache.maxAge + 1) * 60000000000

end Verif.Spec
