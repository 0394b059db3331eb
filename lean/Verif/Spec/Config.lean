import Verif.Model.Config

/-!
# What the documentation says about the configuration (doc/configuration.md, comments in config.go)
-/

namespace Verif.Spec
open Verif.Go Verif.Model

/-- The value of the first layer that sets the option, the default if none does. -/
def firstSet {α : Type} : List (Option α) → α → α
  | [], d => d
  | some v :: _, _ => v
  | none :: ls, d => firstSet ls d

/-- The output types with the drivers that can produce them. -/
def supported : List (Str × Str) :=
  [(b!"epub2", b!"pandoc"), (b!"epub3", b!"pandoc"), (b!"epub3", b!"internal"),
   (b!"stats-json", b!"internal"), (b!"stats-txt", b!"internal")]

/-- The text occurs somewhere in the template. -/
def Occurs (w t : Str) : Prop := ∃ a b, t = a ++ w ++ b

/-- Both placeholders occur in the command template. -/
def HasPlaceholders (t : Str) : Prop := Occurs b!"{INPUT}" t ∧ Occurs b!"{OUTPUT}" t

/-- A configuration within the documented ranges. -/
structure Documented (c : Config) : Prop where
  output : (c.str .outputType, c.str .outputDriver) ∈ supported
  math : c.str .mathConverter ∈ [b!"none", b!"wikimedia", b!"template"]
  tocDepth : 0 ≤ c.int .tocDepth ∧ c.int .tocDepth ≤ 6
  workerThreads : 1 ≤ c.int .workerThreads
  svg : c.str .commandTemplateSvgToPng = [] ∨ HasPlaceholders (c.str .commandTemplateSvgToPng)
  mathSvg : HasPlaceholders (c.str .commandTemplateMathSvgToPng)
  image : c.str .commandTemplateImageProcessing = [] ∨
    HasPlaceholders (c.str .commandTemplateImageProcessing)
  pdf : c.str .commandTemplatePdfToPng = [] ∨ HasPlaceholders (c.str .commandTemplatePdfToPng)
  webp : c.str .commandTemplateWebpToPng = [] ∨ HasPlaceholders (c.str .commandTemplateWebpToPng)
  size : 0 < c.int .cacheMaxSize
  age : 0 < c.int .cacheMaxAge
  eviction : c.str .cacheEvictionStrategy ∈ [b!"none", b!"lru", b!"largest"]

/-- Walking from the folder with the elements `d` (from the root) along a relative path: empty elements
and `.` stay, `..` goes to the parent folder (the root is its own parent), everything else enters. -/
def walk : List Str → List Str → List Str
  | d, [] => d
  | d, e :: es =>
    if e = [] ∨ e = b!"." then walk d es
    else if e = b!".." then walk d.dropLast es
    else walk (d ++ [e]) es

/-- The absolute path of the file that `p` names for someone in the folder `folder`: nothing for an
empty path, an absolute path itself, otherwise what is reached by walking along `p`. -/
def resolveAgainst (folder p : Str) : Str :=
  if p = [] then []
  else if p.head? = some sepB then p
  else sepB :: join b!"/" (walk (walk [] (split folder b!"/")) (split p b!"/"))

/-- The options that hold a path. -/
def isPathOpt : StrOpt → Bool
  | .cacheDir | .styleFile | .coverImage | .pandocDataDir => true
  | _ => false

end Verif.Spec
