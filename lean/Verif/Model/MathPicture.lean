import Verif.Model.Wikipedia
import Verif.Model.Svg

/-!
# The picture of a formula: src/generator/html.go, lines 374-391, and src/image/svg.go, lines 27-40

The XML decoder is a parameter, see Model/Svg.lean.
-/

namespace Verif.Model
open Verif.Go Web

/-- `ReadSimpleAvgAttributes`, src/image/svg.go:27-40. -/
def readSvgAttributes (decode : Str → Option SvgAttributes) (path : Str) : Web SvgAttributes := do
  let bytes ← readBytes path
  orErr (parseSvgAttributes decode bytes)

/-- The first part of `expandMath`, src/generator/html.go:375-389: the path of the picture relative to the cache directory, its
width, its height and its style. (`GetPathRelativeToCache` never returns an error.) -/
def mathPicture (decode : Str → Option SvgAttributes) (c : WikiConf) (cacheDir formula : Str) : Web (Str × Str × Str × Str) := do
  let (svg, png) ← renderMath c cacheDir formula
  let a ← readSvgAttributes decode svg
  pure (getPathRelativeToCache cacheDir png, a.width, a.height, a.style)

end Verif.Model
