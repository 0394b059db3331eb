import Verif.Spec.MathPicture
import Verif.Model.Svg

/-! # The file of an image -/

namespace Verif.Spec
open Verif.Go Verif.Model
open scoped List

/-- The answer `body` for an image is stored in the file `path` with the given content: SVG files with sizes as in their view box, if this is
configured and the file can be read and written, and all other files as they are. -/
def StoredAs (c : WikiConf) (decode : Str → Option SvgAttributes) (faultless : Prop) (path body content : Str) : Prop :=
  (content = body ∧ (c.svgSizeToViewbox = true → b!".svg" <:+ path → faultless → makeSvgSizeAbsolute decode body = none)) ∨
  (c.svgSizeToViewbox = true ∧ b!".svg" <:+ path ∧ makeSvgSizeAbsolute decode body = some content)

end Verif.Spec
