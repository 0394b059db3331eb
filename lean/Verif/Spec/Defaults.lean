import Verif.Model.Config
import Verif.Spec.ConfigFiles

/-!
# The documented defaults of the settings

The column *Default* of the table in doc/configuration.md, line by line. For `math-converter` the documentation has a list with one text
instead of this text.
-/

namespace Verif.Spec
open Verif.Go Verif.Model

/-- The value of a setting. -/
inductive SettingValue where
  | text (s : Str)
  | texts (l : List Str)
  | number (n : Int)
  | switch (b : Bool)
  deriving DecidableEq, Repr

/-- The table of the documentation: the name of each setting and its default. -/
def documentedDefaults (m : Machine) : List (Str × SettingValue) := [
  (b!"allowed-link-prefixes", .texts [b!"arxiv", b!"doi"]),
  (b!"cache-dir", .text (clean (m.userCacheDir ++ b!"/wiki2book"))),
  (b!"cache-eviction-strategy", .text b!"lru"),
  (b!"cache-max-age", .number (4 * 7 * 24 * 60)),
  (b!"cache-max-size", .number 100000000),
  (b!"category-prefixes", .texts [b!"category"]),
  (b!"command-template-image-processing", .text
    b!"magick {INPUT} -resize 600x600> -quality 75 -define PNG:compression-level=9 -define PNG:compression-filter=0 -colorspace gray {OUTPUT}"),
  (b!"command-template-math-svg-to-png", .text (if m.hasMathStyleFile then b!"rsvg-convert -s /usr/share/wiki2book/rsvg-math.css -o {OUTPUT} {INPUT}"
    else b!"rsvg-convert -o {OUTPUT} {INPUT}")),
  (b!"command-template-pdf-to-png", .text b!"magick -density 300 {INPUT} {OUTPUT}"),
  (b!"command-template-svg-to-png", .text b!"rsvg-convert -o {OUTPUT} {INPUT}"),
  (b!"command-template-webp-to-png", .text b!"magick {INPUT} {OUTPUT}"),
  (b!"cover-image", .text []),
  (b!"file-prefixes", .texts [b!"file", b!"image", b!"media"]),
  (b!"font-files", .texts []),
  (b!"force-regenerate-html", .switch false),
  (b!"ignored-image-params", .texts []),
  (b!"ignored-media-types", .texts [b!"gif", b!"mp3", b!"mp4", b!"pdf", b!"oga", b!"ogg", b!"ogv", b!"wav", b!"webm"]),
  (b!"ignored-templates", .texts []),
  (b!"math-converter", .text b!"wikimedia"),
  (b!"output-driver", .text b!"pandoc"),
  (b!"output-type", .text b!"epub2"),
  (b!"pandoc-data-dir", .text []),
  (b!"pandoc-executable", .text b!"pandoc"),
  (b!"style-file", .text (if m.hasStyleFile then b!"/usr/share/wiki2book/style.css" else [])),
  (b!"svg-size-to-viewbox", .switch false),
  (b!"toc-depth", .number 2),
  (b!"trailing-templates", .texts []),
  (b!"user-agent-template", .text b!"wiki2book {{VERSION}} (https://github.com/hauke96/wiki2book)"),
  (b!"wikipedia-host", .text b!"wikipedia.org"),
  (b!"wikipedia-image-article-hosts", .texts [b!"commons.wikimedia.org", b!"en.wikipedia.org"]),
  (b!"wikipedia-image-host", .text b!"upload.wikimedia.org"),
  (b!"wikipedia-instance", .text b!"en"),
  (b!"wikipedia-math-rest-api", .text b!"https://wikimedia.org/api/rest_v1/media/math"),
  (b!"worker-threads", .number 5)]

/-- The value of a setting in a configuration. -/
def settingOf (c : Config) : ConfigField → SettingValue
  | .str o => .text (c.str o)
  | .list o => .texts (c.list o)
  | .int o => .number (c.int o)
  | .bool o => .switch (c.bool o)

/-- The config file, project file or command line does not contain the setting. -/
def NotGiven (l : Layer) : ConfigField → Prop
  | .str o => l.str o = none
  | .list o => l.list o = none
  | .int o => l.int o = none
  | .bool o => l.bool o = none

end Verif.Spec
