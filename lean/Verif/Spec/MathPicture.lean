import Verif.Model.Wikipedia
import Verif.Spec.Request
import Verif.Spec.Command

/-! # Pictures of formulas -/

namespace Verif.Spec
open Verif.Go Verif.Model

/-- The server answers a request with `answer`, if it is going to give the answers `script`; afterwards `rest` is left of them. -/
def Answered (web : WebEnv) (method url body : Str) (script rest : List Answer) (answer : Response) : Prop :=
  ∀ v : World, v.script = script →
    (doRequest method url body web v).1 = .ok answer ∧ (doRequest method url body web v).2.script = rest

/-- `content` is in the file `entry` and nothing is asked, or it is the complete body of the successful answer to a request for
`url`. -/
def CachedOrDelivered (web : WebEnv) (fs : FS) (script rest : List Answer) (url entry content : Str) : Prop :=
  (rest = script ∧ ∃ f, fs.get entry = some f ∧ content = f.content) ∨
  ∃ answer, Answered web b!"GET" url [] script rest answer ∧ answer.body.eof = true ∧ content = answer.body.bytes

/-- `id` is the id that the cache knows for the formula, or the one that the server gives to it when the formula is sent. -/
def FormulaId (c : WikiConf) (web : WebEnv) (fs : FS) (script rest : List Answer) (formula id : Str) : Prop :=
  (rest = script ∧ ∃ f, fs.get (getFilePathInCache web.cache.cacheDir b!"math" (c.sha1hex formula)) = some f ∧ id = f.content) ∨
  ∃ body answer, formField body b!"q" = some (b!"{\\displaystyle " ++ formula ++ b!"}") ∧
    Answered web b!"POST" (c.mathApi ++ b!"/check/tex") body script rest answer ∧ id = answer.location ∧ id ≠ []

/-- The picture `png` was made from the picture `svg`: it is the same one, it is the one that the server delivers (or the cache
has), or the configured program has written it when it was started with the paths `svgPath` and `pngPath`, while the picture
`svg` was in the first one. -/
def MadeFrom (c : WikiConf) (web : WebEnv) (fs : FS) (script rest : List Answer) (id svgPath pngPath : Str) (svg png : File) : Prop :=
  match c.mathConverter with
  | .none => rest = script ∧ png = svg
  | .wikimedia => CachedOrDelivered web fs script rest (c.mathApi ++ b!"/render/png/" ++ id) pngPath png.content
  | .template => rest = script ∧ ((0x20 : Byte) ∉ svgPath → (0x20 : Byte) ∉ pngPath → ∃ files : FS, files.get svgPath = some svg ∧
      let args := (split c.commandMathSvgToPng b!" ").map (filled svgPath pngPath)
      (web.command args files).ok = true ∧ (web.command args files).output = some png.content)
  | .unknown => False

/-- The ending of the picture that is shown. -/
def pictureEnding (c : WikiConf) : Str := if c.mathConverter = .none then b!".svg" else b!".png"

end Verif.Spec
