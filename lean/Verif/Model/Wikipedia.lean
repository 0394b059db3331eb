import Verif.Model.Command
import Verif.Go.Url

/-!
# src/wikipedia/wikipedia.go

JSON decoding, MD5, SHA-1 and the rewriting of SVG files are arbitrary functions (fields of `WikiConf`); the
theorems hold for all of them.
-/

namespace Verif.Model

open Verif.Go Web

/-- Math converters, src/config/config.go:17-19. Other values are rejected by `AssertValidity`. -/
inductive MathConverter where
  | none
  | wikimedia
  | template
  | unknown
  deriving DecidableEq

/-- Configuration of the service and of the image processing, and the library functions. -/
structure WikiConf where
  /-- `wikipediaInstance`, `wikipediaHost` -/
  wikiInstance : Str
  host : Str
  /-- `wikipediaImageArticleHosts` -/
  imageArticleHosts : List Str
  /-- `wikipediaImageHost` -/
  imageHost : Str
  mathApi : Str
  mathConverter : MathConverter
  svgSizeToViewbox : Bool
  commandSvgToPng : Str
  commandPdfToPng : Str
  commandWebpToPng : Str
  commandMathSvgToPng : Str
  commandImageProcessing : Str
  /-- `json.Unmarshal` of an article: title and wikitext, `none` for invalid JSON -/
  decodeArticle : Str → Option (Str × Str)
  /-- `json.Unmarshal` of an expanded template -/
  decodeTemplate : Str → Option Str
  md5hex : Str → Str
  sha1hex : Str → Str
  /-- `MakeSvgSizeAbsolute`, src/image/svg.go:45-76, as function of the file content; `none`: error, or the file
  stays as it is (`makeSvgSizeAbsolute` in Model/Svg.lean) -/
  svgAbsolute : Str → Option Str

/-- `WikiParseArticleDto`, src/wikipedia/wikipedia.go:27-32. -/
structure ArticleDto where
  title : Str
  content : Str
  originalTitle : Str
  deriving DecidableEq

/-- Cache folders, src/cache/cache.go:19-29. -/
def articleFolder : Str := b!"articles"
def imageFolder : Str := b!"images"
def mathFolder : Str := b!"math"
def templateFolder : Str := b!"templates"

/-- `strings.ReplaceAll(s, " ", "_")`. -/
def underscores (s : Str) : Str := replaceAll s b!" " b!"_"

/-- URL of an article, src/wikipedia/wikipedia.go:78-80. -/
def articleUrl (host title : Str) : Str :=
  b!"https://" ++ host ++ b!"/w/api.php?action=parse&prop=wikitext&redirects=true&format=json&page=" ++
    queryEscape (underscores title)

/-- Name of the cache file of an article, line 82. -/
def articleFile (title : Str) : Str := underscores title ++ b!".json"

/-- Read a file. -/
def readBytes (path : Str) : Web Str := files fun _ _ _ => FsM.readFile path

def orErr : Option α → Web α
  | some a => pure a
  | none => throwErr

/-- `DownloadArticle`, src/wikipedia/wikipedia.go:77-104. -/
def downloadArticle (c : WikiConf) (host title : Str) : Web ArticleDto := do
  let (path, _) ← downloadAndCache (articleUrl host title) articleFolder (articleFile title)
  let bytes ← readBytes path
  let (t, content) ← orErr (c.decodeArticle bytes)
  pure ⟨t, content, title⟩

/-- `regexp.MatchString(".+\\.wiki.+\\..+", host)` for hosts without line breaks: some text, `.wiki`, some
text, a dot, some text. -/
def isWikiDomainWithSubdomain (host : Str) : Bool :=
  (List.range host.length).any fun i => 0 < i && hasPrefix (host.drop i) b!".wiki" &&
    (List.range host.length).any fun j => i + 5 < j && hasPrefix (host.drop j) b!"." && j + 1 < host.length

/-- src/wikipedia/wikipedia.go:225-229. -/
def wikiInstancePathSegment (host : Str) : Str :=
  if isWikiDomainWithSubdomain host then (splitN b!"." 2 host).headD [] else []

/-- `strings.Split(s, ":")[1]`: panics without colon. -/
def afterColon (s : Str) : Res Str := index (split s b!":") 1

/-- URL of the image file, line 231; `%c` of the first digits of the MD5 sum. -/
def imageUrl (c : WikiConf) (host actualName : Str) : Res Str := do
  let md5 := c.md5hex actualName
  let d0 ← index md5 0
  let d1 ← index md5 1
  pure (b!"https://" ++ c.imageHost ++ b!"/wikipedia/" ++ wikiInstancePathSegment host ++ b!"/" ++ [d0] ++ b!"/" ++
    [d0, d1] ++ b!"/" ++ queryEscape actualName)

/-- Lines 238-243: rewrite a fresh SVG file, errors are ignored. Reading and writing are two operations. -/
def svgToViewbox (c : WikiConf) (path : Str) : Web Unit := fun e w =>
  match w.fs.get path with
  | some f =>
    match c.svgAbsolute f.content with
    | some new =>
      if e.faults w.ops then (.ok (), { w with ops := w.ops + 1 })
      else (.ok (), { w with fs := w.fs.put path ⟨new, e.clock w.ops⟩, ops := w.ops + 1 })
    | none => (.ok (), w)
  | none => (.ok (), w)

def whenW (b : Bool) (m : Web Unit) : Web Unit := if b then m else pure ()

/-- `downloadImage`, src/wikipedia/wikipedia.go:197-246. -/
def downloadImage (c : WikiConf) (host imageNameWithPrefix : Str) : Web (Str × Bool) := do
  let name ← lift (afterColon imageNameWithPrefix)
  let article ← downloadArticle c host (b!"File:" ++ name)
  let originalName ← lift (afterColon article.originalTitle)
  let actualName ← lift (afterColon article.title)
  let url ← lift (imageUrl c host (underscores actualName))
  let (path, fresh) ← downloadAndCache url imageFolder (underscores originalName)
  whenW (fresh && c.svgSizeToViewbox && ext path == b!".svg") (svgToViewbox c path)
  pure (path, fresh)

/-- `strings.ToLower` on ASCII letters. The code only compares the file extension of the result with `.pdf`,
`.svg` and `.webp`; no other character has one of these letters as its lower case. -/
def lowerAscii (s : Str) : Str := s.map fun c => if 65 ≤ c && c ≤ 90 then c + 32 else c

/-- Lower case file extension. -/
def extLower (path : Str) : Str := ext (lowerAscii path)

/-- The conversion for a file, src/wikipedia/wikipedia.go:154-163; empty: no conversion. -/
def conversionFor (c : WikiConf) (path : Str) : Str :=
  if c.commandPdfToPng ≠ [] ∧ extLower path = b!".pdf" then c.commandPdfToPng
  else if c.commandSvgToPng ≠ [] ∧ extLower path = b!".svg" then c.commandSvgToPng
  else if c.commandWebpToPng ≠ [] ∧ extLower path = b!".webp" then c.commandWebpToPng
  else []

/-- `GetPngPathForFile`, src/util/files.go:125-128. -/
def pngPath (path : Str) : Str := path ++ b!".png"

/-- `PathExists`, src/util/files.go:96-101, for paths that are not blank. -/
def pathExists (path : Str) : Web Bool := fun _ w => (.ok (w.fs.get path).isSome, w)

/-- Lines 165-178. Result: the path of the image to use and whether it is fresh. -/
def convertIfNeeded (path : Str) (fresh : Bool) (template : Str) : Web (Str × Bool) :=
  if template ≠ [] then do
    let pngExists ← pathExists (pngPath path)
    if pngExists then pure (pngPath path, fresh)
    else do
      convertToPng path (pngPath path) template
      pure (pngPath path, true)
  else pure (path, fresh)

/-- `postProcessImage`, src/wikipedia/wikipedia.go:153-191. -/
def postProcessImage (c : WikiConf) (cacheDir path : Str) (fresh : Bool) : Web Unit := do
  let (path, fresh) ← convertIfNeeded path fresh (conversionFor c path)
  whenW (fresh && c.commandImageProcessing ≠ [] && extLower path ≠ b!".svg" && extLower path ≠ b!".pdf")
    (resizeAndCompressImage cacheDir path c.commandImageProcessing)

/-- The loop of `downloadImageUsingAllSources`, src/wikipedia/wikipedia.go:125-150. `failed` is the variable
`downloadErr`. -/
def tryHosts (c : WikiConf) (cacheDir image : Str) : List Str → (failed : Bool) → Web Unit
  | [], failed => if failed then throwErr else pure ()
  | host :: hosts, _ => do
    let r ← attempt (downloadImage c host image)
    match r with
    | none => tryHosts c cacheDir image hosts true
    | some (path, fresh) => postProcessImage c cacheDir path fresh

/-- `downloadImageUsingAllSources`, src/wikipedia/wikipedia.go:122-151. -/
def downloadImageUsingAllSources (c : WikiConf) (cacheDir image : Str) : Web Unit :=
  tryHosts c cacheDir image c.imageArticleHosts false

/-- `DownloadImages`, src/wikipedia/wikipedia.go:109-120. -/
def downloadImages (c : WikiConf) (cacheDir : Str) : List Str → Web Unit
  | [] => pure ()
  | image :: images => do
    downloadImageUsingAllSources c cacheDir image
    downloadImages c cacheDir images

/-- URL of a template evaluation, line 251. -/
def templateUrl (c : WikiConf) (template : Str) : Str :=
  b!"https://" ++ c.wikiInstance ++ b!"." ++ c.host ++
    b!"/w/api.php?action=expandtemplates&format=json&prop=wikitext&text=" ++ queryEscape template

/-- `EvaluateTemplate`, src/wikipedia/wikipedia.go:248-269. -/
def evaluateTemplate (c : WikiConf) (template cacheFile : Str) : Web Str := do
  let (path, _) ← downloadAndCache (templateUrl c template) templateFolder cacheFile
  let bytes ← readBytes path
  orErr (c.decodeTemplate bytes)

/-- `requestData`, line 316. -/
def mathRequestData (mathString : Str) : Str :=
  b!"q=" ++ queryEscape (b!"{\\displaystyle " ++ mathString ++ b!"}")

/-- Lines 331-364: ask the server for the id of the formula and remember it. -/
def requestMathResource (c : WikiConf) (mathString : Str) : Web Str := do
  let r ← postFormEncoded (c.mathApi ++ b!"/check/tex") (mathRequestData mathString)
  if r.location = [] then throwErr
  else do
    let _ ← files fun env now rnd => cacheToFile env mathFolder (c.sha1hex mathString) ⟨r.location, true⟩ rnd now
    pure r.location

/-- `getMathResource`, src/wikipedia/wikipedia.go:310-365. An error of the lookup counts as a miss. -/
def getMathResource (c : WikiConf) (mathString : Str) : Web Str := do
  let found ← attempt (files fun env now _ => getFile env mathFolder (c.sha1hex mathString) now)
  match found with
  | some (path, true) => readBytes path
  | _ => requestMathResource c mathString

/-- `RenderMath`, src/wikipedia/wikipedia.go:271-307. Paths of the SVG and of the PNG file. -/
def renderMath (c : WikiConf) (cacheDir mathString : Str) : Web (Str × Str) := do
  let name ← getMathResource c mathString
  let (svg, _) ← downloadAndCache (c.mathApi ++ b!"/render/svg/" ++ name) imageFolder (name ++ b!".svg")
  match c.mathConverter with
  | .none => pure (svg, svg)
  | .wikimedia => do
    let (png, _) ← downloadAndCache (c.mathApi ++ b!"/render/png/" ++ name) imageFolder (name ++ b!".png")
    pure (svg, png)
  | .template => do
    let png := getFilePathInCache cacheDir imageFolder (name ++ b!".png")
    convertToPng svg png c.commandMathSvgToPng
    pure (svg, png)
  | .unknown => throwErr

end Verif.Model
