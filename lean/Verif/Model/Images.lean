import Verif.Go.Path
import Verif.Go.Atoi
import Verif.Model.References

/-!
# Images, galleries and image maps, src/parser/image.go
-/

namespace Verif.Model
open Verif.Go

/-- `escapeImages`, src/parser/image.go:42-84. The index expression of line 76 panics for an empty file name. -/
def escapeImages (env : ParserEnv) (content : Str) : TokM Str := do
  let segments := split content b!"|"
  let first := segments.headD []
  let (mediaType, filename) :=
    match cut b!":" first with
    | none => (b!"File", trimSpace first)
    | some (p, rest) => (p, trimSpace rest)
  let extension := env.lower (trimPrefix (ext filename) b!".")
  let staysAsPdf := extension = b!"pdf" ∧ env.config.str .commandTemplatePdfToPng ≠ []
  let staysAsSvg := extension = b!"svg" ∧ env.config.str .commandTemplateSvgToPng ≠ []
  if extension ∈ env.config.list .ignoredMediaTypes ∧ ¬ staysAsPdf ∧ ¬ staysAsSvg then pure []
  else
    let filename := replaceAll (replaceAll filename b!" " b!"_") b!"%20" b!"_"
    if filename = [] then TokM.panic
    else do
      let name := mediaType ++ b!":" ++ env.upperFirst filename
      addImage name
      pure (join b!"|" (name :: segments.tail))

/-- The characters of an expression `<name.*?>` with the flag `(?i)` at the beginning of a text: the text behind it. -/
def matchTag (name s : Str) : Option Str :=
  match foldPrefix name s with
  | none => none
  | some rest =>
    match cut b!">" rest with
    | none => none
    | some (attributes, after) => if 0x0A ∈ attributes then none else some after

/-- `galleryStartRegex`, src/parser/pattern.go:43: the text behind the match. -/
def matchGallery (s : Str) : Option Str := matchTag b!"<gallery" s

/-- `imagemapStartRegex`, src/parser/pattern.go:44. -/
def matchImagemap (s : Str) : Option Str := matchTag b!"<imagemap" s

/-- `imageNonInlineParameters`, src/parser/image.go:14-17. -/
def imageNonInlineParameters : List Str := [b!"mini", b!"thumb"]

/-- `hasNonInlineParameterRegex.MatchString`, src/parser/pattern.go:45. -/
def hasNonInlineParameter : Str → Bool :=
  matchesSomewhere fun s => imageNonInlineParameters.any fun p => (foldPrefix p s).isSome

/-- `util.ReplaceAllIgnoreCase` with an empty replacement, src/util/string.go:41-44; `skip` characters of an occurrence
are still to be skipped. The old text has no letter with more than two variants. -/
def removeAllIgnoreCase (old : Str) : Str → (skip : Nat) → Str
  | [], _ => []
  | _ :: t, skip + 1 => removeAllIgnoreCase old t skip
  | c :: t, 0 =>
    if equalsIgnoreCase ((c :: t).take old.length) old then removeAllIgnoreCase old t (old.length - 1)
    else c :: removeAllIgnoreCase old t 0

/-- Lines 120-142: the image of a line of a gallery. -/
def galleryImage (env : ParserEnv) (trimmedLine : Str) : TokM Str := do
  let segments := split trimmedLine b!"|"
  let spec :=
    if hasNonInlineParameter trimmedLine then trimmedLine
    else join b!"|" (segments.headD [] :: b!"mini" :: segments.tail)
  let line ← escapeImages env spec
  pure (if line ≠ [] then b!"[[" ++ line ++ b!"]]" else line)

/-- The loop of `parseGalleries`, src/parser/image.go:91-147. -/
def galleryLines (env : ParserEnv) : (lines : List Str) → (within : Bool) → TokM (List Str)
  | [], _ => pure []
  | line :: rest, within =>
    let trimmed := trimSpace line
    if equalsIgnoreCase (trimmed.take 10) b!"</gallery>" then
      if equalsIgnoreCase trimmed b!"</gallery>" then galleryLines env rest false
      else do
        let rest ← galleryLines env rest false
        pure (removeAllIgnoreCase b!"</gallery>" line 0 :: rest)
    else
      let (within, trimmed) := match matchGallery trimmed with
        | some after => (true, after)
        | none => (within, trimmed)
      if within then
        if trimmed = [] then galleryLines env rest true
        else do
          let line ← galleryImage env trimmed
          let rest ← galleryLines env rest true
          pure (line :: rest)
      else do
        let rest ← galleryLines env rest false
        pure (line :: rest)

/-- `parseGalleries`, src/parser/image.go:86-151. -/
def parseGalleries (env : ParserEnv) (content : Str) : TokM Str := do
  let lines ← galleryLines env (split content b!"\n") false
  pure (join b!"\n" lines)

/-- The loop of `parseImageMaps`, src/parser/image.go:158-190. The index expression of line 181 panics if there is no
line behind an otherwise empty start of an image map. (`</imagemap>` is compared without regard to the case of ASCII
letters; the code also accepts the character U+0130 for the letter i.) -/
def imageMapLines (env : ParserEnv) : (lines : List Str) → (within : Bool) → TokM (List Str)
  | [], _ => pure []
  | line :: rest, within =>
    if equalsIgnoreCase line b!"</imagemap>" then imageMapLines env rest false
    else if within then imageMapLines env rest true
    else
      match matchImagemap line with
      | none => do
        let rest ← imageMapLines env rest false
        pure (line :: rest)
      | some after =>
        if trimSpace after = [] then
          match rest with
          | [] => TokM.panic
          | next :: rest => do
            let image ← escapeImages env next
            let rest ← imageMapLines env rest true
            pure ((b!"[[" ++ image ++ b!"]]") :: rest)
        else do
          let image ← escapeImages env (trimSpace after)
          let rest ← imageMapLines env rest true
          pure ((b!"[[" ++ image ++ b!"]]") :: rest)

/-- `parseImageMaps`, src/parser/image.go:153-194. -/
def parseImageMaps (env : ParserEnv) (content : Str) : TokM Str := do
  let lines ← imageMapLines env (split content b!"\n") false
  pure (join b!"\n" lines)

/-- `[^]]*?:` at the beginning of a text: the number of characters up to and including the colon. -/
def toColon : Str → Option Nat
  | [] => none
  | c :: t => if c = 0x3A then some 1 else if c = 0x5D then none else (toColon t).map (· + 1)

/-- `internalLinkStartRegex.FindStringIndex`, src/parser/pattern.go:38: begin and end of the first match. -/
def findLinkStart : Str → (i : Nat) → Option (Nat × Nat)
  | [], _ => none
  | c :: t, i =>
    if hasPrefix (c :: t) b!"[[" then
      match t.drop 1 with
      | d :: rest =>
        if d = 0x5D then findLinkStart t (i + 1)
        else
          match toColon rest with
          | some n => some (i, i + 3 + n)
          | none => findLinkStart t (i + 1)
      | [] => findLinkStart t (i + 1)
    else findLinkStart t (i + 1)

/-- What lines 216-220 initialise and lines 230-270 change. -/
structure ImageOptions where
  /-- `tokenType == TOKEN_IMAGE` -/
  block : Bool
  hasCaption : Bool
  caption : Str
  sizeX : Int
  sizeY : Int

/-- Lines 235-265: an option `…px`. -/
def sizeOption (option : Str) (o : ImageOptions) : ImageOptions :=
  let sizes := split (trimSuffix option b!"px") b!"x"
  let x := (atoi (trimSpace (sizes.headD []))).getD (-1)
  let y := (atoi (if sizes.length = 2 then trimSpace (sizes.getLastD []) else [])).getD (-1)
  { o with sizeX := x, sizeY := y, block := o.block || decide (50 ≤ y) || decide (100 ≤ x) }

/-- The loop over the options, src/parser/image.go:230-270. -/
def imageOptions (rec : Rec) : List Str → ImageOptions → TokM ImageOptions
  | [], o => pure o
  | option :: rest, o =>
    if hasAnyPrefix option imageNonInlineParameters then
      imageOptions rec rest { o with block := true, hasCaption := true }
    else if hasSuffix option b!"px" then imageOptions rec rest (sizeOption option o)
    else if rest = [] && o.block then do
      let caption ← rec option
      imageOptions rec rest { o with caption := caption }
    else imageOptions rec rest o

/-- Lines 213-292: the token of an image with the given specification; result: its key. -/
def imageToken (env : ParserEnv) (rec : Rec) (imageContent : Str) : TokM Str := do
  let options := split imageContent b!"|"
  match cut b!":" (options.headD []) with
  | none => TokM.panic
  | some (_, filename) => do
    let filtered := options.filter fun o => !hasAnyPrefix o (env.config.list .ignoredImageParams)
    let o ← imageOptions rec filtered { block := false, hasCaption := false, caption := [], sizeX := -1, sizeY := -1 }
    let key ← getToken (if o.block then b!"IMAGE" else b!"IMAGE_INLINE")
    setRawToken key
      (if o.block then .image filename (if o.hasCaption then o.caption else []) o.sizeX o.sizeY
       else .inlineImage filename o.sizeX o.sizeY)
    pure key

/-- Lines 206-292: what replaces an image: nothing or the key of its token. -/
def imageKey (env : ParserEnv) (rec : Rec) (imageContent : Str) : TokM Str :=
  if imageContent = [] ∨ env.lower ((splitN b!":" 2 imageContent).headD []) ∉ env.config.list .filePrefixes then pure []
  else imageToken env rec imageContent

/-- The loop of `parseImages`, src/parser/image.go:199-299. The slice expressions panic if there is no closing bracket
(line 204) or if it is the last character (lines 211 and 294). -/
def imageLoop (env : ParserEnv) (rec : Rec) : (fuel : Nat) → (content : Str) → TokM Str
  | 0, _ => TokM.running
  | fuel + 1, content =>
    match findLinkStart content 0 with
    | none => pure content
    | some (start, stop) =>
      match findClose content stop b!"[" b!"]" with
      | none => TokM.panic
      | some endIndex => do
        let imageContent ← rec ((content.take endIndex).drop stop)
        let imageContent ← escapeImages env imageContent
        let token ← imageKey env rec imageContent
        if endIndex + 2 ≤ content.length then
          imageLoop env rec fuel (content.take start ++ token ++ content.drop (endIndex + 2))
        else TokM.panic

/-- `parseImages`, src/parser/image.go:196-302. -/
def parseImages (env : ParserEnv) (rec : Rec) (fuel : Nat) (content : Str) : TokM Str := imageLoop env rec fuel content

end Verif.Model
