import Verif.Go.JsonRead
import Verif.Go.Atoi
import Verif.Model.Epub

/-!
# Config files and project files: src/config/config.go, src/config/project.go
-/

namespace Verif.Model
open Verif.Go

/-- A field of `Configuration`. -/
inductive ConfigField where
  | str (o : StrOpt)
  | list (o : ListOpt)
  | int (o : IntOpt)
  | bool (o : BoolOpt)
  deriving DecidableEq

/-- The fields of `Configuration` with their names in JSON, src/config/config.go:125-481. -/
def configFields : List (Str × ConfigField) :=
  [(b!"force-regenerate-html", .bool .forceRegenerateHtml),
   (b!"svg-size-to-viewbox", .bool .svgSizeToViewbox),
   (b!"output-type", .str .outputType),
   (b!"output-driver", .str .outputDriver),
   (b!"cache-dir", .str .cacheDir),
   (b!"cache-max-size", .int .cacheMaxSize),
   (b!"cache-max-age", .int .cacheMaxAge),
   (b!"cache-eviction-strategy", .str .cacheEvictionStrategy),
   (b!"style-file", .str .styleFile),
   (b!"cover-image", .str .coverImage),
   (b!"command-template-svg-to-png", .str .commandTemplateSvgToPng),
   (b!"command-template-math-svg-to-png", .str .commandTemplateMathSvgToPng),
   (b!"command-template-image-processing", .str .commandTemplateImageProcessing),
   (b!"command-template-pdf-to-png", .str .commandTemplatePdfToPng),
   (b!"command-template-webp-to-png", .str .commandTemplateWebpToPng),
   (b!"pandoc-executable", .str .pandocExecutable),
   (b!"pandoc-data-dir", .str .pandocDataDir),
   (b!"font-files", .list .fontFiles),
   (b!"ignored-templates", .list .ignoredTemplates),
   (b!"trailing-templates", .list .trailingTemplates),
   (b!"ignored-image-params", .list .ignoredImageParams),
   (b!"ignored-media-types", .list .ignoredMediaTypes),
   (b!"wikipedia-instance", .str .wikipediaInstance),
   (b!"wikipedia-host", .str .wikipediaHost),
   (b!"wikipedia-image-host", .str .wikipediaImageHost),
   (b!"wikipedia-image-article-hosts", .list .wikipediaImageArticleHosts),
   (b!"wikipedia-math-rest-api", .str .wikipediaMathRestApi),
   (b!"file-prefixes", .list .filePrefixes),
   (b!"allowed-link-prefixes", .list .allowedLinkPrefixes),
   (b!"category-prefixes", .list .categoryPrefixes),
   (b!"math-converter", .str .mathConverter),
   (b!"toc-depth", .int .tocDepth),
   (b!"worker-threads", .int .workerThreads),
   (b!"user-agent-template", .str .userAgentTemplate)]

/-- `literalStore`, encoding/json/decode.go, for a field of type bool. -/
def storeBool (old : Bool) : JsonVal → Bool × Bool
  | .bool b => (b, false)
  | .null => (old, false)
  | _ => (old, true)

/-- `literalStore` for a field of type int64 or int (64 bits): `strconv.ParseInt`; numbers with fractions, exponents or out of
range are errors. -/
def storeInt (old : Int) : JsonVal → Int × Bool
  | .num text =>
    match atoi text with
    | some n => (n, false)
    | none => (old, true)
  | .null => (old, false)
  | _ => (old, true)

/-- `array`, encoding/json/decode.go, for a field of type []string: the items are stored over the old ones, so that `null` leaves
an old item. (Simplified: `null` behind the end of the old list is the empty string; items that were there before a previous array
of the same name are not remembered.) -/
def storeItems : JsonItems → List Str → List Str × Bool
  | .nil, _ => ([], false)
  | .cons value rest, old =>
    ((storeString (old.headD []) value).1 :: (storeItems rest old.tail).1,
      (storeString (old.headD []) value).2 || (storeItems rest old.tail).2)

/-- A value for a field of type []string. -/
def storeStrings (old : List Str) : JsonVal → List Str × Bool
  | .arr items => storeItems items old
  | .null => ([], false)
  | _ => (old, true)

/-- One field of `Configuration`. -/
def storeConfigField (field : ConfigField) (value : JsonVal) (c : Config) : Config × Bool :=
  match field with
  | .str o => ({ c with str := fun p => if p = o then (storeString (c.str o) value).1 else c.str p }, (storeString (c.str o) value).2)
  | .list o => ({ c with list := fun p => if p = o then (storeStrings (c.list o) value).1 else c.list p }, (storeStrings (c.list o) value).2)
  | .int o => ({ c with int := fun p => if p = o then (storeInt (c.int o) value).1 else c.int p }, (storeInt (c.int o) value).2)
  | .bool o => ({ c with bool := fun p => if p = o then (storeBool (c.bool o) value).1 else c.bool p }, (storeBool (c.bool o) value).2)

/-- The field with a name in `Configuration`. -/
def storeConfigName (name : Str) (value : JsonVal) (c : Config) : Config × Bool :=
  match configFields.lookup name with
  | some field => storeConfigField field value c
  | none => (c, false)

/-- `json.Unmarshal(projectString, Current)`, src/config/config.go:845; `none`: an error. -/
def unmarshalConfig (bytes : Str) (c : Config) : Option Config :=
  match parseJson bytes with
  | none => none
  | some value =>
    if (storeStruct (configFields.map (·.1)) storeConfigName value c).2 then none
    else some (storeStruct (configFields.map (·.1)) storeConfigName value c).1

/-- `LoadConfig`, src/config/config.go:837-854, for a file with these bytes. -/
def loadConfigBytes (cwd file bytes : Str) (cur : Config) : Res Config :=
  match unmarshalConfig bytes cur with
  | none => .err
  | some c => do
    let c := makePathsAbsolute cwd file c
    assertValidity c
    return c

/-- `Project`, src/config/project.go:13-18. -/
structure Project where
  config : Config
  metadata : Metadata
  outputFile : Str
  articles : List Str

/-- The fields of `Metadata`, src/config/project.go:20-26. -/
def storeMetadataName (name : Str) (value : JsonVal) (m : Metadata) : Metadata × Bool :=
  if name = b!"title" then ({ m with title := (storeString m.title value).1 }, (storeString m.title value).2)
  else if name = b!"language" then ({ m with language := (storeString m.language value).1 }, (storeString m.language value).2)
  else if name = b!"author" then ({ m with author := (storeString m.author value).1 }, (storeString m.author value).2)
  else if name = b!"license" then ({ m with license := (storeString m.license value).1 }, (storeString m.license value).2)
  else ({ m with date := (storeString m.date value).1 }, (storeString m.date value).2)

def metadataNames : List Str := [b!"title", b!"language", b!"author", b!"license", b!"date"]

/-- The fields of `Project`; those of `Configuration` belong to it as well, because it is embedded without a name. -/
def projectNames : List Str := configFields.map (·.1) ++ [b!"metadata", b!"output-file", b!"articles"]

def storeProjectName (name : Str) (value : JsonVal) (p : Project) : Project × Bool :=
  if name = b!"metadata" then
    ({ p with metadata := (storeStruct metadataNames storeMetadataName value p.metadata).1 },
      (storeStruct metadataNames storeMetadataName value p.metadata).2)
  else if name = b!"output-file" then
    ({ p with outputFile := (storeString p.outputFile value).1 }, (storeString p.outputFile value).2)
  else if name = b!"articles" then
    ({ p with articles := (storeStrings p.articles value).1 }, (storeStrings p.articles value).2)
  else ({ p with config := (storeConfigName name value p.config).1 }, (storeConfigName name value p.config).2)

/-- `LoadProject`, src/config/project.go:35-50, for a file with these bytes; `none`: an error. -/
def loadProject (d : Config) (bytes : Str) : Option Project :=
  match parseJson bytes with
  | none => none
  | some value =>
    let r := storeStruct projectNames storeProjectName value ⟨d, ⟨[], [], [], [], []⟩, [], []⟩
    if r.2 then none else some r.1

/-- The configuration after `initialize`, src/main.go:189-192, for a config file with these bytes. -/
def afterConfigBytes (m : Machine) (cwd : Str) (configFile : Option (Str × Str)) : Res Config :=
  match configFile with
  | none => .ok (defaultConfig m)
  | some (file, bytes) =>
    match loadConfigBytes cwd file bytes (defaultConfig m) with
    | .err => .fatal
    | r => r

/-- `generateProjectEbook`, src/main.go:228-258, until the generation starts: the configuration and the project. `configFile` and
`projectFile` are the paths and the bytes of the files; the options of the command line are a layer. `outputFile` is the path
of the command line, or empty. -/
def loadBook (m : Machine) (cwd : Str) (configFile : Option (Str × Str)) (cli : Layer) (projectFile : Str × Str) (outputFile : Str) :
    Res (Config × Project) := do
  let cur ← afterConfigBytes m cwd configFile
  match loadProject (defaultConfig m) projectFile.2 with
  | none => .fatal
  | some p => do
    let cwd := projectCwd cwd projectFile.1
    let out := toAbsolutePath cwd (if outputFile ≠ [] then outputFile else p.outputFile)
    let cur ← mergeIntoCurrentConfig cwd (defaultConfig m) p.config cur
    let cur ← mergeIntoCurrentConfig cwd (defaultConfig m) (decodeInto cli (defaultConfig m)) cur
    return (cur, { p with outputFile := out })

end Verif.Model
