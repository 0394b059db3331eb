import Verif.Go.Path

/-!
# The configuration: src/config/config.go, src/config/project.go and their use in src/main.go

The fields of the struct `Configuration` are indexed by their names, so that "for every option" can be
said in a theorem.  All functions are nevertheless written out field by field as in the code.

A layer is the set of options present in a file or on the command line, with their values; the JSON of the
files is modelled in `Model/ConfigFiles`. Not modelled: errors of `os.Getwd`, the check whether the files exist.
-/

namespace Verif.Model
open Verif.Go

/-- Fields of type `string` of `Configuration`, src/config/config.go:125-481. -/
inductive StrOpt where
  | outputType
  | outputDriver
  | cacheDir
  | cacheEvictionStrategy
  | styleFile
  | coverImage
  | commandTemplateSvgToPng
  | commandTemplateMathSvgToPng
  | commandTemplateImageProcessing
  | commandTemplatePdfToPng
  | commandTemplateWebpToPng
  | pandocExecutable
  | pandocDataDir
  | wikipediaInstance
  | wikipediaHost
  | wikipediaImageHost
  | wikipediaMathRestApi
  | mathConverter
  | userAgentTemplate
  deriving DecidableEq, Repr

/-- Fields of type `[]string` of `Configuration`, src/config/config.go:125-481. -/
inductive ListOpt where
  | fontFiles
  | ignoredTemplates
  | trailingTemplates
  | ignoredImageParams
  | ignoredMediaTypes
  | wikipediaImageArticleHosts
  | filePrefixes
  | allowedLinkPrefixes
  | categoryPrefixes
  deriving DecidableEq, Repr

/-- Fields of type `int` and `int64` of `Configuration`, src/config/config.go:125-481. -/
inductive IntOpt where
  | cacheMaxSize
  | cacheMaxAge
  | tocDepth
  | workerThreads
  deriving DecidableEq, Repr

/-- Fields of type `bool` of `Configuration`, src/config/config.go:125-481. -/
inductive BoolOpt where
  | forceRegenerateHtml
  | svgSizeToViewbox
  deriving DecidableEq, Repr

/-- `Configuration`, src/config/config.go:125-481. -/
structure Config where
  str : StrOpt → Str
  list : ListOpt → List Str
  int : IntOpt → Int
  bool : BoolOpt → Bool

/-- What the defaults depend on: the cache folder of the user (`os.UserCacheDir`) and which of the two
style files exist below `/usr/share/wiki2book`. -/
structure Machine where
  userCacheDir : Str
  hasStyleFile : Bool
  hasMathStyleFile : Bool

/-- `NewDefaultConfig`, src/config/config.go:59-118, with the constants of lines 16-47. -/
def defaultConfig (m : Machine) : Config where
  str
    | .outputType => b!"epub2"
    | .outputDriver => b!"pandoc"
    | .cacheDir => pathJoin [m.userCacheDir, b!"wiki2book"]
    | .cacheEvictionStrategy => b!"lru"
    | .styleFile => if m.hasStyleFile then b!"/usr/share/wiki2book/style.css" else []
    | .coverImage => []
    | .commandTemplateSvgToPng => b!"rsvg-convert -o {OUTPUT} {INPUT}"
    | .commandTemplateMathSvgToPng =>
      if m.hasMathStyleFile then b!"rsvg-convert -s /usr/share/wiki2book/rsvg-math.css -o {OUTPUT} {INPUT}"
      else b!"rsvg-convert -o {OUTPUT} {INPUT}"
    | .commandTemplateImageProcessing =>
      b!"magick {INPUT} -resize 600x600> -quality 75 -define PNG:compression-level=9 -define PNG:compression-filter=0 -colorspace gray {OUTPUT}"
    | .commandTemplatePdfToPng => b!"magick -density 300 {INPUT} {OUTPUT}"
    | .commandTemplateWebpToPng => b!"magick {INPUT} {OUTPUT}"
    | .pandocExecutable => b!"pandoc"
    | .pandocDataDir => []
    | .wikipediaInstance => b!"en"
    | .wikipediaHost => b!"wikipedia.org"
    | .wikipediaImageHost => b!"upload.wikimedia.org"
    | .wikipediaMathRestApi => b!"https://wikimedia.org/api/rest_v1/media/math"
    | .mathConverter => b!"wikimedia"
    | .userAgentTemplate => b!"wiki2book {{VERSION}} (https://github.com/hauke96/wiki2book)"
  list
    | .fontFiles => []
    | .ignoredTemplates => []
    | .trailingTemplates => []
    | .ignoredImageParams => []
    | .ignoredMediaTypes =>
      [b!"gif", b!"mp3", b!"mp4", b!"pdf", b!"oga", b!"ogg", b!"ogv", b!"wav", b!"webm"]
    | .wikipediaImageArticleHosts => [b!"commons.wikimedia.org", b!"en.wikipedia.org"]
    | .filePrefixes => [b!"file", b!"image", b!"media"]
    | .allowedLinkPrefixes => [b!"arxiv", b!"doi"]
    | .categoryPrefixes => [b!"category"]
  int
    | .cacheMaxSize => 100000000
    | .cacheMaxAge => 40320
    | .tocDepth => 2
    | .workerThreads => 5
  bool
    | .forceRegenerateHtml => false
    | .svgSizeToViewbox => false

/-- The options that a config file, a project file or the command line sets. -/
structure Layer where
  str : StrOpt → Option Str
  list : ListOpt → Option (List Str)
  int : IntOpt → Option Int
  bool : BoolOpt → Option Bool

/-- The layer that sets nothing. -/
def Layer.empty : Layer := ⟨fun _ => none, fun _ => none, fun _ => none, fun _ => none⟩

/-- `json.Unmarshal` into an existing configuration and the flag parser of cobra: the given options
are overwritten, all others keep their value (src/config/config.go:845, src/config/project.go:44,
src/main.go:81-114). -/
def decodeInto (l : Layer) (c : Config) : Config where
  str o := (l.str o).getD (c.str o)
  list o := (l.list o).getD (c.list o)
  int o := (l.int o).getD (c.int o)
  bool o := (l.bool o).getD (c.bool o)

/-- `ToAbsolutePath`, src/util/files.go:72-79, in the working directory `cwd`. -/
def toAbsolutePath (cwd p : Str) : Str := if p ≠ [] ∧ ¬ isAbs p then abs cwd p else p

/-- `ToAbsolutePathWithBasedir`, src/util/files.go:81-88. -/
def toAbsolutePathWithBasedir (cwd basedir p : Str) : Str :=
  if p ≠ [] ∧ ¬ isAbs p then abs cwd (pathJoin [basedir, p]) else p

/-- `EqualsInAnyOrder`, src/util/collections.go:13-37. The maps only serve to look up elements. -/
def equalsInAnyOrder {α : Type} [DecidableEq α] (a b : List α) : Bool :=
  decide (a.length = b.length) && a.all fun v => decide (v ∈ a) && decide (v ∈ b)

/-- `MakePathsAbsoluteToWorkingDir`, src/config/config.go:671-691. -/
def makePathsAbsoluteToWorkingDir (cwd : Str) (c : Config) : Config where
  str
    | .cacheDir => toAbsolutePath cwd (c.str .cacheDir)
    | .styleFile => toAbsolutePath cwd (c.str .styleFile)
    | .coverImage => toAbsolutePath cwd (c.str .coverImage)
    | .pandocDataDir => toAbsolutePath cwd (c.str .pandocDataDir)
    | o => c.str o
  list
    | .fontFiles => (c.list .fontFiles).map (toAbsolutePath cwd)
    | o => c.list o
  int := c.int
  bool := c.bool

/-- `makePathsAbsolute`, src/config/config.go:646-669, for the config file `file`. -/
def makePathsAbsolute (cwd file : Str) (c : Config) : Config :=
  let absoluteConfigDir := dir (toAbsolutePath cwd file)
  { str := fun
      | .cacheDir => toAbsolutePathWithBasedir cwd absoluteConfigDir (c.str .cacheDir)
      | .styleFile => toAbsolutePathWithBasedir cwd absoluteConfigDir (c.str .styleFile)
      | .coverImage => toAbsolutePathWithBasedir cwd absoluteConfigDir (c.str .coverImage)
      | .pandocDataDir => toAbsolutePathWithBasedir cwd absoluteConfigDir (c.str .pandocDataDir)
      | o => c.str o
    list := fun
      | .fontFiles => (c.list .fontFiles).map fun f => pathJoin [absoluteConfigDir, f]
      | o => c.list o
    int := c.int
    bool := c.bool }

/-- `VerifyOutputAndDriver`, src/config/config.go:788-817; `true` if no error is returned. -/
def verifyOutputAndDriver (outputType outputDriver : Str) : Bool :=
  if outputType = b!"epub2" then outputDriver = b!"pandoc"
  else if outputType = b!"epub3" then outputDriver = b!"pandoc" || outputDriver = b!"internal"
  else if outputType = b!"stats-json" then outputDriver = b!"internal"
  else if outputType = b!"stats-txt" then outputDriver = b!"internal"
  else false

/-- A check for an optional command template in `AssertValidity`: an empty template passes, every other
one must contain both placeholders. -/
def optionalTemplateOk (t : Str) : Bool :=
  t = [] || (contains t b!"{INPUT}" && contains t b!"{OUTPUT}")

/-- `AssertValidity`, src/config/config.go:703-786. `defaultValidationErrorHandler` ends the program with
the first error. -/
def assertValidity (c : Config) : Res Unit :=
  let ot := c.str .outputType
  let od := c.str .outputDriver
  if ot ≠ b!"epub2" ∧ ot ≠ b!"epub3" ∧ ot ≠ b!"stats-json" ∧ ot ≠ b!"stats-txt" then .fatal
  else if od ≠ b!"pandoc" ∧ od ≠ b!"internal" then .fatal
  else if ¬ verifyOutputAndDriver ot od then .fatal
  else if c.str .mathConverter ≠ b!"none" ∧ c.str .mathConverter ≠ b!"wikimedia" ∧
      c.str .mathConverter ≠ b!"template" then .fatal
  else if c.int .tocDepth < 0 ∨ c.int .tocDepth > 6 then .fatal
  else if c.int .workerThreads < 1 then .fatal
  else if ¬ optionalTemplateOk (c.str .commandTemplateSvgToPng) then .fatal
  else if c.str .commandTemplateMathSvgToPng = [] then .fatal
  else if ¬ contains (c.str .commandTemplateMathSvgToPng) b!"{INPUT}" then .fatal
  else if ¬ contains (c.str .commandTemplateMathSvgToPng) b!"{OUTPUT}" then .fatal
  else if ¬ optionalTemplateOk (c.str .commandTemplateImageProcessing) then .fatal
  else if ¬ optionalTemplateOk (c.str .commandTemplatePdfToPng) then .fatal
  else if ¬ optionalTemplateOk (c.str .commandTemplateWebpToPng) then .fatal
  else if c.int .cacheMaxSize ≤ 0 then .fatal
  else if c.int .cacheMaxAge ≤ 0 then .fatal
  else if c.str .cacheEvictionStrategy ≠ b!"none" ∧ c.str .cacheEvictionStrategy ≠ b!"lru" ∧
      c.str .cacheEvictionStrategy ≠ b!"largest" then .fatal
  else .ok ()

/-- The field-wise part of `MergeIntoCurrentConfig`, src/config/config.go:486-640: `d` is the default
configuration, `c` the configuration to be merged into `cur`. -/
def mergeFields (cwd : Str) (d c cur : Config) : Config where
  str
    | .outputType =>
      if c.str .outputType ≠ d.str .outputType then c.str .outputType else cur.str .outputType
    | .outputDriver =>
      if c.str .outputDriver ≠ d.str .outputDriver then c.str .outputDriver else cur.str .outputDriver
    | .cacheDir =>
      if c.str .cacheDir ≠ d.str .cacheDir then toAbsolutePath cwd (c.str .cacheDir) else cur.str .cacheDir
    | .cacheEvictionStrategy =>
      if c.str .cacheEvictionStrategy ≠ d.str .cacheEvictionStrategy then c.str .cacheEvictionStrategy else cur.str .cacheEvictionStrategy
    | .styleFile =>
      if c.str .styleFile ≠ d.str .styleFile then toAbsolutePath cwd (c.str .styleFile) else cur.str .styleFile
    | .coverImage =>
      if c.str .coverImage ≠ d.str .coverImage then toAbsolutePath cwd (c.str .coverImage) else cur.str .coverImage
    | .commandTemplateSvgToPng =>
      if c.str .commandTemplateSvgToPng ≠ d.str .commandTemplateSvgToPng then c.str .commandTemplateSvgToPng else cur.str .commandTemplateSvgToPng
    | .commandTemplateMathSvgToPng =>
      if c.str .commandTemplateMathSvgToPng ≠ d.str .commandTemplateMathSvgToPng then c.str .commandTemplateMathSvgToPng else cur.str .commandTemplateMathSvgToPng
    | .commandTemplateImageProcessing =>
      if c.str .commandTemplateImageProcessing ≠ d.str .commandTemplateImageProcessing then c.str .commandTemplateImageProcessing else cur.str .commandTemplateImageProcessing
    | .commandTemplatePdfToPng =>
      if c.str .commandTemplatePdfToPng ≠ d.str .commandTemplatePdfToPng then c.str .commandTemplatePdfToPng else cur.str .commandTemplatePdfToPng
    | .commandTemplateWebpToPng =>
      if c.str .commandTemplateWebpToPng ≠ d.str .commandTemplateWebpToPng then c.str .commandTemplateWebpToPng else cur.str .commandTemplateWebpToPng
    | .pandocExecutable =>
      if c.str .pandocExecutable ≠ d.str .pandocExecutable then
        if contains (c.str .pandocExecutable) b!"/" then toAbsolutePath cwd (c.str .pandocExecutable)
        else c.str .pandocExecutable
      else cur.str .pandocExecutable
    | .pandocDataDir =>
      if c.str .pandocDataDir ≠ d.str .pandocDataDir then toAbsolutePath cwd (c.str .pandocDataDir) else cur.str .pandocDataDir
    | .wikipediaInstance =>
      if c.str .wikipediaInstance ≠ d.str .wikipediaInstance then c.str .wikipediaInstance else cur.str .wikipediaInstance
    | .wikipediaHost =>
      if c.str .wikipediaHost ≠ d.str .wikipediaHost then c.str .wikipediaHost else cur.str .wikipediaHost
    | .wikipediaImageHost =>
      if c.str .wikipediaImageHost ≠ d.str .wikipediaImageHost then c.str .wikipediaImageHost else cur.str .wikipediaImageHost
    | .wikipediaMathRestApi =>
      if c.str .wikipediaMathRestApi ≠ d.str .wikipediaMathRestApi then c.str .wikipediaMathRestApi else cur.str .wikipediaMathRestApi
    | .mathConverter =>
      if c.str .mathConverter ≠ d.str .mathConverter then c.str .mathConverter else cur.str .mathConverter
    | .userAgentTemplate =>
      if c.str .userAgentTemplate ≠ d.str .userAgentTemplate then c.str .userAgentTemplate else cur.str .userAgentTemplate
  list
    | .fontFiles =>
      if ¬ equalsInAnyOrder (c.list .fontFiles) (d.list .fontFiles) then (c.list .fontFiles).map (toAbsolutePath cwd)
      else cur.list .fontFiles
    | .ignoredTemplates =>
      if ¬ equalsInAnyOrder (c.list .ignoredTemplates) (d.list .ignoredTemplates) then c.list .ignoredTemplates
      else cur.list .ignoredTemplates
    | .trailingTemplates =>
      if ¬ equalsInAnyOrder (c.list .trailingTemplates) (d.list .trailingTemplates) then c.list .trailingTemplates
      else cur.list .trailingTemplates
    | .ignoredImageParams =>
      if ¬ equalsInAnyOrder (c.list .ignoredImageParams) (d.list .ignoredImageParams) then c.list .ignoredImageParams
      else cur.list .ignoredImageParams
    | .ignoredMediaTypes =>
      if ¬ equalsInAnyOrder (c.list .ignoredMediaTypes) (d.list .ignoredMediaTypes) then c.list .ignoredMediaTypes
      else cur.list .ignoredMediaTypes
    | .wikipediaImageArticleHosts =>
      if ¬ equalsInAnyOrder (c.list .wikipediaImageArticleHosts) (d.list .wikipediaImageArticleHosts) then c.list .wikipediaImageArticleHosts
      else cur.list .wikipediaImageArticleHosts
    | .filePrefixes =>
      if ¬ equalsInAnyOrder (c.list .filePrefixes) (d.list .filePrefixes) then c.list .filePrefixes
      else cur.list .filePrefixes
    | .allowedLinkPrefixes =>
      if ¬ equalsInAnyOrder (c.list .allowedLinkPrefixes) (d.list .allowedLinkPrefixes) then c.list .allowedLinkPrefixes
      else cur.list .allowedLinkPrefixes
    | .categoryPrefixes =>
      if ¬ equalsInAnyOrder (c.list .categoryPrefixes) (d.list .categoryPrefixes) then c.list .categoryPrefixes
      else cur.list .categoryPrefixes
  int
    | .cacheMaxSize => if c.int .cacheMaxSize ≠ d.int .cacheMaxSize then c.int .cacheMaxSize else cur.int .cacheMaxSize
    | .cacheMaxAge => if c.int .cacheMaxAge ≠ d.int .cacheMaxAge then c.int .cacheMaxAge else cur.int .cacheMaxAge
    | .tocDepth => if c.int .tocDepth ≠ d.int .tocDepth then c.int .tocDepth else cur.int .tocDepth
    | .workerThreads => if c.int .workerThreads ≠ d.int .workerThreads then c.int .workerThreads else cur.int .workerThreads
  bool
    | .forceRegenerateHtml =>
      if c.bool .forceRegenerateHtml ≠ d.bool .forceRegenerateHtml then c.bool .forceRegenerateHtml else cur.bool .forceRegenerateHtml
    | .svgSizeToViewbox =>
      if c.bool .svgSizeToViewbox ≠ d.bool .svgSizeToViewbox then c.bool .svgSizeToViewbox else cur.bool .svgSizeToViewbox

/-- `MergeIntoCurrentConfig`, src/config/config.go:485-644. -/
def mergeIntoCurrentConfig (cwd : Str) (d c cur : Config) : Res Config := do
  let merged := makePathsAbsoluteToWorkingDir cwd (mergeFields cwd d c cur)
  assertValidity merged
  return merged

/-- `LoadConfig`, src/config/config.go:837-854, for a file that sets the options `l`. -/
def loadConfig (cwd file : Str) (l : Layer) (cur : Config) : Res Config := do
  let c := makePathsAbsolute cwd file (decodeInto l cur)
  assertValidity c
  return c

/-- What the user starts: the folder in which the program is started, the config file if one is given
(path and options in it), the options of the command line. -/
structure Invocation where
  machine : Machine
  cwd : Str
  configFile : Option (Str × Layer)
  cli : Layer

/-- The configuration after `initialize`, src/main.go:189-192. -/
def afterConfigFile (i : Invocation) : Res Config :=
  match i.configFile with
  | none => .ok (defaultConfig i.machine)
  | some (file, l) => loadConfig i.cwd file l (defaultConfig i.machine)

/-- The configuration with which `wiki2book article` and `wiki2book standalone` work,
src/main.go:136,147. -/
def articleConfig (i : Invocation) : Res Config := do
  let cur ← afterConfigFile i
  mergeIntoCurrentConfig i.cwd (defaultConfig i.machine)
    (decodeInto i.cli (defaultConfig i.machine)) cur

/-- First result of `filepath.Split`: everything up to and including the last separator. -/
def splitDir (p : Str) : Str := (p.reverse.dropWhile (· ≠ sepB)).reverse

/-- The working directory after `os.Chdir` in `generateProjectEbook`, src/main.go:233-238. Symbolic links
are not modelled. -/
def projectCwd (cwd projectFile : Str) : Str :=
  if splitDir projectFile ≠ [] then abs cwd (splitDir projectFile) else cwd

/-- The configuration with which `wiki2book project` works, src/main.go:228-253. `project` are the
options set in the project file. -/
def projectConfig (i : Invocation) (projectFile : Str) (project : Layer) : Res Config := do
  let cur ← afterConfigFile i
  let d := defaultConfig i.machine
  let cwd := projectCwd i.cwd projectFile
  let cur ← mergeIntoCurrentConfig cwd d (decodeInto project d) cur
  mergeIntoCurrentConfig cwd d (decodeInto i.cli d) cur

end Verif.Model
