import Verif.Spec.Answers
import Verif.Model.ConfigFiles

/-!
# Config files and project files

After the list of config entries and the section about project files in doc/configuration.md.
-/

namespace Verif.Spec
open Verif.Go Verif.Model

/-- The names of the settings that are texts. -/
def textEntry : StrOpt → Str
  | .outputType => b!"output-type"
  | .outputDriver => b!"output-driver"
  | .cacheDir => b!"cache-dir"
  | .cacheEvictionStrategy => b!"cache-eviction-strategy"
  | .styleFile => b!"style-file"
  | .coverImage => b!"cover-image"
  | .commandTemplateSvgToPng => b!"command-template-svg-to-png"
  | .commandTemplateMathSvgToPng => b!"command-template-math-svg-to-png"
  | .commandTemplateImageProcessing => b!"command-template-image-processing"
  | .commandTemplatePdfToPng => b!"command-template-pdf-to-png"
  | .commandTemplateWebpToPng => b!"command-template-webp-to-png"
  | .pandocExecutable => b!"pandoc-executable"
  | .pandocDataDir => b!"pandoc-data-dir"
  | .wikipediaInstance => b!"wikipedia-instance"
  | .wikipediaHost => b!"wikipedia-host"
  | .wikipediaImageHost => b!"wikipedia-image-host"
  | .wikipediaMathRestApi => b!"wikipedia-math-rest-api"
  | .mathConverter => b!"math-converter"
  | .userAgentTemplate => b!"user-agent-template"

/-- The names of the settings that are lists. -/
def listEntry : ListOpt → Str
  | .fontFiles => b!"font-files"
  | .ignoredTemplates => b!"ignored-templates"
  | .trailingTemplates => b!"trailing-templates"
  | .ignoredImageParams => b!"ignored-image-params"
  | .ignoredMediaTypes => b!"ignored-media-types"
  | .wikipediaImageArticleHosts => b!"wikipedia-image-article-hosts"
  | .filePrefixes => b!"file-prefixes"
  | .allowedLinkPrefixes => b!"allowed-link-prefixes"
  | .categoryPrefixes => b!"category-prefixes"

/-- The names of the settings that are numbers. -/
def numberEntry : IntOpt → Str
  | .cacheMaxSize => b!"cache-max-size"
  | .cacheMaxAge => b!"cache-max-age"
  | .tocDepth => b!"toc-depth"
  | .workerThreads => b!"worker-threads"

/-- The names of the settings that are switches. -/
def switchEntry : BoolOpt → Str
  | .forceRegenerateHtml => b!"force-regenerate-html"
  | .svgSizeToViewbox => b!"svg-size-to-viewbox"

/-- The names of all settings. -/
def entryName : ConfigField → Str
  | .str o => textEntry o
  | .list o => listEntry o
  | .int o => numberEntry o
  | .bool o => switchEntry o

/-- An array of strings. -/
def stringItems : List Str → JsonItems
  | [] => .nil
  | s :: rest => .cons (.str s) (stringItems rest)

/-- The decimal number `text`, possibly with a minus sign, has the value `n` and fits into 64 bits. -/
def WholeNumber (n : Int) (text : Str) : Prop :=
  -2 ^ 63 ≤ n ∧ n < 2 ^ 63 ∧ ∃ digits, SomeDigits digits ∧ (text = digits ∧ n = undecimal digits ∨
    text = b!"-" ++ digits ∧ n = -(undecimal digits : Int))

/-- The value of a setting, written in JSON. -/
def EntryValue (layer : Layer) : ConfigField → Option (JsonVal → Prop)
  | .str o => (layer.str o).map fun s v => v = .str s
  | .list o => (layer.list o).map fun l v => v = .arr (stringItems l)
  | .int o => (layer.int o).map fun n v => ∃ text, v = .num text ∧ WholeNumber n text
  | .bool o => (layer.bool o).map fun b v => v = .bool b

/-- The object has no member of this name, or exactly one with such a value. -/
def MemberIs (fields : JsonMembers) (name : Str) : Option (JsonVal → Prop) → Prop
  | none => ∀ m ∈ memberList fields, OtherName name m.1
  | some p => ∃ v, p v ∧ OneMember fields name v

/-- The object contains the settings of the layer and no other settings; there may be members with other names. -/
def Settings (layer : Layer) (fields : JsonMembers) : Prop :=
  ∀ field, MemberIs fields (entryName field) (EntryValue layer field)

/-- A text, or nothing for the empty one. -/
def TextMember (fields : JsonMembers) (name text : Str) : Prop :=
  OneMember fields name (.str text) ∨ text = [] ∧ ∀ m ∈ memberList fields, OtherName name m.1

/-- The object `metadata` of a project file. -/
def MetadataOf (m : Metadata) (fields : JsonMembers) : Prop :=
  TextMember fields b!"title" m.title ∧ TextMember fields b!"language" m.language ∧ TextMember fields b!"author" m.author ∧
  TextMember fields b!"license" m.license ∧ TextMember fields b!"date" m.date

/-- A project file: metadata, output file, articles and settings. -/
def ProjectFile (layer : Layer) (m : Metadata) (outputFile : Str) (articles : List Str) (fields : JsonMembers) : Prop :=
  Settings layer fields ∧ (∃ inner, OneMember fields b!"metadata" (.obj inner) ∧ MetadataOf m inner) ∧
  TextMember fields b!"output-file" outputFile ∧ OneMember fields b!"articles" (.arr (stringItems articles))

/-- The items of an array. -/
def itemList : JsonItems → List JsonVal
  | .nil => []
  | .cons value rest => value :: itemList rest

/-- A value that a setting cannot have (`null` is allowed). -/
def WrongValue : ConfigField → JsonVal → Prop
  | .str _, v => (∀ s, v ≠ .str s) ∧ v ≠ .null
  | .list _, v => (∀ items, v = .arr items → ∃ w ∈ itemList items, (∀ s, w ≠ .str s) ∧ w ≠ .null) ∧ v ≠ .null
  | .int _, v => (∀ n text, WholeNumber n text → v ≠ .num text) ∧ v ≠ .null
  | .bool _, v => (∀ b, v ≠ .bool b) ∧ v ≠ .null

end Verif.Spec
