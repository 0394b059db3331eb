import Verif.Model.Svg

/-!
# SVG files

An SVG file is the text before the name of the root element, its attributes and the rest.
-/

namespace Verif.Spec
open Verif.Go Verif.Model
open scoped List

structure SvgFile where
  /-- Declarations, comments and the beginning of the tag. -/
  before : Str
  attributes : List (Str × Str)
  /-- The end of the tag and everything in the picture. -/
  rest : Str

/-- An attribute in the file. -/
def svgAttribute (a : Str × Str) : Str := b!" " ++ a.1 ++ b!"=\"" ++ a.2 ++ b!"\""

def SvgFile.source (f : SvgFile) : Str := f.before ++ f.attributes.flatMap svgAttribute ++ f.rest

/-- The file with another value of one attribute. -/
def SvgFile.set (f : SvgFile) (name value : Str) : SvgFile :=
  { f with attributes := f.attributes.map fun a => if a.1 = name then (name, value) else a }

/-- The attributes can be told apart: each one occurs once, no name ends with `width`, `height` or `viewBox` except for these
names themselves, values contain no quotation mark and do not end with an equals sign, and there is no such attribute in front of
the tag. -/
structure SvgFile.Plain (f : SvgFile) : Prop where
  distinct : (f.attributes.map (·.1)).Nodup
  names : ∀ a ∈ f.attributes, (0x22 : Byte) ∉ a.1 ∧ ∀ n ∈ [b!"width", b!"height", b!"viewBox"], n <:+ a.1 → a.1 = n
  values : ∀ a ∈ f.attributes, (0x22 : Byte) ∉ a.2 ∧ a.2.getLast? ≠ some 0x3D
  before : ∀ n ∈ [b!"width", b!"height", b!"viewBox"], ¬ n ++ b!"=\"" <:+: f.before

/-- The four numbers of a `viewBox`, separated by commas or by spaces. -/
inductive ViewBox (x y width height : Str) : Str → Prop
  | commas : (∀ v ∈ [x, y, width, height], (0x2C : Byte) ∉ v) → ViewBox x y width height (join b!"," [x, y, width, height])
  | spaces : (∀ v ∈ [x, y, width, height], (0x2C : Byte) ∉ v ∧ (0x20 : Byte) ∉ v) →
    ViewBox x y width height (join b!" " [x, y, width, height])

/-- A size in percent. -/
def Relative (size : Str) : Prop := size.getLast? = some 0x25

/-- The decoder finds the attributes of the root element. -/
structure DecodesSize (decode : Str → Option SvgAttributes) (f : SvgFile) (width height : Str) : Prop where
  hasWidth : (b!"width", width) ∈ f.attributes
  hasHeight : (b!"height", height) ∈ f.attributes
  decodes : ∃ style, parseSvgAttributes decode f.source = some ⟨width, height, style⟩

end Verif.Spec
