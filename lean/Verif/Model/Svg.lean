import Verif.Go.Strings

/-!
# Sizes of SVG files, src/image/svg.go

The XML decoder (`encoding/xml` with the conversion of charsets) is a parameter.
-/

namespace Verif.Model
open Verif.Go

/-- `SimpleSvgAttributes`, src/image/svg.go:17-21. A missing attribute is empty. -/
structure SvgAttributes where
  width : Str
  height : Str
  style : Str

/-- `&ns.*?;` at the beginning of a text, src/image/svg.go:24: the text up to the first semicolon, which must be in the same
line. Result: the number of characters. -/
def matchNamespace (s : Str) : Option Nat :=
  if hasPrefix s b!"&ns" then
    match cut b!";" (s.drop 3) with
    | none => none
    | some (name, _) => if 0x0A ∈ name then none else some (name.length + 4)
  else none

/-- `xmlNamespaceValueRegex.ReplaceAllString(s, "")`, src/image/svg.go:122; `skip` is the number of characters of the last
match that are still to be skipped. -/
def removeNamespaces : Str → (skip : Nat) → Str
  | [], _ => []
  | _ :: t, skip + 1 => removeNamespaces t skip
  | c :: t, 0 =>
    match matchNamespace (c :: t) with
    | some n => removeNamespaces t (n - 1)
    | none => c :: removeNamespaces t 0

/-- `parseSimpleSvgAttributes`, src/image/svg.go:119-136. `decode` is the XML decoder; `none` is an error. -/
def parseSvgAttributes (decode : Str → Option SvgAttributes) (content : Str) : Option SvgAttributes :=
  decode (removeNamespaces content 0)

/-- The values of the attribute `viewBox`, src/image/svg.go:95-105; `none`: no supported separator. -/
def viewBoxValues (s : Str) : Option (List Str) :=
  if contains s b!"," then some (split s b!",")
  else if contains s b!" " then some (split s b!" ")
  else none

/-- `replaceRelativeSizeByViewboxSize`, src/image/svg.go:78-117. (A text that begins with `viewBox="` has a quotation mark, so
that `strings.SplitN` always yields at least two parts.) -/
def replaceSvgSize (content : Str) (old : SvgAttributes) : Str :=
  match indexOf b!"viewBox=\"" content with
  | none => content
  | some i =>
    match splitN b!"\"" 3 (content.drop i) with
    | _ :: box :: _ =>
      match viewBoxValues box with
      | some [_, _, width, height] =>
        let content := replaceFirst (b!"width=\"" ++ old.width ++ b!"\"") (b!"width=\"" ++ width ++ b!"pt\"") content
        replaceFirst (b!"height=\"" ++ old.height ++ b!"\"") (b!"height=\"" ++ height ++ b!"pt\"") content
      | _ => content
    | _ => content

/-- `MakeSvgSizeAbsolute`, src/image/svg.go:45-76, as function of the content of the file. Result: the new content, or `none` if
nothing is written (the file cannot be decoded, or lines 59-63). -/
def makeSvgSizeAbsolute (decode : Str → Option SvgAttributes) (content : Str) : Option Str :=
  match parseSvgAttributes decode content with
  | none => none
  | some attributes =>
    if !hasSuffix attributes.width b!"%" && hasSuffix attributes.height b!"%" then none
    else some (replaceSvgSize content attributes)

end Verif.Model
