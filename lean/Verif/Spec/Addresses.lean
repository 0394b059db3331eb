import Verif.Spec.Document
import Verif.Go.Utf8
import Verif.Go.Url

/-!
# Addresses of web links in pages (C86)

How a reader of XML documents (pages announce themselves as such in their first line) reads the value of an attribute.
-/

namespace Verif.Spec
open Verif.Go Verif.Model

/-- The number that decimal digits stand for. -/
def decimalNumber (digits : Str) : Nat := digits.foldl (fun n c => n * 10 + (c.toNat - 48)) 0

/-- The number that hexadecimal digits stand for. -/
def hexNumber (digits : Str) : Nat :=
  digits.foldl (fun n c => n * 16 + (if c ≤ 57 then c.toNat - 48 else if c ≤ 70 then c.toNat - 55 else c.toNat - 87)) 0

/-- The references to characters in XML documents, between `&` and `;`, and their meaning. -/
inductive CharacterReference : Str → Str → Prop where
  | named {name value : Str} : (name, value) ∈ [(b!"amp", b!"&"), (b!"lt", b!"<"), (b!"gt", b!">"), (b!"quot", b!"\""), (b!"apos", b!"'")] →
      CharacterReference name value
  | decimal {digits : Str} : digits ≠ [] → (∀ c ∈ digits, 48 ≤ c ∧ c ≤ 57) → CharacterReference (b!"#" ++ digits) (utf8 (decimalNumber digits))
  | hex {digits : Str} : digits ≠ [] → (∀ c ∈ digits, (48 ≤ c ∧ c ≤ 57) ∨ (65 ≤ c ∧ c ≤ 70) ∨ (97 ≤ c ∧ c ≤ 102)) →
      CharacterReference (b!"#x" ++ digits) (utf8 (hexNumber digits))

/-- What the text between the quotation marks of an attribute means: quotation marks and `<` are not possible, and each `&` begins a
reference to a character. -/
inductive AttributeValue : Str → Str → Prop where
  | nil : AttributeValue [] []
  | char {c : Byte} {raw value : Str} : c ∉ b!"\"&<" → AttributeValue raw value → AttributeValue (c :: raw) (c :: value)
  | reference {name char raw value : Str} : CharacterReference name char → AttributeValue raw value →
      AttributeValue (b!"&" ++ name ++ b!";" ++ raw) (char ++ value)

/-- The text begins with the tag of a link, and the reader reads the address `url`. -/
def LeadsTo (text url : Str) : Prop :=
  ∃ raw rest, text = b!"<a href=\"" ++ raw ++ b!"\"" ++ rest ∧ AttributeValue raw url

/-- The link to a web page is anywhere in the block. -/
def DocBlock.HasWebLink (url label : Str) (b : DocBlock) : Prop :=
  (∃ l ∈ b.texts, ∃ r ∈ l, Inline.web url label ∈ r.parts) ∨
  ∃ attributes space entries, b = .references attributes space entries ∧ ∃ e ∈ entries, ∃ r ∈ e.2, NotePart.web url label ∈ r.parts

/-- The tags of images up to the attribute with the path. -/
def imageTags : List Str := [b!"<img alt=\"image\" class=\"inline\" src=\"", b!"<div class=\"figure\">\n<img alt=\"image\" src=\"",
  b!"<img alt=\"image\" src=\""]

/-- The text begins with an image, and its file is found at `path`, relative to the current folder: the reader takes the value of the
attribute and decodes it as an address. -/
def ShowsFile (text path : Str) : Prop :=
  ∃ tag ∈ imageTags, ∃ raw value rest, text = tag ++ raw ++ b!"\"" ++ rest ∧ AttributeValue raw value ∧ urlDecode false value = some (b!"./" ++ path)

/-- The token is an image with this file. -/
inductive ImageToken (filename : Str) : Token → Prop where
  | inline (x y : Int) : ImageToken filename (.inlineImage filename x y)
  | figure (caption : Str) (x y : Int) : ImageToken filename (.image filename caption x y)

end Verif.Spec
