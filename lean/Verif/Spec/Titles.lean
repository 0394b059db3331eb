import Verif.Spec.Addresses

/-! # Titles of pages (C90) -/

namespace Verif.Spec
open Verif.Go Verif.Model

/-- What a text between tags means in XML: `<` is not possible, and each `&` begins a reference to a character. -/
inductive TextValue : Str → Str → Prop where
  | nil : TextValue [] []
  | char {c : Byte} {raw value : Str} : c ∉ b!"&<" → TextValue raw value → TextValue (c :: raw) (c :: value)
  | reference {name char raw value : Str} : CharacterReference name char → TextValue raw value →
      TextValue (b!"&" ++ name ++ b!";" ++ raw) (char ++ value)

/-- The first heading of level one that a reader of XML finds. -/
def FirstHeading (page title : Str) : Prop :=
  ∃ before raw rest, cut b!"<h1>" page = some (before, raw ++ b!"</h1>" ++ rest) ∧ TextValue raw title

end Verif.Spec
