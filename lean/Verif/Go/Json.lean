import Verif.Go.Utf8
import Verif.Go.Decimal

/-!
# Writing JSON

Go: `json.MarshalIndent(value, "", "  ")`, encoding/json. `Json` has the kinds of values that the statistics consist of.
-/

namespace Verif.Go

mutual
/-- A JSON value. Arrays, fractions and truth values are left out. -/
inductive Json where
  | null
  | num (n : Int)
  | str (s : Str)
  | obj (fields : Fields)
/-- The members of an object, in their order. -/
inductive Fields where
  | nil
  | cons (key : Str) (value : Json) (rest : Fields)
end

/-- A hexadecimal digit, `hex` in encoding/json. -/
def jsonHex (n : Nat) : Byte := if n < 10 then UInt8.ofNat (48 + n) else UInt8.ofNat (87 + n)

/-- An ASCII character in a string, `appendString` with `escapeHTML`. -/
def jsonEscape (c : Byte) : Str :=
  if c = 0x22 ∨ c = 0x5C then [0x5C, c]
  else if c = 0x08 then b!"\\b"
  else if c = 0x0C then b!"\\f"
  else if c = 0x0A then b!"\\n"
  else if c = 0x0D then b!"\\r"
  else if c = 0x09 then b!"\\t"
  else if c < 0x20 ∨ c = 0x3C ∨ c = 0x3E ∨ c = 0x26 then b!"\\u00" ++ [jsonHex (c.toNat / 16), jsonHex (c.toNat % 16)]
  else [c]

/-- The characters of a string, `appendString`. `skip` bytes have already been written. -/
def jsonChars : Str → (skip : Nat) → Str
  | [], _ => []
  | _ :: t, skip + 1 => jsonChars t skip
  | c :: t, 0 =>
    if c < 0x80 then jsonEscape c ++ jsonChars t 0
    else
      match decodeRune (c :: t) with
      | none => b!"\\ufffd" ++ jsonChars t 0
      | some (n, len) =>
        (if n = 0x2028 then b!"\\u2028" else if n = 0x2029 then b!"\\u2029" else (c :: t).take len) ++ jsonChars t (len - 1)

/-- A string. -/
def jsonString (s : Str) : Str := b!"\"" ++ jsonChars s 0 ++ b!"\""

mutual
/-- `json.MarshalIndent(value, indent, "  ")`. -/
def encodeJson (indent : Str) : Json → Str
  | .null => b!"null"
  | .num n => decimalInt n
  | .str s => jsonString s
  | .obj .nil => b!"{}"
  | .obj (.cons key value rest) =>
    b!"{\n" ++ encodeFields (indent ++ b!"  ") (.cons key value rest) ++ b!"\n" ++ indent ++ b!"}"
/-- The members of an object, one per line. -/
def encodeFields (indent : Str) : Fields → Str
  | .nil => []
  | .cons key value .nil => indent ++ jsonString key ++ b!": " ++ encodeJson indent value
  | .cons key value (.cons key' value' rest) =>
    indent ++ jsonString key ++ b!": " ++ encodeJson indent value ++ b!",\n" ++ encodeFields indent (.cons key' value' rest)
end

end Verif.Go
