import Verif.Go.Json

/-!
# Reading JSON

A reader for the JSON texts of RFC 8259 that consist of objects, strings, whole numbers and null. Other texts are rejected.
-/

namespace Verif.Spec
open Verif.Go

/-- Section 2: white space. -/
def jsonSpace (c : Byte) : Bool := c = 0x20 || c = 0x09 || c = 0x0A || c = 0x0D

/-- The value of a hexadecimal digit. -/
def hexValue (c : Byte) : Option Nat :=
  if 0x30 ≤ c ∧ c ≤ 0x39 then some (c.toNat - 0x30)
  else if 0x61 ≤ c ∧ c ≤ 0x66 then some (c.toNat - 0x61 + 10)
  else if 0x41 ≤ c ∧ c ≤ 0x46 then some (c.toNat - 0x41 + 10)
  else none

/-- Section 7: four hexadecimal digits. Halves of surrogate pairs are rejected. -/
def hexCode (a b c d : Byte) : Option Nat := do
  let n := (((← hexValue a) * 16 + (← hexValue b)) * 16 + (← hexValue c)) * 16 + (← hexValue d)
  if Scalar n then some n else none

/-- Section 7: the escapes of two characters. -/
def shortEscape (c : Byte) : Option Byte :=
  [(0x22, 0x22), (0x5C, 0x5C), (0x2F, 0x2F), (0x62, 0x08), (0x66, 0x0C), (0x6E, 0x0A), (0x72, 0x0D), (0x74, 0x09)].lookup c

/-- Section 7: the rest of a string, after the first quotation mark. Result: the string and what comes behind it. -/
def readString : Str → Option (Str × Str)
  | [] => none
  | 0x22 :: t => some ([], t)
  | 0x5C :: 0x75 :: a :: b :: c :: d :: t =>
    match hexCode a b c d with
    | none => none
    | some n => (readString t).map fun p => (utf8 n ++ p.1, p.2)
  | 0x5C :: e :: t =>
    match shortEscape e with
    | none => none
    | some c => (readString t).map fun p => (c :: p.1, p.2)
  | c :: t => if c < 0x20 ∨ c = 0x5C then none else (readString t).map fun p => (c :: p.1, p.2)

def jsonDigit (c : Byte) : Bool := 48 ≤ c && c ≤ 57

/-- Section 6: a whole number. -/
def readNumber (s : Str) : Option (Int × Str) :=
  let negative := s.head? = some 0x2D
  let t := if negative then s.tail else s
  let digits := t.takeWhile jsonDigit
  let rest := t.dropWhile jsonDigit
  if digits = [] ∨ (1 < digits.length ∧ digits.head? = some 0x30) ∨ rest.head? ∈ [some 0x2E, some 0x65, some 0x45] then none
  else some (if negative then -(undecimal digits : Int) else undecimal digits, rest)

mutual
/-- Section 3: a value. Result: the value and what comes behind it. `fuel` bounds the depth; the length of the text is
enough. -/
def readJson : (fuel : Nat) → Str → Option (Json × Str)
  | 0, _ => none
  | fuel + 1, s =>
    match s.dropWhile jsonSpace with
    | 0x22 :: t => (readString t).map fun p => (.str p.1, p.2)
    | 0x6E :: 0x75 :: 0x6C :: 0x6C :: t => some (.null, t)
    | 0x7B :: t =>
      match t.dropWhile jsonSpace with
      | 0x7D :: rest => some (.obj .nil, rest)
      | t => (readFields fuel t).map fun p => (.obj p.1, p.2)
    | t => (readNumber t).map fun p => (.num p.1, p.2)
/-- Section 4: the members of an object and the closing brace. -/
def readFields : (fuel : Nat) → Str → Option (Fields × Str)
  | 0, _ => none
  | fuel + 1, s =>
    match s.dropWhile jsonSpace with
    | 0x22 :: t =>
      match readString t with
      | none => none
      | some (key, t) =>
        match t.dropWhile jsonSpace with
        | 0x3A :: t =>
          match readJson fuel t with
          | none => none
          | some (value, t) =>
            match t.dropWhile jsonSpace with
            | 0x7D :: rest => some (.cons key value .nil, rest)
            | 0x2C :: t => (readFields fuel t).map fun p => (.cons key value p.1, p.2)
            | _ => none
        | _ => none
    | _ => none
end

/-- Section 2: a JSON text. -/
def jsonText (s : Str) : Option Json :=
  match readJson (s.length + 1) s with
  | some (value, rest) => if rest.all jsonSpace then some value else none
  | none => none

/-- The text consists of the codes of code points. -/
def ValidText (s : Str) : Prop := ∃ codes : List Nat, (∀ n ∈ codes, Scalar n) ∧ s = codes.flatMap utf8

/-- The members of an object. -/
def members : Fields → List (Str × Json)
  | .nil => []
  | .cons key value rest => (key, value) :: members rest

mutual
/-- All strings are texts. -/
def ValidJson : Json → Prop
  | .null => True
  | .num _ => True
  | .str s => ValidText s
  | .obj fields => ValidFields fields
def ValidFields : Fields → Prop
  | .nil => True
  | .cons key value rest => ValidText key ∧ ValidJson value ∧ ValidFields rest
end

end Verif.Spec
