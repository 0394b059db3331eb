import Verif.Go.Utf8

/-!
# Reading JSON

Go 1.24: `json.Unmarshal`, encoding/json (scanner.go and decode.go). The state machine of the scanner is written as a recursive
descent with the same language; like in Go the whole text is checked before anything is stored.
-/

namespace Verif.Go

mutual
/-- A JSON value. Numbers are kept as they are written. -/
inductive JsonVal where
  | null
  | bool (b : Bool)
  | num (text : Str)
  | str (s : Str)
  | arr (items : JsonItems)
  | obj (fields : JsonMembers)
/-- The items of an array. -/
inductive JsonItems where
  | nil
  | cons (value : JsonVal) (rest : JsonItems)
/-- The members of an object, in their order. -/
inductive JsonMembers where
  | nil
  | cons (key : Str) (value : JsonVal) (rest : JsonMembers)
end

/-- `isSpace`, scanner.go. -/
def scanSpace (c : Byte) : Bool := c ≤ 0x20 && (c = 0x20 || c = 0x09 || c = 0x0D || c = 0x0A)

/-- A hexadecimal digit, `stateInStringEscU`; its value, `getu4`. -/
def hexByte (c : Byte) : Option Nat :=
  if 0x30 ≤ c ∧ c ≤ 0x39 then some (c.toNat - 0x30)
  else if 0x61 ≤ c ∧ c ≤ 0x66 then some (c.toNat - 0x57)
  else if 0x41 ≤ c ∧ c ≤ 0x46 then some (c.toNat - 0x37)
  else none

/-- `getu4`, decode.go: the value of four digits. -/
def getu4 (a b c d : Byte) : Option Nat :=
  match hexByte a, hexByte b, hexByte c, hexByte d with
  | some a, some b, some c, some d => some (((a * 16 + b) * 16 + c) * 16 + d)
  | _, _, _, _ => none

/-- `stateInString`, `stateInStringEsc`, scanner.go: the rest of a string literal, after the first quotation mark. Result: the
characters between the quotation marks, as they are written, and what comes behind. -/
def scanString : Str → Option (Str × Str)
  | [] => none
  | 0x22 :: t => some ([], t)
  | 0x5C :: 0x75 :: a :: b :: c :: d :: t =>
    if (getu4 a b c d).isSome then (scanString t).map fun p => (0x5C :: 0x75 :: a :: b :: c :: d :: p.1, p.2) else none
  | 0x5C :: e :: t =>
    if e ∈ b!"bfnrt\\/\"" then (scanString t).map fun p => (0x5C :: e :: p.1, p.2) else none
  | c :: t => if c < 0x20 ∨ c = 0x5C then none else (scanString t).map fun p => (c :: p.1, p.2)

/-- `utf16.IsSurrogate` and `utf16.DecodeRune`. -/
def isSurrogate (n : Nat) : Bool := 0xD800 ≤ n && n < 0xE000
def decodeSurrogates (n m : Nat) : Option Nat :=
  if 0xD800 ≤ n ∧ n < 0xDC00 ∧ 0xDC00 ≤ m ∧ m < 0xE000 then some ((n - 0xD800) * 0x400 + (m - 0xDC00) + 0x10000) else none

/-- The second half of a pair of surrogates, if it is there. -/
def secondHalf (n : Nat) : Str → Option Nat
  | 0x5C :: 0x75 :: a :: b :: c :: d :: _ =>
    match getu4 a b c d with
    | some m => decodeSurrogates n m
    | none => none
  | _ => none

/-- `unquoteBytes`, decode.go, the case of a backslash: what is written and how many characters behind the backslash have been
read. Other characters behind a backslash are refused by `scanString`; the function then fails. -/
def unescape : Str → Str × Nat
  | 0x75 :: a :: b :: c :: d :: t =>
    match getu4 a b c d with
    | none => ([], 5)
    | some n =>
      if isSurrogate n then
        match secondHalf n t with
        | some k => (utf8 k, 11)
        | none => (utf8 0xFFFD, 5)
      else (utf8 n, 5)
  | 0x62 :: _ => ([0x08], 1)
  | 0x66 :: _ => ([0x0C], 1)
  | 0x6E :: _ => ([0x0A], 1)
  | 0x72 :: _ => ([0x0D], 1)
  | 0x74 :: _ => ([0x09], 1)
  | 0x22 :: _ => ([0x22], 1)
  | 0x5C :: _ => ([0x5C], 1)
  | 0x2F :: _ => ([0x2F], 1)
  | 0x27 :: _ => ([0x27], 1)
  | _ => ([], 1)

/-- `unquoteBytes`, decode.go. `skip` characters have already been read. -/
def unquote : Str → (skip : Nat) → Str
  | [], _ => []
  | _ :: t, skip + 1 => unquote t skip
  | c :: t, 0 =>
    if c = 0x5C then (unescape t).1 ++ unquote t (unescape t).2
    else if c < 0x80 then c :: unquote t 0
    else
      match decodeRune (c :: t) with
      | none => utf8 0xFFFD ++ unquote t 0
      | some (n, len) => utf8 n ++ unquote t (len - 1)

/-- One or more digits: `state1`, `stateDot0`, `stateE0`, scanner.go. -/
def scanDigits (s : Str) : Option (Str × Str) :=
  let isDigit (c : Byte) : Bool := 0x30 ≤ c && c ≤ 0x39
  if s.takeWhile isDigit = [] then none else some (s.takeWhile isDigit, s.dropWhile isDigit)

/-- `stateNeg`, `state0`, `state1`: the whole part. -/
def scanWhole : Str → Option (Str × Str)
  | 0x30 :: t => some ([0x30], t)
  | s => scanDigits s

/-- `stateDot`: the fraction. -/
def scanFraction : Str → Option (Str × Str)
  | 0x2E :: t => (scanDigits t).map fun p => (0x2E :: p.1, p.2)
  | s => some ([], s)

/-- `stateESign`. -/
def scanSign : Str → Str × Str
  | c :: t => if c = 0x2B ∨ c = 0x2D then ([c], t) else ([], c :: t)
  | [] => ([], [])

/-- `stateE`: the exponent. -/
def scanExponent : Str → Option (Str × Str)
  | c :: t =>
    if c = 0x65 ∨ c = 0x45 then (scanDigits (scanSign t).2).map fun p => (c :: (scanSign t).1 ++ p.1, p.2)
    else some ([], c :: t)
  | [] => some ([], [])

/-- A number without its sign. -/
def scanUnsigned (s : Str) : Option (Str × Str) :=
  match scanWhole s with
  | none => none
  | some (whole, s) =>
    match scanFraction s with
    | none => none
    | some (fraction, s) => (scanExponent s).map fun p => (whole ++ fraction ++ p.1, p.2)

/-- A number. -/
def scanNumber : Str → Option (Str × Str)
  | 0x2D :: t => (scanUnsigned t).map fun p => (0x2D :: p.1, p.2)
  | s => scanUnsigned s

mutual
/-- `stateBeginValue`, scanner.go, and `value`, decode.go: a value and what comes behind it. `depth` arrays and objects may still
be opened (`maxNestingDepth`). `fuel` bounds the number of steps; the length of the text is enough. -/
def readValue : (fuel depth : Nat) → Str → Option (JsonVal × Str)
  | 0, _, _ => none
  | fuel + 1, depth, s =>
    match s.dropWhile scanSpace with
    | 0x22 :: t => (scanString t).map fun p => (.str (unquote p.1 0), p.2)
    | 0x6E :: 0x75 :: 0x6C :: 0x6C :: t => some (.null, t)
    | 0x74 :: 0x72 :: 0x75 :: 0x65 :: t => some (.bool true, t)
    | 0x66 :: 0x61 :: 0x6C :: 0x73 :: 0x65 :: t => some (.bool false, t)
    | 0x7B :: t =>
      match depth with
      | 0 => none
      | depth + 1 =>
        match t.dropWhile scanSpace with
        | 0x7D :: rest => some (.obj .nil, rest)
        | u => (readMembers fuel depth u).map fun p => (.obj p.1, p.2)
    | 0x5B :: t =>
      match depth with
      | 0 => none
      | depth + 1 =>
        match t.dropWhile scanSpace with
        | 0x5D :: rest => some (.arr .nil, rest)
        | u => (readItems fuel depth u).map fun p => (.arr p.1, p.2)
    | u => (scanNumber u).map fun p => (.num p.1, p.2)
/-- `stateEndValue` in arrays: the items and the closing bracket. -/
def readItems : (fuel depth : Nat) → Str → Option (JsonItems × Str)
  | 0, _, _ => none
  | fuel + 1, depth, s =>
    match readValue fuel depth s with
    | none => none
    | some (value, t) =>
      match t.dropWhile scanSpace with
      | 0x5D :: rest => some (.cons value .nil, rest)
      | 0x2C :: u => (readItems fuel depth u).map fun p => (.cons value p.1, p.2)
      | _ => none
/-- `stateBeginString`, `stateEndValue` in objects: the members and the closing brace. -/
def readMembers : (fuel depth : Nat) → Str → Option (JsonMembers × Str)
  | 0, _, _ => none
  | fuel + 1, depth, s =>
    match s.dropWhile scanSpace with
    | 0x22 :: t =>
      match scanString t with
      | none => none
      | some (key, t) =>
        match t.dropWhile scanSpace with
        | 0x3A :: t =>
          match readValue fuel depth t with
          | none => none
          | some (value, t) =>
            match t.dropWhile scanSpace with
            | 0x7D :: rest => some (.cons (unquote key 0) value .nil, rest)
            | 0x2C :: u => (readMembers fuel depth u).map fun p => (.cons (unquote key 0) value p.1, p.2)
            | _ => none
        | _ => none
    | _ => none
end

/-- `checkValid`, scanner.go: the value of a whole text. -/
def parseJson (s : Str) : Option JsonVal :=
  match readValue (s.length + 1) 10000 s with
  | some (value, rest) => if rest.all scanSpace then some value else none
  | none => none

/-- `foldName`, fold.go, for names of ASCII characters: letters become upper case; the Kelvin sign and the long s are the only
other characters that are folded to ASCII characters. -/
def foldName : Str → Str
  | [] => []
  | 0xE2 :: 0x84 :: 0xAA :: t => 0x4B :: foldName t
  | 0xC5 :: 0xBF :: t => 0x53 :: foldName t
  | c :: t => (if 0x61 ≤ c ∧ c ≤ 0x7A then c - 0x20 else c) :: foldName t

/-- The field of a struct for a key, `object`, decode.go: the name, or the name with other letters. -/
def structField (names : List Str) (key : Str) : Option Str :=
  if key ∈ names then some key else names.find? fun n => decide (foldName n = foldName key)

/-- `literalStore` for a field of type string: the new value, and whether there is an error of the type. -/
def storeString (old : Str) : JsonVal → Str × Bool
  | .str s => (s, false)
  | .null => (old, false)
  | _ => (old, true)

/-- `object`, decode.go: all members one after the other; errors of types are remembered. -/
def storeMembers {α : Type} (names : List Str) (store : Str → JsonVal → α → α × Bool) : JsonMembers → α → α × Bool
  | .nil, x => (x, false)
  | .cons key value rest, x =>
    match structField names key with
    | none => storeMembers names store rest x
    | some name =>
      ((storeMembers names store rest (store name value x).1).1,
        (store name value x).2 || (storeMembers names store rest (store name value x).1).2)

/-- A value for a struct. -/
def storeStruct {α : Type} (names : List Str) (store : Str → JsonVal → α → α × Bool) (value : JsonVal) (x : α) : α × Bool :=
  match value with
  | .obj fields => storeMembers names store fields x
  | .null => (x, false)
  | _ => (x, true)

end Verif.Go
