import Verif.Go.Bytes

/-!
Escaping functions of `net/url`.
-/

namespace Verif.Go

/-- Upper case hexadecimal digit. -/
def hexDigit (n : Nat) : Byte := UInt8.ofNat (if n < 10 then 48 + n else 55 + n)

/-- `%XX`. -/
def percentByte (c : Byte) : Str := [0x25, hexDigit (c.toNat / 16), hexDigit (c.toNat % 16)]

def isLetterOrDigit (c : Byte) : Bool :=
  (48 ≤ c && c ≤ 57) || (65 ≤ c && c ≤ 90) || (97 ≤ c && c ≤ 122)

/-- Never escaped: letters, digits and `-_.~`. -/
def unreserved (c : Byte) : Bool := isLetterOrDigit c || c == 0x2D || c == 0x5F || c == 0x2E || c == 0x7E

/-- `url.QueryEscape`. -/
def queryEscape (s : Str) : Str :=
  s.flatMap fun c => if unreserved c then [c] else if c = 0x20 then [0x2B] else percentByte c

/-- `url.PathEscape`: additionally `$&+=:@` stay unchanged, and a space becomes `%20`. -/
def pathEscape (s : Str) : Str :=
  s.flatMap fun c =>
    if unreserved c || c == 0x24 || c == 0x26 || c == 0x2B || c == 0x3D || c == 0x3A || c == 0x40 then [c]
    else percentByte c

/-- Value of a hexadecimal digit. -/
def unhex (c : Byte) : Option Nat :=
  if 48 ≤ c && c ≤ 57 then some (c.toNat - 48)
  else if 65 ≤ c && c ≤ 70 then some (c.toNat - 55)
  else if 97 ≤ c && c ≤ 102 then some (c.toNat - 87)
  else none

/-- Percent decoding (`url.PathUnescape`, and `url.QueryUnescape` with `plus = true`). -/
def urlDecode (plus : Bool) : Str → Option Str
  | [] => some []
  | 0x25 :: a :: b :: t =>
    match unhex a, unhex b, urlDecode plus t with
    | some x, some y, some r => some (UInt8.ofNat (16 * x + y) :: r)
    | _, _, _ => none
  | 0x25 :: _ => none
  | c :: t =>
    match urlDecode plus t with
    | some r => some ((if plus && c == 0x2B then 0x20 else c) :: r)
    | none => none

theorem unhex_hexDigit : ∀ n : Fin 16, unhex (hexDigit n) = some n.val := by decide

theorem urlDecode_percentByte (plus : Bool) (c : Byte) (t : Str) :
    urlDecode plus (percentByte c ++ t) = (urlDecode plus t).map (c :: ·) := by
  have hc := c.toNat_lt
  have h1 := unhex_hexDigit ⟨c.toNat / 16, by omega⟩
  have h2 := unhex_hexDigit ⟨c.toNat % 16, by omega⟩
  simp only at h1 h2
  unfold percentByte
  show urlDecode plus (0x25 :: _ :: _ :: t) = _
  rw [urlDecode, h1, h2]
  have : UInt8.ofNat (16 * (c.toNat / 16) + c.toNat % 16) = c := by
    rw [Nat.div_add_mod]; simp
  cases urlDecode plus t with
  | none => rfl
  | some r => simp [this]

theorem urlDecode_cons (plus : Bool) {c : Byte} (hc : c ≠ 0x25) (t : Str) :
    urlDecode plus (c :: t) = (urlDecode plus t).map ((if plus && c == 0x2B then 0x20 else c) :: ·) := by
  rw [urlDecode]
  · cases urlDecode plus t <;> rfl
  · intro a b _ h _; exact hc h
  · intro h; exact hc h

theorem unreserved_ne {c : Byte} (h : unreserved c = true) : c ≠ 0x25 ∧ c ≠ 0x2B := by
  constructor <;> (rintro rfl; exact absurd h (by decide))

/-- Decoding inverts escaping. -/
theorem urlDecode_queryEscape (s : Str) : urlDecode true (queryEscape s) = some s := by
  induction s with
  | nil => rfl
  | cons c s ih =>
    have hq : queryEscape (c :: s) =
        (if unreserved c then [c] else if c = 0x20 then [0x2B] else percentByte c) ++ queryEscape s := rfl
    rw [hq]
    split
    · rename_i h
      obtain ⟨h1, h2⟩ := unreserved_ne h
      rw [List.singleton_append, urlDecode_cons true h1, ih]
      simp [h2]
    · split
      · rename_i h
        subst h
        rw [List.singleton_append, urlDecode_cons true (by decide), ih]
        rfl
      · rw [urlDecode_percentByte, ih]; rfl

theorem queryEscape_injective {a b : Str} (h : queryEscape a = queryEscape b) : a = b := by
  have := urlDecode_queryEscape a
  rw [h, urlDecode_queryEscape] at this
  exact (Option.some.inj this).symm

theorem urlDecode_pathEscape (s : Str) : urlDecode false (pathEscape s) = some s := by
  induction s with
  | nil => rfl
  | cons c s ih =>
    have hq : pathEscape (c :: s) =
        (if unreserved c || c == 0x24 || c == 0x26 || c == 0x2B || c == 0x3D || c == 0x3A || c == 0x40 then [c]
          else percentByte c) ++ pathEscape s := rfl
    rw [hq]
    split
    · rename_i h
      have h1 : c ≠ 0x25 := by rintro rfl; exact absurd h (by decide)
      rw [List.singleton_append, urlDecode_cons false h1, ih]
      simp
    · rw [urlDecode_percentByte, ih]; rfl

end Verif.Go
