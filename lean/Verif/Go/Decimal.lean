import Verif.Go.Bytes

/-!
Decimal representation of numbers (`%d`, `strconv.Itoa`).
-/

namespace Verif.Go

/-- Decimal digits of a natural number. -/
def decimal (n : Nat) : Str :=
  if n < 10 then [UInt8.ofNat (48 + n)] else decimal (n / 10) ++ [UInt8.ofNat (48 + n % 10)]

/-- `%d` of an integer. -/
def decimalInt : Int → Str
  | .ofNat n => decimal n
  | .negSucc n => 0x2D :: decimal (n + 1)

/-- Value of a string of decimal digits. -/
def undecimal (s : Str) : Nat := s.foldl (fun acc c => acc * 10 + (c.toNat - 48)) 0

theorem digit_toNat {k : Nat} (h : k < 10) : (UInt8.ofNat (48 + k)).toNat = 48 + k := by
  have : 48 + k < 256 := by omega
  simp [UInt8.toNat_ofNat', Nat.mod_eq_of_lt this]

theorem decimal_ne_nil (n : Nat) : decimal n ≠ [] := by
  unfold decimal; split <;> simp

theorem decimal_digits (n : Nat) : ∀ c ∈ decimal n, 48 ≤ c ∧ c ≤ 57 := by
  induction n using Nat.strongRecOn with
  | _ n ih =>
    have dig : ∀ k, k < 10 → 48 ≤ UInt8.ofNat (48 + k) ∧ UInt8.ofNat (48 + k) ≤ 57 := by
      intro k hk
      have := digit_toNat hk
      constructor
      · rw [UInt8.le_iff_toNat_le, this]; show 48 ≤ _; omega
      · rw [UInt8.le_iff_toNat_le, this]; show _ ≤ 57; omega
    unfold decimal
    split
    · rename_i h
      intro c hc
      rw [List.mem_singleton] at hc
      subst hc
      exact dig n h
    · intro c hc
      rcases List.mem_append.mp hc with hc | hc
      · exact ih (n / 10) (by omega) c hc
      · rw [List.mem_singleton] at hc
        subst hc
        exact dig _ (Nat.mod_lt _ (by omega))

theorem undecimal_decimal (n : Nat) : undecimal (decimal n) = n := by
  induction n using Nat.strongRecOn with
  | _ n ih =>
    unfold decimal
    split
    · rename_i h
      simp [undecimal]
      omega
    · have h := ih (n / 10) (by omega)
      unfold undecimal at h ⊢
      rw [List.foldl_append, h]
      have := digit_toNat (Nat.mod_lt n (show 0 < 10 by omega))
      simp only [List.foldl_cons, List.foldl_nil, this]
      omega

theorem decimal_injective {m n : Nat} (h : decimal m = decimal n) : m = n := by
  rw [← undecimal_decimal m, h, undecimal_decimal]

end Verif.Go
