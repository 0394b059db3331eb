import Verif.Go.Digest
import Mathlib.Data.List.Basic

/-!
# Facts about hexadecimal representations and sums
-/

namespace Verif.Lemmas
open Verif.Go

/-- The hexadecimal digits. -/
def hexDigits : Str := b!"0123456789abcdef"

theorem nat_of_hex : ∀ n : Fin 16, sumDigit (UInt8.ofNat n.val) ∈ hexDigits := by decide

theorem sumDigit_high : ∀ n : Fin 256, sumDigit (UInt8.ofNat n.val >>> 4) ∈ hexDigits := by decide +kernel
theorem sumDigit_low : ∀ n : Fin 256, sumDigit (UInt8.ofNat n.val &&& 15) ∈ hexDigits := by decide +kernel

/-- The byte that two hexadecimal digits mean. -/
def unhexPair (a b : Byte) : Byte :=
  let d (c : Byte) : Byte := if c < 58 then c - 48 else c - 87
  (d a <<< 4) ||| d b

theorem unhexPair_digits : ∀ n : Fin 256,
    unhexPair (sumDigit (UInt8.ofNat n.val >>> 4)) (sumDigit (UInt8.ofNat n.val &&& 15)) = UInt8.ofNat n.val := by decide +kernel

theorem byte_of_fin (c : Byte) : ∃ n : Fin 256, c = UInt8.ofNat n.val := ⟨⟨c.toNat, c.toNat_lt⟩, by simp⟩

theorem hexEncode_cons (c : Byte) (s : Str) :
    hexEncode (c :: s) = sumDigit (c >>> 4) :: sumDigit (c &&& 15) :: hexEncode s := rfl

theorem hexEncode_mem {s : Str} {d : Byte} (h : d ∈ hexEncode s) : d ∈ hexDigits := by
  unfold hexEncode at h
  obtain ⟨c, -, hc⟩ := List.mem_flatMap.mp h
  obtain ⟨n, rfl⟩ := byte_of_fin c
  rcases List.mem_cons.mp hc with rfl | hc
  · exact sumDigit_high n
  · rw [List.mem_singleton] at hc
    exact hc ▸ sumDigit_low n

theorem hexEncode_length (s : Str) : (hexEncode s).length = 2 * s.length := by
  induction s with
  | nil => rfl
  | cons c s ih => rw [hexEncode_cons, List.length_cons, List.length_cons, List.length_cons, ih]; omega

theorem hexEncode_injective {s t : Str} (h : hexEncode s = hexEncode t) : s = t := by
  induction s generalizing t with
  | nil => cases t with
    | nil => rfl
    | cons => simp [hexEncode] at h
  | cons c s ih => cases t with
    | nil => simp [hexEncode] at h
    | cons d t =>
      rw [hexEncode_cons, hexEncode_cons] at h
      injection h with h1 h
      injection h with h2 h
      obtain ⟨n, rfl⟩ := byte_of_fin c
      obtain ⟨m, rfl⟩ := byte_of_fin d
      rw [← unhexPair_digits n, ← unhexPair_digits m, h1, h2, ih h]

theorem sha1_length (s : Str) : (sha1 s).length = 20 := by
  unfold sha1
  simp [wordBE]

theorem md5_length (s : Str) : (md5 s).length = 16 := by
  unfold md5
  simp [wordLE, wordBE]

theorem sha1hex_length (s : Str) : (sha1hex s).length = 40 := by
  unfold sha1hex; rw [hexEncode_length, sha1_length]

theorem md5hex_length (s : Str) : (md5hex s).length = 32 := by
  unfold md5hex; rw [hexEncode_length, md5_length]

end Verif.Lemmas
