import Verif.Go.Bytes

/-!
# UTF-8

Go: package unicode/utf8.
-/

namespace Verif.Go

/-- The UTF-8 code of a code point. -/
def utf8 (n : Nat) : Str :=
  if n < 0x80 then [UInt8.ofNat n]
  else if n < 0x800 then [UInt8.ofNat (0xC0 + n / 64), UInt8.ofNat (0x80 + n % 64)]
  else if n < 0x10000 then [UInt8.ofNat (0xE0 + n / 4096), UInt8.ofNat (0x80 + n / 64 % 64), UInt8.ofNat (0x80 + n % 64)]
  else [UInt8.ofNat (0xF0 + n / 262144), UInt8.ofNat (0x80 + n / 4096 % 64), UInt8.ofNat (0x80 + n / 64 % 64),
    UInt8.ofNat (0x80 + n % 64)]

/-- The code points that have a code: no surrogates. -/
def Scalar (n : Nat) : Prop := n < 0xD800 ∨ (0xDFFF < n ∧ n < 0x110000)

instance (n : Nat) : Decidable (Scalar n) := by unfold Scalar; infer_instance

/-- A byte that continues a code. -/
def continues (c : Byte) : Bool := 0x80 ≤ c && c ≤ 0xBF

/-- `utf8.DecodeRuneInString`: the first code point and the length of its code; `none`: the text does not begin with the code
of a code point (Go then returns U+FFFD and the length 1, or 0 at the end of the text). -/
def decodeRune : Str → Option (Nat × Nat)
  | [] => none
  | a :: t =>
    if a < 0x80 then some (a.toNat, 1)
    else if 0xC2 ≤ a && a ≤ 0xDF then
      match t with
      | b :: _ => if continues b then some ((a.toNat - 0xC0) * 64 + (b.toNat - 0x80), 2) else none
      | _ => none
    else if 0xE0 ≤ a && a ≤ 0xEF then
      match t with
      | b :: c :: _ =>
        if continues b && continues c && (a ≠ 0xE0 || 0xA0 ≤ b) && (a ≠ 0xED || b ≤ 0x9F) then
          some ((a.toNat - 0xE0) * 4096 + (b.toNat - 0x80) * 64 + (c.toNat - 0x80), 3)
        else none
      | _ => none
    else if 0xF0 ≤ a && a ≤ 0xF4 then
      match t with
      | b :: c :: d :: _ =>
        if continues b && continues c && continues d && (a ≠ 0xF0 || 0x90 ≤ b) && (a ≠ 0xF4 || b ≤ 0x8F) then
          some ((a.toNat - 0xF0) * 262144 + (b.toNat - 0x80) * 4096 + (c.toNat - 0x80) * 64 + (d.toNat - 0x80), 4)
        else none
      | _ => none
    else none

/-- `[]rune(s)`: bytes that do not belong to a code point become U+FFFD. `skip` is the number of bytes of the last code point
that are still to be skipped. -/
def runesFrom : Str → (skip : Nat) → List Nat
  | [], _ => []
  | _ :: t, skip + 1 => runesFrom t skip
  | c :: t, 0 =>
    match decodeRune (c :: t) with
    | some (n, len) => n :: runesFrom t (len - 1)
    | none => 0xFFFD :: runesFrom t 0

def runes (s : Str) : List Nat := runesFrom s 0

theorem toNat_ofNat {n : Nat} (h : n < 256) : (UInt8.ofNat n).toNat = n := by
  simp [UInt8.toNat_ofNat', Nat.mod_eq_of_lt h]

theorem ofNat_le {a : Byte} {n : Nat} (h : n < 256) : a ≤ UInt8.ofNat n ↔ a.toNat ≤ n := by
  rw [UInt8.le_iff_toNat_le, toNat_ofNat h]

theorem le_ofNat {a : Byte} {n : Nat} (h : n < 256) : UInt8.ofNat n ≤ a ↔ n ≤ a.toNat := by
  rw [UInt8.le_iff_toNat_le, toNat_ofNat h]

theorem ofNat_lt {a : Byte} {n : Nat} (h : n < 256) : UInt8.ofNat n < a ↔ n < a.toNat := by
  rw [UInt8.lt_iff_toNat_lt, toNat_ofNat h]

theorem ofNat_eq {a : Byte} {n : Nat} (h : n < 256) : UInt8.ofNat n = a ↔ n = a.toNat := by
  rw [← UInt8.toNat_inj, toNat_ofNat h]

theorem continues_ofNat {n : Nat} : continues (UInt8.ofNat (0x80 + n % 64)) = true := by
  unfold continues
  have h : 0x80 + n % 64 < 256 := by omega
  simp only [Bool.and_eq_true, decide_eq_true_eq, ofNat_le h, le_ofNat h]
  constructor
  · show 128 ≤ _; omega
  · show _ ≤ 191; omega

theorem decodeRune_utf8 {n : Nat} (h : Scalar n) (rest : Str) :
    decodeRune (utf8 n ++ rest) = some (n, (utf8 n).length) := by
  unfold Scalar at h
  unfold utf8
  split
  · rename_i h1
    have hb : n < 256 := by omega
    simp only [List.cons_append, List.nil_append, decodeRune, ofNat_lt hb, toNat_ofNat hb]
    rw [if_pos (by exact h1)]
    rfl
  · rename_i h1
    split
    · rename_i h2
      have hb : 0xC0 + n / 64 < 256 := by omega
      have hb2 : 0x80 + n % 64 < 256 := by omega
      simp only [List.cons_append, List.nil_append, decodeRune, ofNat_lt hb, le_ofNat hb, ofNat_le hb, toNat_ofNat hb,
        toNat_ofNat hb2, continues_ofNat, Bool.and_eq_true, decide_eq_true_eq]
      rw [if_neg (by show ¬ _ < 128; omega), if_pos (by constructor; (show 194 ≤ _; omega); (show _ ≤ 223; omega))]
      simp only [List.length_cons, List.length_nil, Option.some.injEq, Prod.mk.injEq, if_true]
      constructor
      · omega
      · trivial
    · rename_i h2
      split
      · rename_i h3
        have hb : 0xE0 + n / 4096 < 256 := by omega
        have hb2 : 0x80 + n % 64 < 256 := by omega
        have hb3 : 0x80 + n / 64 % 64 < 256 := by omega
        simp only [List.cons_append, List.nil_append, decodeRune, ofNat_lt hb, le_ofNat hb, ofNat_le hb, toNat_ofNat hb,
          toNat_ofNat hb2, toNat_ofNat hb3, continues_ofNat, Bool.and_eq_true, decide_eq_true_eq, Bool.or_eq_true, ne_eq,
          ofNat_eq hb, ofNat_le hb3, le_ofNat hb3, Bool.true_and]
        rw [if_neg (by show ¬ _ < 128; omega), if_neg (by intro hx; have : 224 + n / 4096 ≤ 223 := hx.2; omega),
          if_pos (by constructor; (show 224 ≤ _; omega); (show _ ≤ 239; omega)), if_pos]
        · simp only [List.length_cons, List.length_nil, Option.some.injEq, Prod.mk.injEq]
          constructor
          · omega
          · trivial
        · refine ⟨?_, ?_⟩
          · by_cases he : 224 + n / 4096 = 224
            · right; show 160 ≤ _; omega
            · left; exact he
          · by_cases he : 224 + n / 4096 = 237
            · right; show _ ≤ 159; omega
            · left; exact he
      · rename_i h3
        have hb : 0xF0 + n / 262144 < 256 := by omega
        have hb2 : 0x80 + n % 64 < 256 := by omega
        have hb3 : 0x80 + n / 64 % 64 < 256 := by omega
        have hb4 : 0x80 + n / 4096 % 64 < 256 := by omega
        simp only [List.cons_append, List.nil_append, decodeRune, ofNat_lt hb, le_ofNat hb, ofNat_le hb, toNat_ofNat hb,
          toNat_ofNat hb2, toNat_ofNat hb3, toNat_ofNat hb4, continues_ofNat, Bool.and_eq_true, decide_eq_true_eq, Bool.or_eq_true, ne_eq,
          ofNat_eq hb, ofNat_le hb4, le_ofNat hb4, Bool.true_and]
        rw [if_neg (by show ¬ _ < 128; omega), if_neg (by intro hx; have : 240 + n / 262144 ≤ 223 := hx.2; omega),
          if_neg (by intro hx; have : 240 + n / 262144 ≤ 239 := hx.2; omega),
          if_pos (by constructor; (show 240 ≤ _; omega); (show _ ≤ 244; omega)), if_pos]
        · simp only [List.length_cons, List.length_nil, Option.some.injEq, Prod.mk.injEq]
          constructor
          · omega
          · trivial
        · refine ⟨?_, ?_⟩
          · by_cases he : 240 + n / 262144 = 240
            · right; show 144 ≤ _; omega
            · left; exact he
          · by_cases he : 240 + n / 262144 = 244
            · right; show _ ≤ 143; omega
            · left; exact he

theorem utf8_ne_nil (n : Nat) : utf8 n ≠ [] := by
  unfold utf8
  repeat' split
  all_goals exact List.cons_ne_nil _ _

theorem runesFrom_skip (s : Str) (n : Nat) : runesFrom s n = runesFrom (s.drop n) 0 := by
  induction s generalizing n with
  | nil => simp [runesFrom]
  | cons c t ih =>
    cases n with
    | zero => rfl
    | succ n => rw [runesFrom, ih, List.drop_succ_cons]

/-- The runes of a text are its code points. -/
theorem runes_flatMap {codes : List Nat} (h : ∀ n ∈ codes, Scalar n) : runes (codes.flatMap utf8) = codes := by
  induction codes with
  | nil => rfl
  | cons n codes ih =>
    rw [List.flatMap_cons]
    obtain ⟨c, t, ht⟩ := List.exists_cons_of_ne_nil (utf8_ne_nil n)
    have hd := decodeRune_utf8 (h n (by simp)) (codes.flatMap utf8)
    unfold runes at *
    rw [ht] at hd ⊢
    rw [List.cons_append] at hd ⊢
    rw [runesFrom, hd]
    simp only
    rw [runesFrom_skip]
    have : (t ++ codes.flatMap utf8).drop ((c :: t).length - 1) = codes.flatMap utf8 := by
      rw [List.length_cons, Nat.add_sub_cancel, List.drop_left]
    rw [this, ih (fun m hm => h m (by simp [hm]))]

end Verif.Go
