import Verif.Spec.Json

/-!
# JSON that was written is read back
-/

namespace Verif.Lemmas
open Verif.Go Verif.Spec

theorem readString_escape {c : Byte} (h : c < 0x80) (rest : Str) :
    readString (jsonEscape c ++ rest) = (readString rest).map fun p => (c :: p.1, p.2) := by
  have hx : ∀ n : Fin 128, (UInt8.ofNat n.val < 0x20 ∨ UInt8.ofNat n.val = 0x3C ∨ UInt8.ofNat n.val = 0x3E ∨ UInt8.ofNat n.val = 0x26) →
      hexCode 0x30 0x30 (jsonHex (n.val / 16)) (jsonHex (n.val % 16)) = some n.val ∧ utf8 n.val = [UInt8.ofNat n.val] := by decide +kernel
  unfold jsonEscape
  split
  · rename_i h1
    rcases h1 with rfl | rfl <;> rfl
  · rename_i h1
    split
    · rename_i h2; subst h2; rfl
    split
    · rename_i h2; subst h2; rfl
    split
    · rename_i h2; subst h2; rfl
    split
    · rename_i h2; subst h2; rfl
    split
    · rename_i h2; subst h2; rfl
    have hlt : c.toNat < 128 := by
      have := UInt8.lt_iff_toNat_lt.mp h
      exact this
    split
    · rename_i h2
      have := hx ⟨c.toNat, hlt⟩ (by simpa using h2)
      simp only [UInt8.ofNat_toNat] at this
      simp only [List.cons_append, List.nil_append, readString, this.1, this.2]
    · rename_i h2
      rw [not_or] at h1 h2
      simp only [List.cons_append, List.nil_append]
      rw [readString.eq_def]
      split
      · rename_i heq; cases heq
      · rename_i heq; injection heq with e1 e2; exact absurd e1 h1.1
      · rename_i heq; injection heq with e1 e2; exact absurd e1 h1.2
      · rename_i heq; injection heq with e1 e2; exact absurd e1 h1.2
      · rename_i heq
        injection heq with e1 e2
        subst e1; subst e2
        rw [if_neg (by rw [not_or]; exact ⟨h2.1, h1.2⟩)]

theorem readString_copy {s : Str} (h : ∀ c ∈ s, 0x80 ≤ c) (rest : Str) :
    readString (s ++ rest) = (readString rest).map fun p => (s ++ p.1, p.2) := by
  induction s with
  | nil => simp
  | cons c s ih =>
    have hc := h c (by simp)
    have h1 : c ≠ 0x22 := by rintro rfl; revert hc; decide
    have h2 : c ≠ 0x5C := by rintro rfl; revert hc; decide
    have h3 : ¬ c < 0x20 := by
      intro h3
      rw [UInt8.lt_iff_toNat_lt] at h3
      rw [UInt8.le_iff_toNat_le] at hc
      have : (0x80 : Byte).toNat = 128 := rfl
      have : (0x20 : Byte).toNat = 32 := rfl
      omega
    rw [List.cons_append, readString.eq_def]
    split
    · rename_i heq; cases heq
    · rename_i heq; injection heq with e1 e2; exact absurd e1 h1
    · rename_i heq; injection heq with e1 e2; exact absurd e1 h2
    · rename_i heq; injection heq with e1 e2; exact absurd e1 h2
    · rename_i heq
      injection heq with e1 e2
      subst e1; subst e2
      rw [if_neg (by rw [not_or]; exact ⟨h3, h2⟩), ih (fun d hd => h d (by simp [hd]))]
      cases readString rest <;> rfl

theorem utf8_high {n : Nat} (hs : Scalar n) (h : 0x80 ≤ n) : ∀ c ∈ utf8 n, 0x80 ≤ c := by
  unfold Scalar at hs
  have key : ∀ m, 128 ≤ m → m < 256 → (0x80 : Byte) ≤ UInt8.ofNat m := by
    intro m h1 h2
    rw [UInt8.le_iff_toNat_le, toNat_ofNat h2]
    exact h1
  unfold utf8
  rw [if_neg (by omega)]
  split
  · intro c hc
    simp only [List.mem_cons, List.not_mem_nil, or_false] at hc
    rcases hc with rfl | rfl <;> apply key <;> omega
  split
  · intro c hc
    simp only [List.mem_cons, List.not_mem_nil, or_false] at hc
    rcases hc with rfl | rfl | rfl <;> apply key <;> omega
  · intro c hc
    simp only [List.mem_cons, List.not_mem_nil, or_false] at hc
    rcases hc with rfl | rfl | rfl | rfl <;> apply key <;> omega

theorem jsonChars_skip (s : Str) (n : Nat) : jsonChars s n = jsonChars (s.drop n) 0 := by
  induction s generalizing n with
  | nil => simp [jsonChars]
  | cons c t ih =>
    cases n with
    | zero => rfl
    | succ n => rw [jsonChars, ih, List.drop_succ_cons]

theorem jsonChars_utf8 {n : Nat} (hs : Scalar n) (h : 0x80 ≤ n) (rest : Str) :
    jsonChars (utf8 n ++ rest) 0 =
      (if n = 0x2028 then b!"\\u2028" else if n = 0x2029 then b!"\\u2029" else utf8 n) ++ jsonChars rest 0 := by
  obtain ⟨c, t, ht⟩ := List.exists_cons_of_ne_nil (utf8_ne_nil n)
  have hd := decodeRune_utf8 hs rest
  have hc : ¬ c < 0x80 := by
    have := utf8_high hs h c (by rw [ht]; simp)
    rw [UInt8.lt_iff_toNat_lt]
    rw [UInt8.le_iff_toNat_le] at this
    omega
  rw [ht] at hd ⊢
  rw [List.cons_append] at hd ⊢
  rw [jsonChars, if_neg hc, hd]
  simp only
  rw [jsonChars_skip]
  have e1 : (t ++ rest).drop ((c :: t).length - 1) = rest := by
    rw [List.length_cons, Nat.add_sub_cancel, List.drop_left]
  have e2 : (c :: (t ++ rest)).take (c :: t).length = c :: t := by
    rw [← List.cons_append, List.take_left]
  rw [e1, e2]

theorem readString_jsonChars {s : Str} (h : ValidText s) (rest : Str) :
    readString (jsonChars s 0 ++ 0x22 :: rest) = some (s, rest) := by
  obtain ⟨codes, hs, rfl⟩ := h
  induction codes with
  | nil => rfl
  | cons n codes ih =>
    have hn := hs n (by simp)
    have ih := ih (fun m hm => hs m (by simp [hm]))
    rw [List.flatMap_cons]
    by_cases h : n < 0x80
    · have e : utf8 n = [UInt8.ofNat n] := by unfold utf8; rw [if_pos h]
      have hc : UInt8.ofNat n < 0x80 := by rw [UInt8.lt_iff_toNat_lt, toNat_ofNat (by omega)]; exact h
      rw [e, List.singleton_append, jsonChars, if_pos hc, List.append_assoc, readString_escape hc, ih]
      rfl
    · rw [jsonChars_utf8 hn (by omega), List.append_assoc]
      split
      · rename_i h1; subst h1
        simp only [List.cons_append, List.nil_append]
        show (readString (jsonChars (List.flatMap utf8 codes) 0 ++ 34 :: rest)).map _ = _
        rw [ih]; rfl
      split
      · rename_i h1 h2; subst h2
        simp only [List.cons_append, List.nil_append]
        show (readString (jsonChars (List.flatMap utf8 codes) 0 ++ 34 :: rest)).map _ = _
        rw [ih]; rfl
      · rw [readString_copy (utf8_high hn (by omega)), ih]; rfl

theorem head?_append_left {l : Str} (h : l ≠ []) {t : Str} : (l ++ t).head? = l.head? := by
  cases l with
  | nil => exact absurd rfl h
  | cons c l => rfl

theorem decimal_head (n : Nat) (h : (decimal n).head? = some 0x30) : n = 0 := by
  induction n using Nat.strongRecOn with
  | _ n ih =>
    unfold decimal at h
    split at h
    · rename_i h1
      simp only [List.head?_cons, Option.some.injEq] at h
      have := digit_toNat h1
      rw [h] at this
      have e : (0x30 : Byte).toNat = 48 := rfl
      omega
    · rename_i h1
      rw [head?_append_left (decimal_ne_nil _)] at h
      have := ih (n / 10) (by omega) h
      omega

/-- What comes behind a value. -/
def Stop (rest : Str) : Prop := rest = [] ∨ ∃ c t, rest = c :: t ∧ (c = 0x2C ∨ c = 0x0A)

theorem Stop.noDigit {rest : Str} (h : Stop rest) : rest.takeWhile jsonDigit = [] ∧ rest.dropWhile jsonDigit = rest ∧
    rest.head? ∉ [some (0x2E : Byte), some 0x65, some 0x45] := by
  rcases h with rfl | ⟨c, t, rfl, rfl | rfl⟩
  · decide
  · exact ⟨rfl, rfl, by simp⟩
  · exact ⟨rfl, rfl, by simp⟩

theorem decimal_split (n : Nat) {rest : Str} (h : Stop rest) :
    (decimal n ++ rest).takeWhile jsonDigit = decimal n ∧ (decimal n ++ rest).dropWhile jsonDigit = rest := by
  have hd : ∀ c ∈ decimal n, jsonDigit c = true := by
    intro c hc
    have := decimal_digits n c hc
    simp [jsonDigit, this.1, this.2]
  constructor
  · rw [List.takeWhile_append_of_pos hd, h.noDigit.1, List.append_nil]
  · rw [List.dropWhile_append_of_pos hd, h.noDigit.2.1]

theorem decimal_ok (n : Nat) : ¬ (1 < (decimal n).length ∧ (decimal n).head? = some 0x30) := by
  rintro ⟨h1, h2⟩
  have := decimal_head n h2
  subst this
  revert h1
  decide +kernel

theorem readNumber_decimalInt (n : Int) {rest : Str} (h : Stop rest) :
    readNumber (decimalInt n ++ rest) = some (n, rest) := by
  cases n with
  | ofNat n =>
    have hneg : ((decimal n ++ rest).head? = some 0x2D) = False := by
      rw [head?_append_left (decimal_ne_nil _)]
      apply eq_false
      intro hx
      have := decimal_digits n 0x2D (List.mem_of_head? hx)
      revert this
      decide
    obtain ⟨e1, e2⟩ := decimal_split n h
    simp only [readNumber, decimalInt, hneg, if_false, e1, e2]
    rw [if_neg]
    · rw [undecimal_decimal]; rfl
    · rintro (hx | hx | hx)
      · exact decimal_ne_nil _ hx
      · exact decimal_ok n hx
      · exact h.noDigit.2.2 hx
  | negSucc n =>
    obtain ⟨e1, e2⟩ := decimal_split (n + 1) h
    simp only [readNumber, decimalInt, List.cons_append, List.head?_cons, if_true, List.tail_cons, e1, e2]
    rw [if_neg]
    · rw [undecimal_decimal]; rfl
    · rintro (hx | hx | hx)
      · exact decimal_ne_nil _ hx
      · exact decimal_ok _ hx
      · exact h.noDigit.2.2 hx

theorem dropWhile_spaces {ws : Str} (h : ∀ c ∈ ws, jsonSpace c = true) {c : Byte} (hc : jsonSpace c = false) (t : Str) :
    (ws ++ c :: t).dropWhile jsonSpace = c :: t := by
  rw [List.dropWhile_append_of_pos h, List.dropWhile_cons_of_neg (by simp [hc])]

theorem encodeJson_ne_nil (indent : Str) (v : Json) : encodeJson indent v ≠ [] := by
  cases v with
  | null => simp [encodeJson]
  | num n => cases n <;> simp [encodeJson, decimalInt, decimal_ne_nil]
  | str s => simp [encodeJson, jsonString]
  | obj fields => cases fields <;> simp [encodeJson]

theorem decimalInt_cons (n : Int) : ∃ c t, decimalInt n = c :: t ∧ (c = 0x2D ∨ (48 ≤ c ∧ c ≤ 57)) := by
  cases n with
  | ofNat n =>
    obtain ⟨c, t, h⟩ := List.exists_cons_of_ne_nil (decimal_ne_nil n)
    exact ⟨c, t, h, .inr (decimal_digits n c (by rw [h]; simp))⟩
  | negSucc n => exact ⟨_, _, rfl, .inl rfl⟩

theorem numberStart {c : Byte} (h : c = 0x2D ∨ (48 ≤ c ∧ c ≤ 57)) :
    jsonSpace c = false ∧ c ≠ 0x22 ∧ c ≠ 0x6E ∧ c ≠ 0x7B := by
  have : ∀ n : Fin 256, (UInt8.ofNat n.val = 0x2D ∨ (48 ≤ UInt8.ofNat n.val ∧ UInt8.ofNat n.val ≤ 57)) →
      jsonSpace (UInt8.ofNat n.val) = false ∧ UInt8.ofNat n.val ≠ 0x22 ∧ UInt8.ofNat n.val ≠ 0x6E ∧ UInt8.ofNat n.val ≠ 0x7B := by
    decide +kernel
  simpa using this ⟨c.toNat, c.toNat_lt⟩ (by simpa using h)

theorem readFields_spaces {ws : Str} (h : ∀ c ∈ ws, jsonSpace c = true) (fuel : Nat) (s : Str) :
    readFields fuel (ws ++ s) = readFields fuel s := by
  cases fuel with
  | zero => simp only [readFields]
  | succ fuel => simp only [readFields, List.dropWhile_append_of_pos h]

theorem stop_newline (t : Str) : Stop (0x0A :: t) := .inr ⟨_, _, rfl, .inr rfl⟩
theorem stop_comma (t : Str) : Stop (0x2C :: t) := .inr ⟨_, _, rfl, .inl rfl⟩

/-- A value that was written is read back, with white space in front of it. -/
theorem read_encode (fuel : Nat) :
    (∀ (v : Json) (indent ws rest : Str), (encodeJson indent v).length ≤ fuel → ValidJson v → Stop rest →
      (∀ c ∈ indent, jsonSpace c = true) → (∀ c ∈ ws, jsonSpace c = true) →
      readJson fuel (ws ++ (encodeJson indent v ++ rest)) = some (v, rest)) ∧
    (∀ (key : Str) (v : Json) (fs : Fields) (indent ws after rest : Str), (encodeFields indent (.cons key v fs)).length ≤ fuel →
      ValidFields (.cons key v fs) →
      (∀ c ∈ indent, jsonSpace c = true) → (∀ c ∈ ws, jsonSpace c = true) → (∀ c ∈ after, jsonSpace c = true) →
      readFields fuel (ws ++ (encodeFields indent (.cons key v fs) ++ (0x0A :: (after ++ 0x7D :: rest)))) =
        some (.cons key v fs, rest)) := by
  induction fuel with
  | zero =>
    constructor
    · intro v indent ws rest h
      exact absurd (List.length_eq_zero_iff.mp (Nat.le_zero.mp h)) (encodeJson_ne_nil _ _)
    · intro key v fs indent ws after rest h
      exfalso
      cases fs <;> simp [encodeFields, jsonString] at h
  | succ fuel ih =>
    constructor
    · intro v indent ws rest hl hv hr hi hw
      cases v with
      | null =>
        simp only [encodeJson, List.cons_append, List.nil_append, readJson]
        rw [dropWhile_spaces hw (by decide)]
        rfl
      | num n =>
        obtain ⟨c, t, e, hc⟩ := decimalInt_cons n
        obtain ⟨h1, h2, h3, h4⟩ := numberStart hc
        have hn := readNumber_decimalInt n hr
        simp only [encodeJson, readJson]
        rw [e, List.cons_append] at hn ⊢
        rw [dropWhile_spaces hw h1]
        split
        · rename_i heq; injection heq with e1 e2; exact absurd e1 h2
        · rename_i heq; injection heq with e1 e2; exact absurd e1 h3
        · rename_i heq; injection heq with e1 e2; exact absurd e1 h4
        · rw [hn]; rfl
      | str s =>
        simp only [encodeJson, jsonString, List.cons_append, List.nil_append, List.append_assoc, readJson]
        rw [dropWhile_spaces hw (by decide)]
        simp only
        rw [readString_jsonChars hv]
        rfl
      | obj fields =>
        cases fields with
        | nil =>
          simp only [encodeJson, List.cons_append, List.nil_append, readJson]
          rw [dropWhile_spaces hw (by decide)]
          simp only
          rw [List.dropWhile_cons_of_neg (by decide)]
          rfl
        | cons key v fs =>
          have hf := ih.2 key v fs (indent ++ b!"  ") [] indent rest
            (by simp only [encodeJson, List.length_append, List.length_cons] at hl; omega) hv
            (by intro c hc; rcases List.mem_append.mp hc with h | h
                · exact hi c h
                · clear hc; revert c; decide) (by simp) hi
          have hq : ∃ t, encodeFields (indent ++ b!"  ") (.cons key v fs) = (indent ++ b!"  ") ++ 0x22 :: t := by
            cases fs with
            | nil => exact ⟨_, by simp only [encodeFields, jsonString, List.append_assoc, List.cons_append, List.nil_append]; rfl⟩
            | cons _ _ _ => exact ⟨_, by simp only [encodeFields, jsonString, List.append_assoc, List.cons_append, List.nil_append]; rfl⟩
          obtain ⟨t, ht⟩ := hq
          simp only [encodeJson, List.cons_append, List.nil_append, List.append_assoc, readJson]
          rw [dropWhile_spaces hw (by decide)]
          simp only
          have hi2 : ∀ c ∈ (0x0A :: (indent ++ b!"  ") : Str), jsonSpace c = true := by
            intro c hc
            rcases List.mem_cons.mp hc with rfl | hc
            · decide
            rcases List.mem_append.mp hc with h | h
            · exact hi c h
            · rename_i hcc; clear hcc hc; revert c; decide
          have hd := dropWhile_spaces hi2 (c := 0x22) (by decide) (t ++ (0x0A :: (indent ++ 0x7D :: rest)))
          simp only [List.cons_append, List.nil_append, List.append_assoc] at hd ht hf
          rw [ht] at hf ⊢
          simp only [List.cons_append, List.nil_append, List.append_assoc] at hf ⊢
          rw [hd]
          have hf' := readFields_spaces (ws := indent ++ b!"  ") (fun c hc => hi2 c (by simp [hc])) fuel
            (0x22 :: (t ++ (0x0A :: (indent ++ 0x7D :: rest))))
          simp only [List.cons_append, List.nil_append, List.append_assoc] at hf'
          rw [hf'] at hf
          show (readFields _ _).map _ = _
          rw [hf]
          rfl
    · intro key v fs indent ws after rest hl hv hi hw ha
      obtain ⟨hk, hv, hfs⟩ := hv
      have hsp : ∀ c ∈ ([0x20] : Str), jsonSpace c = true := by decide
      cases fs with
      | nil =>
        have h1 := ih.1 v indent [0x20] (0x0A :: (after ++ 0x7D :: rest))
          (by simp only [encodeFields, List.length_append, List.length_cons] at hl; omega) hv (stop_newline _) hi hsp
        rw [readFields_spaces hw]
        simp only [encodeFields, jsonString, List.append_assoc, List.cons_append, List.nil_append] at h1 ⊢
        rw [readFields_spaces hi]
        simp only [readFields]
        rw [List.dropWhile_cons_of_neg (by decide)]
        simp only
        rw [readString_jsonChars hk]
        simp only
        rw [List.dropWhile_cons_of_neg (by decide)]
        simp only
        rw [h1]
        simp only
        have h2 := dropWhile_spaces (ws := 0x0A :: after) (by
          intro c hc
          rcases List.mem_cons.mp hc with rfl | hc
          · decide
          · exact ha c hc) (c := 0x7D) (by decide) rest
        rw [List.cons_append] at h2
        rw [h2]
        rfl
      | cons key' v' fs' =>
        have h1 := ih.1 v indent [0x20] (0x2C :: (0x0A :: (encodeFields indent (.cons key' v' fs') ++ (0x0A :: (after ++ 0x7D :: rest)))))
          (by simp only [encodeFields, List.length_append, List.length_cons] at hl; omega) hv (stop_comma _) hi hsp
        have h3 := ih.2 key' v' fs' indent [0x0A] after rest
          (by rw [encodeFields] at hl; simp only [List.length_append, List.length_cons] at hl; omega) hfs hi (by decide) ha
        rw [readFields_spaces hw, encodeFields]
        simp only [jsonString, List.append_assoc, List.cons_append, List.nil_append] at h1 h3 ⊢
        rw [readFields_spaces hi]
        simp only [readFields]
        rw [List.dropWhile_cons_of_neg (by decide)]
        simp only
        rw [readString_jsonChars hk]
        simp only
        rw [List.dropWhile_cons_of_neg (by decide)]
        simp only
        rw [h1]
        simp only
        rw [List.dropWhile_cons_of_neg (by decide)]
        simp only
        rw [h3]
        rfl

/-- The JSON text of a value is read back. -/
theorem jsonText_encode {v : Json} (h : ValidJson v) (after : Str) (ha : after = [] ∨ after = b!"\n") :
    jsonText (encodeJson [] v ++ after) = some v := by
  have := (read_encode ((encodeJson [] v ++ after).length + 1)).1 v [] [] after (by simp; omega) h
    (by rcases ha with rfl | rfl
        · exact .inl rfl
        · exact stop_newline _) (by simp) (by simp)
  rw [List.nil_append] at this
  rw [jsonText, this]
  simp only
  rw [if_pos]
  rcases ha with rfl | rfl <;> decide

end Verif.Lemmas
