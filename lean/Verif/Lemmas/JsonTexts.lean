import Verif.Lemmas.Answers

/-!
# The texts of answers are valid, and an answer that was cut off is none
-/

namespace Verif.Lemmas
open Verif.Go Verif.Spec Verif.Model

theorem validText_nil : ValidText [] := ⟨[], by simp, rfl⟩

theorem validText_utf8 {n : Nat} (h : Scalar n) : ValidText (utf8 n) := ⟨[n], by simpa using h, by simp⟩

theorem validText_append {s t : Str} (hs : ValidText s) (ht : ValidText t) : ValidText (s ++ t) := by
  obtain ⟨a, ha, rfl⟩ := hs
  obtain ⟨b, hb, rfl⟩ := ht
  exact ⟨a ++ b, fun n hn => (List.mem_append.mp hn).elim (ha n) (hb n), by simp⟩

theorem validText_asciiChars {c : Byte} (h : c < 0x80) : ValidText [c] := by
  have hlt : c.toNat < 128 := UInt8.lt_iff_toNat_lt.mp h
  have : [c] = utf8 c.toNat := by unfold utf8; rw [if_pos hlt, UInt8.ofNat_toNat]
  rw [this]
  exact validText_utf8 (.inl (by omega))

theorem hexByte_lt (c : Byte) {x : Nat} (h : hexByte c = some x) : x < 16 := by
  revert x
  revert c
  apply byte_forall
  have : ∀ n : Fin 256, (hexByte (UInt8.ofNat n.val)).all (· < 16) = true := by decide +kernel
  intro n x h
  have := this n
  rw [h] at this
  simpa using this

theorem getu4_lt {a b c d : Byte} {n : Nat} (h : getu4 a b c d = some n) : n < 0x10000 := by
  unfold getu4 at h
  split at h
  · rename_i h1 h2 h3 h4
    have := hexByte_lt _ h1
    have := hexByte_lt _ h2
    have := hexByte_lt _ h3
    have := hexByte_lt _ h4
    injection h with h
    omega
  · cases h

theorem secondHalf_scalar {n m : Nat} {t : Str} (h : secondHalf n t = some m) : Scalar m := by
  unfold secondHalf at h
  split at h
  · split at h
    · unfold decodeSurrogates at h
      split at h
      · injection h with h
        right
        omega
      · cases h
    · cases h
  · cases h

theorem unescape_valid (t : Str) : ValidText (unescape t).1 := by
  unfold unescape
  split
  · split
    · exact validText_nil
    · rename_i n hg
      split
      · split
        · rename_i hs
          exact validText_utf8 (secondHalf_scalar hs)
        · exact validText_utf8 (n := 0xFFFD) (by decide)
      · rename_i hs
        have := getu4_lt hg
        refine validText_utf8 ?_
        unfold isSurrogate at hs
        simp only [Bool.and_eq_true, decide_eq_true_eq] at hs
        unfold Scalar
        omega
  all_goals first | exact validText_nil | exact validText_asciiChars (by decide)

theorem decodeRune_scalar {s : Str} {n len : Nat} (h : decodeRune s = some (n, len)) : Scalar n := by
  have cont : ∀ c : Byte, continues c = true → 128 ≤ c.toNat ∧ c.toNat ≤ 191 := by
    intro c hc
    unfold continues at hc
    simp only [Bool.and_eq_true, decide_eq_true_eq, UInt8.le_iff_toNat_le] at hc
    exact hc
  unfold decodeRune at h
  split at h
  · cases h
  · rename_i a t
    split at h
    · rename_i ha
      injection h with h; injection h with h _
      have : a.toNat < 128 := UInt8.lt_iff_toNat_lt.mp ha
      left; omega
    split at h
    · rename_i ha
      simp only [Bool.and_eq_true, decide_eq_true_eq, UInt8.le_iff_toNat_le] at ha
      have h1 : 194 ≤ a.toNat := ha.1
      have h2 : a.toNat ≤ 223 := ha.2
      split at h
      · rename_i b _
        split at h
        · rename_i hb
          have := cont b hb
          injection h with h; injection h with h _
          left; omega
        · cases h
      · cases h
    split at h
    · rename_i ha
      simp only [Bool.and_eq_true, decide_eq_true_eq, UInt8.le_iff_toNat_le] at ha
      have h1 : 224 ≤ a.toNat := ha.1
      have h2 : a.toNat ≤ 239 := ha.2
      split at h
      · rename_i b c _
        split at h
        · rename_i hb
          simp only [Bool.and_eq_true, Bool.or_eq_true, decide_eq_true_eq] at hb
          obtain ⟨⟨⟨hb1, hc1⟩, he⟩, hed⟩ := hb
          have hb2 := cont b hb1
          have hc2 := cont c hc1
          injection h with h; injection h with h _
          have hed' : a.toNat ≠ 237 ∨ b.toNat ≤ 159 := by
            rcases hed with h | h
            · left; intro hx; apply h; exact UInt8.toNat_inj.mp hx
            · right; exact UInt8.le_iff_toNat_le.mp h
          unfold Scalar
          omega
        · cases h
      · cases h
    split at h
    · rename_i ha
      simp only [Bool.and_eq_true, decide_eq_true_eq, UInt8.le_iff_toNat_le] at ha
      have h1 : 240 ≤ a.toNat := ha.1
      have h2 : a.toNat ≤ 244 := ha.2
      split at h
      · rename_i b c d _
        split at h
        · rename_i hb
          simp only [Bool.and_eq_true, Bool.or_eq_true, decide_eq_true_eq] at hb
          obtain ⟨⟨⟨⟨hb1, hc1⟩, hd1⟩, he⟩, hed⟩ := hb
          have hb2 := cont b hb1
          have hc2 := cont c hc1
          have hd2 := cont d hd1
          injection h with h; injection h with h _
          have he' : a.toNat ≠ 240 ∨ 144 ≤ b.toNat := by
            rcases he with h | h
            · left; intro hx; apply h; exact UInt8.toNat_inj.mp hx
            · right; exact UInt8.le_iff_toNat_le.mp h
          have hed' : a.toNat ≠ 244 ∨ b.toNat ≤ 143 := by
            rcases hed with h | h
            · left; intro hx; apply h; exact UInt8.toNat_inj.mp hx
            · right; exact UInt8.le_iff_toNat_le.mp h
          unfold Scalar
          omega
        · cases h
      · cases h
    · cases h

theorem unquote_valid (s : Str) (k : Nat) : ValidText (unquote s k) := by
  induction s generalizing k with
  | nil => rw [unquote]; exact validText_nil
  | cons c t ih =>
    cases k with
    | succ k => rw [unquote]; exact ih k
    | zero =>
      rw [unquote]
      split
      · exact validText_append (unescape_valid t) (ih _)
      split
      · rename_i hc
        exact validText_append (validText_asciiChars hc) (ih 0)
      split
      · exact validText_append (validText_utf8 (by decide)) (ih _)
      · rename_i hd
        exact validText_append (validText_utf8 (decodeRune_scalar hd)) (ih _)

mutual
/-- All strings of the value are valid. -/
def ValidVal : JsonVal → Prop
  | .str s => ValidText s
  | .arr items => ValidItems items
  | .obj fields => ValidMembers fields
  | _ => True
def ValidItems : JsonItems → Prop
  | .nil => True
  | .cons value rest => ValidVal value ∧ ValidItems rest
def ValidMembers : JsonMembers → Prop
  | .nil => True
  | .cons _ value rest => ValidVal value ∧ ValidMembers rest
end

theorem read_valid (fuel : Nat) :
    (∀ (depth : Nat) (s : Str) (v : JsonVal) (rest : Str), readValue fuel depth s = some (v, rest) → ValidVal v) ∧
    (∀ (depth : Nat) (s : Str) (v : JsonItems) (rest : Str), readItems fuel depth s = some (v, rest) → ValidItems v) ∧
    (∀ (depth : Nat) (s : Str) (v : JsonMembers) (rest : Str), readMembers fuel depth s = some (v, rest) → ValidMembers v) := by
  induction fuel with
  | zero =>
    refine ⟨?_, ?_, ?_⟩
    · intro depth s v rest h; rw [readValue] at h; cases h
    · intro depth s v rest h; rw [readItems] at h; cases h
    · intro depth s v rest h; rw [readMembers] at h; cases h
  | succ fuel ih =>
    refine ⟨?_, ?_, ?_⟩
    · intro depth s v rest h
      simp only [readValue] at h
      split at h
      · obtain ⟨p, -, hp⟩ := Option.map_eq_some_iff.mp h
        injection hp with hp _; subst hp
        rw [ValidVal]; exact unquote_valid _ _
      · injection h with h; injection h with h _; subst h; rw [ValidVal]; trivial; all_goals simp
      · injection h with h; injection h with h _; subst h; rw [ValidVal]; trivial; all_goals simp
      · injection h with h; injection h with h _; subst h; rw [ValidVal]; trivial; all_goals simp
      · split at h
        · cases h
        · split at h
          · injection h with h; injection h with h _; subst h; rw [ValidVal, ValidMembers]; trivial
          · obtain ⟨p, hr, hp⟩ := Option.map_eq_some_iff.mp h
            injection hp with hp _; subst hp
            rw [ValidVal]; exact ih.2.2 _ _ p.1 p.2 hr
      · split at h
        · cases h
        · split at h
          · injection h with h; injection h with h _; subst h; rw [ValidVal, ValidItems]; trivial
          · obtain ⟨p, hr, hp⟩ := Option.map_eq_some_iff.mp h
            injection hp with hp _; subst hp
            rw [ValidVal]; exact ih.2.1 _ _ p.1 p.2 hr
      · obtain ⟨p, -, hp⟩ := Option.map_eq_some_iff.mp h
        injection hp with hp _; subst hp
        rw [ValidVal]; trivial; all_goals simp
    · intro depth s v rest h
      simp only [readItems] at h
      split at h
      · cases h
      · rename_i value t hv
        have hv := ih.1 _ _ _ _ hv
        split at h
        · injection h with h; injection h with h _; subst h; exact ⟨hv, by rw [ValidItems]; trivial⟩
        · obtain ⟨p, hr, hp⟩ := Option.map_eq_some_iff.mp h
          injection hp with hp _; subst hp
          exact ⟨hv, ih.2.1 _ _ p.1 p.2 hr⟩
        · cases h
    · intro depth s v rest h
      simp only [readMembers] at h
      split at h
      · split at h
        · cases h
        · split at h
          · split at h
            · cases h
            · rename_i value t hv
              have hv := ih.1 _ _ _ _ hv
              split at h
              · injection h with h; injection h with h _; subst h; exact ⟨hv, by rw [ValidMembers]; trivial⟩
              · obtain ⟨p, hr, hp⟩ := Option.map_eq_some_iff.mp h
                injection hp with hp _; subst hp
                exact ⟨hv, ih.2.2 _ _ p.1 p.2 hr⟩
              · cases h
          · cases h
      · cases h

theorem parseJson_valid {s : Str} {v : JsonVal} (h : parseJson s = some v) : ValidVal v := by
  unfold parseJson at h
  split at h
  · rename_i value rest hr
    split at h
    · injection h with h; subst h
      exact (read_valid _).1 _ _ _ _ hr
    · cases h
  · cases h

theorem storeString_valid {old : Str} {v : JsonVal} (ho : ValidText old) (hv : ValidVal v) : ValidText (storeString old v).1 := by
  unfold storeString
  split
  · rw [ValidVal] at hv; exact hv
  · exact ho
  · exact ho

theorem storeMembers_inv {α : Type} {P : α → Prop} {names : List Str} {store : Str → JsonVal → α → α × Bool}
    (hs : ∀ n v x, ValidVal v → P x → P (store n v x).1) (fields : JsonMembers) (x : α) (hf : ValidMembers fields) (hx : P x) :
    P (storeMembers names store fields x).1 :=
  match fields with
  | .nil => hx
  | .cons key value rest => by
    rw [ValidMembers] at hf
    rw [storeMembers]
    split
    · exact storeMembers_inv hs rest x hf.2 hx
    · rename_i n _
      exact storeMembers_inv hs rest _ hf.2 (hs n value x hf.1 hx)

theorem storeStruct_inv {α : Type} {P : α → Prop} {names : List Str} {store : Str → JsonVal → α → α × Bool}
    (hs : ∀ n v x, ValidVal v → P x → P (store n v x).1) (v : JsonVal) (x : α) (hv : ValidVal v) (hx : P x) :
    P (storeStruct names store v x).1 := by
  unfold storeStruct
  split
  · rw [ValidVal] at hv; exact storeMembers_inv hs _ x hv hx
  · exact hx
  · exact hx

theorem unmarshalArticle_valid {s t c : Str} (h : unmarshalArticle s = some (t, c)) : ValidText t ∧ ValidText c := by
  unfold unmarshalArticle at h
  split at h
  · cases h
  · rename_i v hp
    have hv := parseJson_valid hp
    split at h
    · cases h
    · injection h with h
      injection h with h1 h2
      subst h1; subst h2
      refine storeStruct_inv (P := fun x : ArticleJson => ValidText x.title ∧ ValidText x.content) ?_ v _ hv
        ⟨validText_nil, validText_nil⟩
      intro _ v x hv hx
      refine storeStruct_inv (P := fun x : ArticleJson => ValidText x.title ∧ ValidText x.content) ?_ v _ hv hx
      intro n v x hv hx
      unfold storeParseField
      split
      · exact ⟨storeString_valid hx.1 hv, hx.2⟩
      split
      · refine storeStruct_inv (P := fun x : ArticleJson => ValidText x.title ∧ ValidText x.content) ?_ v _ hv hx
        intro _ v x hv hx
        exact ⟨hx.1, storeString_valid hx.2 hv⟩
      · exact hx

theorem unmarshalTemplate_valid {s c : Str} (h : unmarshalTemplate s = some c) : ValidText c := by
  unfold unmarshalTemplate at h
  split at h
  · cases h
  · rename_i v hp
    have hv := parseJson_valid hp
    simp only at h
    split at h
    · cases h
    · injection h with h
      subst h
      refine storeStruct_inv (P := ValidText) ?_ v _ hv validText_nil
      intro _ v x hv hx
      refine storeStruct_inv (P := ValidText) ?_ v _ hv hx
      intro _ v x hv hx
      exact storeString_valid hx hv

/-! ## Answers that were cut off -/

theorem scanString_more {s raw rest : Str} (q : Str) (h : scanString s = some (raw, rest)) :
    scanString (s ++ q) = some (raw, rest ++ q) := by
  fun_induction scanString s generalizing raw rest with
  | case1 => cases h
  | case2 t => injection h with h; injection h with h1 h2; subst h1; subst h2; rfl
  | case3 a b c d t hg ih =>
    obtain ⟨p, hp, he⟩ := Option.map_eq_some_iff.mp h
    injection he with h1 h2; subst h1; subst h2
    simp only [List.cons_append]
    rw [scanString, if_pos hg, ih (raw := p.1) (rest := p.2) hp]
    rfl
  | case4 => cases h
  | case5 e t hx he ih =>
    obtain ⟨p, hp, he'⟩ := Option.map_eq_some_iff.mp h
    injection he' with h1 h2; subst h1; subst h2
    simp only [List.cons_append]
    rw [scanString.eq_def]
    split
    · rename_i heq; cases heq
    · rename_i heq; injection heq with e1 e2; exact absurd e1 (by decide)
    · rename_i heq; injection heq with e1 e2; injection e2 with e2 e3; subst e2; exact absurd he (by decide)
    · rename_i heq
      injection heq with e1 e2
      injection e2 with e2 e3
      subst e2; subst e3
      rw [if_pos he, ih (raw := p.1) (rest := p.2) hp]
      rfl
    · rename_i hx heq
      injection heq with e1 e2
      subst e1
      exact absurd e2.symm (hx _ _ rfl)
  | case6 => cases h
  | case7 => cases h
  | case8 c t h22 hx hx2 hc ih =>
    obtain ⟨p, hp, he'⟩ := Option.map_eq_some_iff.mp h
    injection he' with h1 h2; subst h1; subst h2
    rw [not_or] at hc
    have := scanString_copy (s := [c]) (by
      intro d hd
      rw [List.mem_singleton] at hd
      subst hd
      exact ⟨hc.1, h22, hc.2⟩) (t ++ q)
    rw [List.singleton_append] at this
    rw [List.cons_append, this, ih (raw := p.1) (rest := p.2) hp]
    rfl

theorem dropSpaces_more {s : Str} {c : Byte} {t : Str} (q : Str) (h : s.dropWhile scanSpace = c :: t) :
    (s ++ q).dropWhile scanSpace = c :: (t ++ q) := by
  induction s with
  | nil => cases h
  | cons d s ih =>
    rw [List.cons_append, List.dropWhile_cons]
    rw [List.dropWhile_cons] at h
    split at h
    · rename_i hd
      rw [if_pos hd]
      exact ih h
    · rename_i hd
      rw [if_neg hd]
      injection h with h1 h2
      subst h1; subst h2
      rfl

theorem scanDigits_more {s d rest : Str} (q : Str) (h : scanDigits s = some (d, rest)) (hr : rest ≠ []) :
    scanDigits (s ++ q) = some (d, rest ++ q) := by
  have h' : (if s.takeWhile digitByte = [] then none else some (s.takeWhile digitByte, s.dropWhile digitByte)) = some (d, rest) := h
  split at h'
  · cases h'
  · rename_i hn
    injection h' with h'
    injection h' with h1 h2
    show (if (s ++ q).takeWhile digitByte = [] then none else some ((s ++ q).takeWhile digitByte, (s ++ q).dropWhile digitByte)) = _
    have key : ∀ s : Str, s.dropWhile digitByte ≠ [] → (s ++ q).takeWhile digitByte = s.takeWhile digitByte ∧
        (s ++ q).dropWhile digitByte = s.dropWhile digitByte ++ q := by
      intro s
      induction s with
      | nil => intro h; exact absurd rfl h
      | cons c s ih =>
        intro h
        rw [List.cons_append, List.takeWhile_cons, List.dropWhile_cons, List.takeWhile_cons, List.dropWhile_cons]
        rw [List.dropWhile_cons] at h
        split
        · rename_i hc
          rw [if_pos hc] at h
          rw [(ih h).1, (ih h).2]
          simp
        · simp
    obtain ⟨k1, k2⟩ := key s (by rw [h2]; exact hr)
    rw [k1, k2, if_neg hn, h1, h2]

theorem scanDigits_ne {s d rest : Str} (h : scanDigits s = some (d, rest)) : s ≠ [] := by
  rintro rfl
  revert h
  simp [scanDigits]

theorem scanWhole_more {s d rest : Str} (q : Str) (h : scanWhole s = some (d, rest)) (hr : rest ≠ []) :
    scanWhole (s ++ q) = some (d, rest ++ q) := by
  rw [scanWhole.eq_def] at h
  split at h
  · injection h with h; injection h with h1 h2; subst h1; subst h2; rfl
  · rename_i hx
    have hne := scanDigits_ne h
    have h2 := scanDigits_more q h hr
    rw [scanWhole.eq_def]
    split
    · rename_i t heq
      obtain ⟨c, u, rfl⟩ := List.exists_cons_of_ne_nil hne
      rw [List.cons_append] at heq
      injection heq with e1 e2
      subst e1
      exact absurd rfl (hx u)
    · exact h2

theorem scanFraction_more {s d rest : Str} (q : Str) (h : scanFraction s = some (d, rest)) (hr : rest ≠ []) :
    scanFraction (s ++ q) = some (d, rest ++ q) := by
  rw [scanFraction.eq_def] at h
  split at h
  · rename_i t
    obtain ⟨p, hp, he⟩ := Option.map_eq_some_iff.mp h
    injection he with h1 h2; subst h1; subst h2
    rw [List.cons_append, scanFraction, scanDigits_more q (d := p.1) (rest := p.2) hp hr]
    rfl
  · rename_i hx
    injection h with h; injection h with h1 h2
    subst h1; subst h2
    rw [scanFraction.eq_def]
    split
    · rename_i t heq
      obtain ⟨c, u, rfl⟩ := List.exists_cons_of_ne_nil hr
      rw [List.cons_append] at heq
      injection heq with e1 e2
      subst e1
      exact absurd rfl (hx u)
    · rfl

theorem scanSign_more {s : Str} (q : Str) (h : s ≠ []) : scanSign (s ++ q) = ((scanSign s).1, (scanSign s).2 ++ q) := by
  obtain ⟨c, u, rfl⟩ := List.exists_cons_of_ne_nil h
  rw [List.cons_append, scanSign, scanSign]
  split
  · rfl
  · rfl

theorem scanExponent_more {s d rest : Str} (q : Str) (h : scanExponent s = some (d, rest)) (hr : rest ≠ []) :
    scanExponent (s ++ q) = some (d, rest ++ q) := by
  rw [scanExponent.eq_def] at h
  split at h
  · rename_i c t
    rw [List.cons_append, scanExponent]
    split at h
    · rename_i hc
      rw [if_pos hc]
      obtain ⟨p, hp, he⟩ := Option.map_eq_some_iff.mp h
      injection he with h1 h2; subst h1; subst h2
      have hne : t ≠ [] := by
        rintro rfl
        exact scanDigits_ne hp rfl
      rw [scanSign_more q hne]
      simp only
      rw [scanDigits_more q (d := p.1) (rest := p.2) hp hr]
      rfl
    · rename_i hc
      rw [if_neg hc]
      injection h with h; injection h with h1 h2
      subst h1; subst h2
      rfl
  · injection h with h; injection h with h1 h2
    exact absurd h2.symm hr

theorem scanUnsigned_more {s d rest : Str} (q : Str) (h : scanUnsigned s = some (d, rest)) (hr : rest ≠ []) :
    scanUnsigned (s ++ q) = some (d, rest ++ q) := by
  unfold scanUnsigned at h ⊢
  split at h
  · cases h
  · rename_i w s1 hw
    split at h
    · cases h
    · rename_i f s2 hf
      obtain ⟨p, hp, he⟩ := Option.map_eq_some_iff.mp h
      injection he with h1 h2; subst h1; subst h2
      have n2 : s2 ≠ [] := by
        rintro rfl
        rw [scanExponent] at hp
        injection hp with hp
        rw [← hp] at hr
        exact hr rfl
      have n1 : s1 ≠ [] := by
        rintro rfl
        rw [scanFraction.eq_def] at hf
        simp only [Option.some.injEq, Prod.mk.injEq] at hf
        exact n2 hf.2.symm
      rw [scanWhole_more q hw n1]
      simp only
      rw [scanFraction_more q hf n2]
      simp only
      rw [scanExponent_more q (d := p.1) (rest := p.2) hp hr]
      rfl

theorem scanNumber_more {s d rest : Str} (q : Str) (h : scanNumber s = some (d, rest)) (hr : rest ≠ []) :
    scanNumber (s ++ q) = some (d, rest ++ q) := by
  rw [scanNumber.eq_def] at h
  split at h
  · rename_i t
    obtain ⟨p, hp, he⟩ := Option.map_eq_some_iff.mp h
    injection he with h1 h2; subst h1; subst h2
    rw [List.cons_append, scanNumber, scanUnsigned_more q (d := p.1) (rest := p.2) hp hr]
    rfl
  · rename_i hx
    have h2 := scanUnsigned_more q h hr
    rw [scanNumber.eq_def]
    split
    · rename_i t heq
      cases s with
      | nil => exact absurd h (by simp [scanUnsigned, scanWhole, scanDigits])
      | cons c u =>
        rw [List.cons_append] at heq
        injection heq with e1 e2
        subst e1
        exact absurd rfl (hx u)
    · exact h2

/-- The value is no number. -/
def NoNumber : JsonVal → Prop
  | .num _ => False
  | _ => True

/-- What has been read does not depend on what comes behind. -/
theorem read_more (fuel : Nat) :
    (∀ (depth : Nat) (s : Str) (v : JsonVal) (rest q : Str), readValue fuel depth s = some (v, rest) → (NoNumber v ∨ rest ≠ []) →
      ∀ k, readValue (fuel + k) depth (s ++ q) = some (v, rest ++ q)) ∧
    (∀ (depth : Nat) (s : Str) (v : JsonItems) (rest q : Str), readItems fuel depth s = some (v, rest) →
      ∀ k, readItems (fuel + k) depth (s ++ q) = some (v, rest ++ q)) ∧
    (∀ (depth : Nat) (s : Str) (v : JsonMembers) (rest q : Str), readMembers fuel depth s = some (v, rest) →
      ∀ k, readMembers (fuel + k) depth (s ++ q) = some (v, rest ++ q)) := by
  induction fuel with
  | zero =>
    refine ⟨?_, ?_, ?_⟩
    · intro depth s v rest q h; rw [readValue] at h; cases h
    · intro depth s v rest q h; rw [readItems] at h; cases h
    · intro depth s v rest q h; rw [readMembers] at h; cases h
  | succ fuel ih =>
    refine ⟨?_, ?_, ?_⟩
    · intro depth s v rest q h hv k
      rw [Nat.add_right_comm]
      simp only [readValue] at h ⊢
      split at h
      · rename_i t hd
        rw [dropSpaces_more q hd]
        obtain ⟨p, hr, hp⟩ := Option.map_eq_some_iff.mp h
        injection hp with h1 h2; subst h1; subst h2
        simp only
        rw [scanString_more q (raw := p.1) (rest := p.2) hr]
        rfl
      · rename_i t hd
        rw [dropSpaces_more q hd]
        injection h with h; injection h with h1 h2; subst h1; subst h2
        rfl
      · rename_i t hd
        rw [dropSpaces_more q hd]
        injection h with h; injection h with h1 h2; subst h1; subst h2
        rfl
      · rename_i t hd
        rw [dropSpaces_more q hd]
        injection h with h; injection h with h1 h2; subst h1; subst h2
        rfl
      · rename_i t hd
        rw [dropSpaces_more q hd]
        simp only
        cases depth with
        | zero => cases h
        | succ depth =>
          simp only at h ⊢
          cases ht : t.dropWhile scanSpace with
          | nil =>
            rw [ht] at h
            cases fuel <;> simp [readMembers] at h
          | cons c u =>
            rw [ht] at h
            rw [dropSpaces_more q ht]
            by_cases hc : c = 0x7D
            · subst hc
              injection h with h; injection h with h1 h2; subst h1; subst h2
              rfl
            · have h' : (readMembers fuel depth (c :: u)).map (fun p => (JsonVal.obj p.1, p.2)) = some (v, rest) := by
                revert h
                split
                · rename_i heq; injection heq with e1 e2; exact absurd e1 hc
                · exact id
              obtain ⟨p, hr, hp⟩ := Option.map_eq_some_iff.mp h'
              injection hp with h1 h2; subst h1; subst h2
              split
              · rename_i heq; injection heq with e1 e2; exact absurd e1 hc
              rw [← List.cons_append, ih.2.2 depth _ p.1 p.2 q hr k]
              rfl
      · rename_i t hd
        rw [dropSpaces_more q hd]
        simp only
        cases depth with
        | zero => cases h
        | succ depth =>
          simp only at h ⊢
          cases ht : t.dropWhile scanSpace with
          | nil =>
            rw [ht] at h
            simp only at h
            obtain ⟨p, hr, hp⟩ := Option.map_eq_some_iff.mp h
            exfalso
            cases fuel with
            | zero => rw [readItems] at hr; cases hr
            | succ fuel =>
              simp only [readItems] at hr
              split at hr
              · cases hr
              · rename_i hv
                cases fuel with
                | zero => rw [readValue] at hv; cases hv
                | succ fuel =>
                  simp only [readValue] at hv
                  exact absurd hv (by simp [List.dropWhile, scanNumber, scanUnsigned, scanWhole, scanDigits])
          | cons c u =>
            rw [ht] at h
            rw [dropSpaces_more q ht]
            by_cases hc : c = 0x5D
            · subst hc
              injection h with h; injection h with h1 h2; subst h1; subst h2
              rfl
            · have h' : (readItems fuel depth (c :: u)).map (fun p => (JsonVal.arr p.1, p.2)) = some (v, rest) := by
                revert h
                split
                · rename_i heq; injection heq with e1 e2; exact absurd e1 hc
                · exact id
              obtain ⟨p, hr, hp⟩ := Option.map_eq_some_iff.mp h'
              injection hp with h1 h2; subst h1; subst h2
              split
              · rename_i heq; injection heq with e1 e2; exact absurd e1 hc
              rw [← List.cons_append, ih.2.1 depth _ p.1 p.2 q hr k]
              rfl
      · rename_i n1 n2 n3 n4 n5 n6
        obtain ⟨p, hr, hp⟩ := Option.map_eq_some_iff.mp h
        injection hp with h1 h2; subst h1; subst h2
        have hrest : p.2 ≠ [] := by
          rcases hv with hv | hv
          · exact absurd hv (by simp [NoNumber])
          · exact hv
        have hm := scanNumber_more q (d := p.1) (rest := p.2) hr hrest
        cases hd : s.dropWhile scanSpace with
        | nil => rw [hd] at hr; exact absurd hr (by simp [scanNumber, scanUnsigned, scanWhole, scanDigits])
        | cons c u =>
          rw [dropSpaces_more q hd]
          rw [hd] at hm hr n1 n2 n3 n4 n5 n6
          rw [List.cons_append] at hm
          obtain ⟨c1, c2, c3, c4, c5, c6⟩ : c ≠ 0x22 ∧ c ≠ 0x6E ∧ c ≠ 0x74 ∧ c ≠ 0x66 ∧ c ≠ 0x7B ∧ c ≠ 0x5B := by
            have hnd : ∀ c : Byte, c ≠ 0x2D → digitByte c = false → scanNumber (c :: u) = none := by
              intro c h1 h2
              have h3 : c ≠ 0x30 := by rintro rfl; exact absurd h2 (by decide)
              rw [scanNumber.eq_def]
              split
              · rename_i heq; injection heq with e1 e2; exact absurd e1 h1
              · unfold scanUnsigned
                have : scanWhole (c :: u) = none := by
                  rw [scanWhole.eq_def]
                  split
                  · rename_i heq; injection heq with e1 e2; exact absurd e1 h3
                  · show (if (c :: u).takeWhile digitByte = [] then none else _) = none
                    rw [if_pos (List.takeWhile_cons_of_neg (by simp [h2]))]
                rw [this]
            refine ⟨?_, ?_, ?_, ?_, ?_, ?_⟩ <;> rintro rfl <;> rw [hnd _ (by decide) (by decide)] at hr <;> cases hr
          split
          · rename_i heq; injection heq with e1 e2; exact absurd e1 c1
          · rename_i heq; injection heq with e1 e2; exact absurd e1 c2
          · rename_i heq; injection heq with e1 e2; exact absurd e1 c3
          · rename_i heq; injection heq with e1 e2; exact absurd e1 c4
          · rename_i heq; injection heq with e1 e2; exact absurd e1 c5
          · rename_i heq; injection heq with e1 e2; exact absurd e1 c6
          · rw [hm]; rfl
    · intro depth s v rest q h k
      rw [Nat.add_right_comm]
      simp only [readItems] at h ⊢
      split at h
      · cases h
      · rename_i value t hv
        have ht : t ≠ [] := by
          rintro rfl
          simp at h
        rw [ih.1 depth s value t q hv (.inr ht) k]
        simp only
        split at h
        · rename_i r hd
          rw [dropSpaces_more q hd]
          injection h with h; injection h with h1 h2; subst h1; subst h2
          rfl
        · rename_i u hd
          rw [dropSpaces_more q hd]
          obtain ⟨p, hr, hp⟩ := Option.map_eq_some_iff.mp h
          injection hp with h1 h2; subst h1; subst h2
          simp only
          rw [ih.2.1 depth u p.1 p.2 q hr k]
          rfl
        · cases h
    · intro depth s v rest q h k
      rw [Nat.add_right_comm]
      simp only [readMembers] at h ⊢
      split at h
      · rename_i t hd
        rw [dropSpaces_more q hd]
        simp only
        split at h
        · cases h
        · rename_i key t2 hk
          rw [scanString_more q hk]
          simp only
          split at h
          · rename_i t3 hd3
            rw [dropSpaces_more q hd3]
            simp only
            split at h
            · cases h
            · rename_i value t4 hv
              have ht : t4 ≠ [] := by
                rintro rfl
                simp at h
              rw [ih.1 depth t3 value t4 q hv (.inr ht) k]
              simp only
              split at h
              · rename_i r hd
                rw [dropSpaces_more q hd]
                injection h with h; injection h with h1 h2; subst h1; subst h2
                rfl
              · rename_i u hd
                rw [dropSpaces_more q hd]
                obtain ⟨p, hr, hp⟩ := Option.map_eq_some_iff.mp h
                injection hp with h1 h2; subst h1; subst h2
                simp only
                rw [ih.2.2 depth u p.1 p.2 q hr k]
                rfl
              · cases h
          · cases h
      · cases h

/-- A text of an object that is cut off is refused. -/
theorem parseJson_cut {fields : JsonMembers} {p q : Str} (h : JsonText (.obj fields) (p ++ q)) (hn : nesting (.obj fields) ≤ 10000)
    (hq : ¬ Blank q) : parseJson p = none := by
  cases hp : parseJson p with
  | none => rfl
  | some v =>
    exfalso
    obtain ⟨a, t, b, e, ha, hv, hb⟩ := h
    have hfull := readValue_text _ ((p ++ q).length + 1) 10000 t b hv (numberEnds_blank_end hb)
      (by rw [e]; simp only [List.length_append]; omega) hn
    rw [← readValue_blank ha, ← List.append_assoc, ← e] at hfull
    unfold parseJson at hp
    split at hp
    · rename_i value rest hr
      split at hp
      · rename_i hrest
        have hnum : NoNumber value := by
          -- the text begins with a brace
          rw [ValueText] at hv
          obtain ⟨inner, rfl, -⟩ := hv
          by_cases hl : p.length ≤ a.length
          · -- only white space is left
            exfalso
            have hpa : p = a.take p.length := by
              have := congrArg (List.take p.length) e
              rw [List.take_left, List.append_assoc, List.take_append_of_le_length hl] at this
              exact this
            have hpb : Blank p := by
              rw [hpa]
              exact fun c hc => ha c (List.mem_of_mem_take hc)
            have hdp : p.dropWhile scanSpace = [] := by
              have := List.dropWhile_append_of_pos (l₂ := []) (blank_space hpb)
              simpa using this
            simp only [readValue, hdp] at hr
            exact absurd hr (by simp [scanNumber, scanUnsigned, scanWhole, scanDigits])
          · obtain ⟨p', rfl⟩ : ∃ p', p = a ++ 0x7B :: p' := by
              have := congrArg (List.take p.length) e
              rw [List.take_left, List.append_assoc, List.take_append] at this
              obtain ⟨k, hk⟩ : ∃ k, p.length - a.length = k + 1 := ⟨p.length - a.length - 1, by omega⟩
              rw [List.take_of_length_le (by omega), hk] at this
              exact ⟨_, this⟩
            simp only [readValue] at hr
            rw [skipBlank ha (by decide)] at hr
            simp only at hr
            split at hr
            · injection hr with hr; injection hr with hr _; rw [← hr]; trivial
            · obtain ⟨p, -, hp⟩ := Option.map_eq_some_iff.mp hr
              injection hp with h1 _; rw [← h1]; trivial
        have hm := (read_more (p.length + 1)).1 10000 p value rest q hr (.inl hnum) q.length
        rw [show p.length + 1 + q.length = (p ++ q).length + 1 by simp only [List.length_append]; omega, hfull] at hm
        injection hm with hm
        injection hm with _ hm
        apply hq
        intro c hc
        exact hb c (by rw [hm]; simp [hc])
      · cases hp
    · cases hp

end Verif.Lemmas
