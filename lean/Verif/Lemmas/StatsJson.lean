import Verif.Lemmas.Json
import Verif.Lemmas.ConfigFiles
import Verif.Lemmas.JsonTexts
import Verif.Model.StatsJson

/-!
# What is written as JSON is a JSON text of the same value, and is stored as it was
-/

namespace Verif.Lemmas
open Verif.Go Verif.Model Verif.Spec

mutual
/-- The value of a written text. -/
def textVal : Json → JsonVal
  | .null => .null
  | .num n => .num (decimalInt n)
  | .str s => .str s
  | .obj fields => .obj (textMembers fields)
def textMembers : Fields → JsonMembers
  | .nil => .nil
  | .cons key value rest => .cons key (textVal value) (textMembers rest)
end

theorem charText_escape {c : Byte} (h : c < 0x80) : CharText c.toNat (jsonEscape c) := by
  have hlt : c.toNat < 128 := UInt8.lt_iff_toNat_lt.mp h
  have hsc : Scalar c.toNat := by left; omega
  have hx : ∀ n : Fin 128, ∃ x y, hexValue (jsonHex (n.val / 16)) = some x ∧ hexValue (jsonHex (n.val % 16)) = some y ∧ n.val = 16 * x + y := by
    intro n
    refine ⟨n.val / 16, n.val % 16, ?_, ?_, by omega⟩
    · revert n; decide +kernel
    · revert n; decide +kernel
  unfold jsonEscape
  split
  · rename_i h1
    rcases h1 with rfl | rfl
    · exact .short _ _ rfl
    · exact .short _ _ rfl
  · rename_i h1
    split
    · rename_i h2; subst h2; exact .short 0x62 0x08 rfl
    split
    · rename_i h2; subst h2; exact .short 0x66 0x0C rfl
    split
    · rename_i h2; subst h2; exact .short 0x6E 0x0A rfl
    split
    · rename_i h2; subst h2; exact .short 0x72 0x0D rfl
    split
    · rename_i h2; subst h2; exact .short 0x74 0x09 rfl
    split
    · obtain ⟨x, y, h3, h4, h5⟩ := hx ⟨c.toNat, hlt⟩
      exact .escaped _ _ hsc ⟨_, _, _, _, 0, 0, x, y, rfl, rfl, rfl, h3, h4, by simp only at h5; omega⟩
    · rename_i h2
      rw [not_or] at h1 h2
      have e : [c] = utf8 c.toNat := by
        unfold utf8; rw [if_pos (by omega)]; simp
      rw [e]
      refine .plain _ hsc ?_ ?_ ?_
      · have := h2.1
        rw [UInt8.lt_iff_toNat_lt] at this
        exact Nat.le_of_not_lt this
      · intro hc; exact h1.1 (UInt8.toNat_inj.mp hc)
      · intro hc; exact h1.2 (UInt8.toNat_inj.mp hc)

theorem charsText_jsonChars (codes : List Nat) (hs : ∀ n ∈ codes, Scalar n) : CharsText codes (jsonChars (codes.flatMap utf8) 0) := by
  induction codes with
  | nil => exact .nil
  | cons n codes ih =>
    have hn := hs n (by simp)
    have ih := ih (fun m hm => hs m (by simp [hm]))
    rw [List.flatMap_cons]
    by_cases h : n < 0x80
    · have e : utf8 n = [UInt8.ofNat n] := by unfold utf8; rw [if_pos h]
      have hc : UInt8.ofNat n < 0x80 := by rw [UInt8.lt_iff_toNat_lt, toNat_ofNat (by omega)]; exact h
      rw [e, List.singleton_append, jsonChars, if_pos hc]
      refine .cons _ _ _ _ ?_ ih
      have := charText_escape hc
      rwa [toNat_ofNat (by omega)] at this
    · rw [jsonChars_utf8 hn (by omega)]
      refine .cons _ _ _ _ ?_ ih
      split
      · rename_i h1; subst h1
        exact .escaped _ _ hn ⟨_, _, _, _, 2, 0, 2, 8, rfl, rfl, rfl, rfl, rfl, rfl⟩
      split
      · rename_i h1 h2; subst h2
        exact .escaped _ _ hn ⟨_, _, _, _, 2, 0, 2, 9, rfl, rfl, rfl, rfl, rfl, rfl⟩
      · exact .plain n hn (by omega) (by omega) (by omega)

theorem stringText_jsonString {s : Str} (h : ValidText s) : StringText s (jsonString s) := by
  obtain ⟨codes, hs, rfl⟩ := h
  exact ⟨codes, _, charsText_jsonChars codes hs, rfl, rfl⟩

theorem someDigits_decimal (n : Nat) : SomeDigits (decimal n) := by
  refine ⟨decimal_ne_nil n, fun c hc => ?_⟩
  have := decimal_digits n c hc
  clear hc
  revert this
  revert c
  exact byte_forall (by decide +kernel)

theorem numberText_decimal (n : Nat) : decimal n = b!"0" ∨ (SomeDigits (decimal n) ∧ (decimal n).head? ≠ some 0x30) := by
  by_cases h : n = 0
  · subst h; left; decide +kernel
  · right; exact ⟨someDigits_decimal n, fun hx => h (decimal_head n hx)⟩

theorem numberText_decimalInt (n : Int) : NumberText (decimalInt n) := by
  cases n with
  | ofNat n => exact ⟨[], decimal n, [], [], by simp [decimalInt], by simp, numberText_decimal n, .inl rfl, .inl rfl⟩
  | negSucc n =>
    exact ⟨b!"-", decimal (n + 1), [], [], by simp [decimalInt], by simp, numberText_decimal _, .inl rfl, .inl rfl⟩

theorem blank_indent {s : Str} (h : Blank s) : Blank (s ++ b!"  ") := by
  intro c hc
  rcases List.mem_append.mp hc with hc | hc
  · exact h c hc
  · rename_i hx; clear hx; revert c; decide

mutual
theorem valueText_encode : (v : Json) → ∀ indent, Blank indent → ValidJson v → ValueText (textVal v) (encodeJson indent v)
  | .null, _, _, _ => by rw [textVal, encodeJson, ValueText]
  | .num n, _, _, _ => by
    rw [textVal, encodeJson, ValueText]
    exact ⟨rfl, numberText_decimalInt n⟩
  | .str s, _, _, h => by
    rw [textVal, encodeJson, ValueText]
    exact stringText_jsonString h
  | .obj .nil, _, _, _ => by
    rw [textVal, encodeJson, ValueText, textMembers]
    exact ⟨[], rfl, by rw [MembersText]; intro c hc; cases hc⟩
  | .obj (.cons key value rest), indent, hi, h => by
    rw [textVal, encodeJson, ValueText]
    refine ⟨b!"\n" ++ encodeFields (indent ++ b!"  ") (.cons key value rest) ++ (b!"\n" ++ indent), by simp, ?_⟩
    exact membersText_encode (.cons key value rest) (by simp) (indent ++ b!"  ") (blank_indent hi) h b!"\n" (b!"\n" ++ indent) (by unfold Blank; decide)
      (by intro c hc
          rcases List.mem_append.mp hc with hc | hc
          · rename_i hx; clear hx; revert c; decide
          · exact hi c hc)
theorem membersText_encode : (f : Fields) → f ≠ .nil → ∀ indent, Blank indent → ValidFields f →
    ∀ before after, Blank before → Blank after → MembersText (textMembers f) (before ++ encodeFields indent f ++ after)
  | .nil, hn, _, _, _, _, _, _, _ => absurd rfl hn
  | .cons key value .nil, _, indent, hi, h, before, after, hb, ha => by
    rw [textMembers, textMembers, MembersText, encodeFields]
    refine ⟨before ++ indent, jsonString key, [], b!" ", encodeJson indent value, after, by simp, ?_, stringText_jsonString h.1,
      by unfold Blank; decide, by unfold Blank; decide, valueText_encode value indent hi h.2.1, ha⟩
    intro c hc
    exact (List.mem_append.mp hc).elim (hb c) (hi c)
  | .cons key value (.cons key' value' rest), _, indent, hi, h, before, after, hb, ha => by
    have ih := membersText_encode (.cons key' value' rest) (by simp) indent hi h.2.2 b!"\n" after (by unfold Blank; decide) ha
    rw [textMembers] at ih
    rw [textMembers, textMembers, MembersText, encodeFields]
    · refine ⟨before ++ indent, jsonString key, [], b!" ", encodeJson indent value, [], _, ?_, ?_, stringText_jsonString h.1,
        by unfold Blank; decide, by unfold Blank; decide, valueText_encode value indent hi h.2.1, by unfold Blank; decide, ih⟩
      · simp
      intro c hc
      exact (List.mem_append.mp hc).elim (hb c) (hi c)
end

theorem nesting_counts (m : Counts) : nestingMembers (textMembers (countsFields m)) = 0 := by
  induction m with
  | nil => rfl
  | cons p m ih => obtain ⟨k, n⟩ := p; rw [countsFields, textMembers, nestingMembers, ih]; rfl

theorem atoi_decimalInt {n : Int} (h1 : -2 ^ 63 ≤ n) (h2 : n < 2 ^ 63) : atoi (decimalInt n) = some n := by
  refine atoi_whole ⟨h1, h2, ?_⟩
  cases n with
  | ofNat n => exact ⟨decimal n, someDigits_decimal n, .inl ⟨rfl, by rw [undecimal_decimal]; rfl⟩⟩
  | negSucc n => exact ⟨decimal (n + 1), someDigits_decimal _, .inr ⟨rfl, by rw [undecimal_decimal]; rfl⟩⟩

theorem storeInt_decimalInt {n : Int} (h : -2 ^ 63 ≤ n ∧ n < 2 ^ 63) (old : Int) :
    storeInt old (textVal (.num n)) = (n, false) := by
  rw [textVal, storeInt, atoi_decimalInt h.1 h.2]

theorem storeMembers_cons {α : Type} {names : List Str} {store : Str → JsonVal → α → α × Bool} {name : Str} (h : name ∈ names)
    {v : JsonVal} {x y : α} (hs : store name v x = (y, false)) (rest : JsonMembers) :
    storeMembers names store (.cons name v rest) x = storeMembers names store rest y := by
  rw [storeMembers, structField_mem h]
  simp only [hs, Bool.false_or]

end Verif.Lemmas
