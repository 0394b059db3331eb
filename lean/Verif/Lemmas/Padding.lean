import Verif.Lemmas.Space
import Verif.Spec.WikiTables

/-! Trimming of text with spaces and tabs around it. -/

namespace Verif.Go
open Verif.Spec
open scoped List

theorem headLen_pad {c : Byte} (h : c = 0x20 ∨ c = 0x09) (t : Str) : headLen spaceChars (c :: t) = 1 := by
  rcases h with rfl | rfl <;> simp [headLen, spaceChars, List.find?, List.isPrefixOf]

theorem headLen_pad_rev {c : Byte} (h : c = 0x20 ∨ c = 0x09) (t : Str) :
    headLen (spaceChars.map List.reverse) (c :: t) = 1 := by
  rcases h with rfl | rfl <;> simp [headLen, spaceChars, List.find?, List.isPrefixOf]

theorem trimSpaceLeft_pad {p : Str} (h : Padding p) (s : Str) : trimSpaceLeft (p ++ s) = trimSpaceLeft s := by
  induction p with
  | nil => rfl
  | cons c p ih =>
    have hc := headLen_pad (h c (by simp)) (p ++ s)
    rw [List.cons_append, trimSpaceLeft, trimLeftBy, trimLeftGo, hc, if_neg (by decide)]
    exact ih fun x hx => h x (by simp [hx])

theorem trimLeftRev_pad {p : Str} (h : Padding p) (s : Str) :
    trimLeftBy (spaceChars.map List.reverse) (p ++ s) = trimLeftBy (spaceChars.map List.reverse) s := by
  induction p with
  | nil => rfl
  | cons c p ih =>
    have hc := headLen_pad_rev (h c (by simp)) (p ++ s)
    rw [List.cons_append, trimLeftBy, trimLeftGo, hc, if_neg (by decide)]
    exact ih fun x hx => h x (by simp [hx])

theorem padding_reverse {p : Str} (h : Padding p) : Padding p.reverse := fun c hc => h c (by simpa using hc)

theorem trimSpaceRight_pad {p : Str} (h : Padding p) (s : Str) : trimSpaceRight (s ++ p) = trimSpaceRight s := by
  rw [trimSpaceRight, List.reverse_append, trimLeftRev_pad (padding_reverse h), trimSpaceRight]

/-- A character that is not part of white space ends the trimming. -/
theorem trimLeftBy_append {chars : List Str} {x : Byte} (hx : ∀ c ∈ chars, x ∉ c) (r s : Str) :
    trimLeftBy chars (r ++ x :: s) = trimLeftBy chars r ++ x :: s := by
  have hh : ∀ r : Str, headLen chars (r ++ x :: s) = headLen chars r := by
    intro r
    have hf : chars.find? (fun c => c.isPrefixOf (r ++ x :: s)) = chars.find? (fun c => c.isPrefixOf r) := by
      induction chars with
      | nil => rfl
      | cons c chars ih =>
        have e : c.isPrefixOf (r ++ x :: s) = c.isPrefixOf r := by
          rw [Bool.eq_iff_iff, List.isPrefixOf_iff_prefix, List.isPrefixOf_iff_prefix]
          exact ⟨prefix_of_prefix_sep (hx c (by simp)), fun h => h.trans (List.prefix_append _ _)⟩
        rw [List.find?_cons, List.find?_cons, e, ih fun c hc => hx c (by simp [hc])]
    rw [headLen, headLen, hf]
  induction hn : r.length using Nat.strongRecOn generalizing r with
  | _ n ih =>
    cases r with
    | nil =>
      have h0 := hh []
      rw [List.nil_append, trimLeftBy, trimLeftGo]
      by_cases hz : headLen chars (x :: s) = 0
      · rw [if_pos hz]
        rfl
      · exfalso
        obtain ⟨c, hc, hp, hl⟩ := headLen_pos hz
        cases c with
        | nil => exact hz (by simpa using hl.symm)
        | cons y c =>
          rw [List.cons_prefix_cons] at hp
          exact hx _ hc (by simp [hp.1])
    | cons y r =>
      have h0 := hh (y :: r)
      rw [List.cons_append] at h0
      rw [List.cons_append, trimLeftBy, trimLeftGo, h0]
      rw [trimLeftBy, trimLeftGo]
      by_cases hz : headLen chars (y :: r) = 0
      · rw [if_pos hz, if_pos hz]
        rfl
      · rw [if_neg hz, if_neg hz, trimLeftGo_skip, trimLeftGo_skip (s := r)]
        obtain ⟨c, hc, hp, hl⟩ := headLen_pos hz
        have hle := hp.length_le
        rw [hl, List.length_cons] at hle
        rw [List.drop_append_of_le_length (by omega)]
        exact ih _ (by rw [← hn, List.length_drop, List.length_cons]; omega) _ rfl

theorem visible_not_space {x : Byte} (h : 33 ≤ x ∧ x ≤ 126) : ∀ c ∈ spaceChars, x ∉ c := by
  intro c hc hx
  have hall : ∀ c ∈ spaceChars, ∀ b ∈ c, ¬ (33 ≤ b ∧ b ≤ 126) := by decide
  exact hall c hc x hx h

theorem visible_not_space_rev {x : Byte} (h : 33 ≤ x ∧ x ≤ 126) : ∀ c ∈ spaceChars.map List.reverse, x ∉ c := by
  intro c hc hx
  obtain ⟨d, hd, rfl⟩ := List.mem_map.mp hc
  exact visible_not_space h d hd (by simpa using hx)

theorem trimSpaceRight_visible {x : Byte} (h : 33 ≤ x ∧ x ≤ 126) (s t : Str) :
    trimSpaceRight (s ++ x :: t) = s ++ x :: trimSpaceRight t := by
  rw [trimSpaceRight, List.reverse_append, List.reverse_cons, List.append_assoc, List.singleton_append,
    trimLeftBy_append (visible_not_space_rev h)]
  simp [trimSpaceRight]

theorem trimSpaceLeft_visible {x : Byte} (h : 33 ≤ x ∧ x ≤ 126) (s : Str) : trimSpaceLeft (x :: s) = x :: s := by
  have := trimLeftBy_append (visible_not_space h) [] s
  exact this

theorem trimSpace_front {x : Byte} (h : 33 ≤ x ∧ x ≤ 126) {p : Str} (hp : Padding p) (s : Str) :
    trimSpace (p ++ x :: s) = x :: trimSpaceRight s := by
  rw [trimSpace, trimSpaceLeft_pad hp, trimSpaceLeft_visible h]
  exact trimSpaceRight_visible h [] s

theorem trimSpaceRight_nil : trimSpaceRight [] = [] := rfl

theorem trimSpaceRight_padding {p : Str} (h : Padding p) : trimSpaceRight p = [] := by
  have := trimSpaceRight_pad h []
  exact this

theorem pad_not_space {b : Byte} (h : b = 0x20 ∨ b = 0x09) : ∀ c ∈ spaceChars, b ∈ c → c = [b] := by
  rcases h with rfl | rfl <;> decide

theorem clean_of_trimSpace {b : Str} (h : trimSpace b = b) :
    (∀ c ∈ spaceChars, ¬ c <+: b) ∧ ∀ c ∈ spaceChars, ¬ c <:+ b := by
  obtain ⟨h1, h2, -⟩ := trimSpace_spec b
  rw [h] at h1 h2
  exact ⟨h1, h2⟩

theorem trimSpaceRight_clean {b : Str} (h : ∀ c ∈ spaceChars, ¬ c <:+ b) : trimSpaceRight b = b := by
  rw [trimSpaceRight, trimLeftBy_of_clean spaceChars_rev_ne, List.reverse_reverse]
  intro c hc hp
  obtain ⟨d, hd, rfl⟩ := List.mem_map.mp hc
  exact h d hd (List.reverse_prefix.mp hp)

/-- Text behind padding. -/
theorem trimSpaceRight_behind {p b : Str} (hp : Padding p) (hb : b ≠ []) (h : ∀ c ∈ spaceChars, ¬ c <:+ b) :
    trimSpaceRight (p ++ b) = p ++ b := by
  apply trimSpaceRight_clean
  intro c hc hs
  rcases Nat.lt_or_ge b.length c.length with hl | hl
  · obtain ⟨c1, rfl⟩ : b <:+ c := List.suffix_of_suffix_length_le (List.suffix_append _ _) hs (by omega)
    cases hc1 : c1.getLast? with
    | none =>
      rw [List.getLast?_eq_none_iff] at hc1
      rw [hc1] at hl
      simp at hl
    | some x =>
      have hx : x ∈ c1 := List.mem_of_getLast? hc1
      have hsuf : c1 <:+ p := by
        obtain ⟨u, hu⟩ := hs
        rw [← List.append_assoc] at hu
        exact ⟨u, List.append_cancel_right hu⟩
      have := pad_not_space (hp x (hsuf.sublist.mem hx)) _ hc (by simp [hx])
      have hl2 := congrArg List.length this
      have h1 := List.length_pos_of_ne_nil hb
      have h2 := List.length_pos_of_mem hx
      simp at hl2
      omega
  · exact h c hc (List.suffix_of_suffix_length_le hs (List.suffix_append _ _) hl)

theorem trimSpaceLeft_before {b q : Str} (hq : Padding q) (hb : b ≠ []) (h : ∀ c ∈ spaceChars, ¬ c <+: b) :
    trimSpaceLeft (b ++ q) = b ++ q := by
  apply trimLeftBy_of_clean spaceChars_ne
  intro c hc hs
  rcases Nat.lt_or_ge b.length c.length with hl | hl
  · obtain ⟨c1, rfl⟩ : b <+: c := List.prefix_of_prefix_length_le (List.prefix_append _ _) hs (by omega)
    cases hc1 : c1 with
    | nil => rw [hc1] at hl; simp at hl
    | cons x c2 =>
      have hx : x ∈ c1 := by simp [hc1]
      have hsuf : c1 <+: q := (List.prefix_append_right_inj b).mp hs
      have := pad_not_space (hq x (hsuf.sublist.mem hx)) _ hc (by simp [hx])
      have hl2 := congrArg List.length this
      have h1 := List.length_pos_of_ne_nil hb
      have h2 := List.length_pos_of_mem hx
      simp at hl2
      omega
  · exact h c hc (List.prefix_of_prefix_length_le hs (List.prefix_append _ _) hl)

/-- Trimming removes exactly the padding. -/
theorem trimSpace_pad {p b q : Str} (hp : Padding p) (hq : Padding q) (h : trimSpace b = b) : trimSpace (p ++ b ++ q) = b := by
  obtain ⟨h1, h2⟩ := clean_of_trimSpace h
  rw [List.append_assoc, trimSpace, trimSpaceLeft_pad hp]
  by_cases hb : b = []
  · subst hb
    have := trimSpaceLeft_pad hq []
    rw [List.append_nil] at this
    rw [List.nil_append, this]
    rfl
  · rw [trimSpaceLeft_before hq hb h1, trimSpaceRight_pad hq, trimSpaceRight_clean h2]

/-- What remains of a padded text when only its end is trimmed. -/
theorem trimSpaceRight_cell {p b q : Str} (hp : Padding p) (hq : Padding q) (h : trimSpace b = b) :
    trimSpaceRight (p ++ b ++ q) = if b = [] then [] else p ++ b := by
  rw [trimSpaceRight_pad hq]
  by_cases hb : b = []
  · rw [if_pos hb, hb, List.append_nil, trimSpaceRight_padding hp]
  · rw [if_neg hb, trimSpaceRight_behind hp hb (clean_of_trimSpace h).2]

end Verif.Go
