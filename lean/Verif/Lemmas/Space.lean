import Verif.Go.Space
import Verif.Lemmas.Strings

/-! # Trimming of white space -/

namespace Verif.Go

/-- A text that consists of white space characters. -/
def AllSpace (chars : List Str) (s : Str) : Prop := ∃ l : List Str, (∀ c ∈ l, c ∈ chars) ∧ s = l.flatten

theorem headLen_eq_zero {chars : List Str} {s : Str} (hne : ∀ c ∈ chars, c ≠ []) :
    headLen chars s = 0 ↔ ∀ c ∈ chars, ¬ c <+: s := by
  unfold headLen
  cases h : chars.find? (fun c => c.isPrefixOf s) with
  | none =>
    simp only [List.find?_eq_none, List.isPrefixOf_iff_prefix] at h
    simpa using h
  | some c =>
    have h1 := List.find?_some h
    have h2 := List.mem_of_find?_eq_some h
    simp only [List.isPrefixOf_iff_prefix] at h1
    simp only [List.length_eq_zero_iff]
    constructor
    · intro e; exact absurd e (hne c h2)
    · intro hh; exact absurd h1 (hh c h2)

theorem headLen_pos {chars : List Str} {s : Str} (h : headLen chars s ≠ 0) :
    ∃ c ∈ chars, c <+: s ∧ c.length = headLen chars s := by
  unfold headLen at h ⊢
  cases hf : chars.find? (fun c => c.isPrefixOf s) with
  | none => rw [hf] at h; exact absurd rfl h
  | some c =>
    have h1 := List.find?_some hf
    simp only [List.isPrefixOf_iff_prefix] at h1
    exact ⟨c, List.mem_of_find?_eq_some hf, h1, rfl⟩

theorem trimLeftGo_skip (chars : List Str) (k : Nat) (s : Str) :
    trimLeftGo chars k s = trimLeftGo chars 0 (s.drop k) := by
  induction s generalizing k with
  | nil => cases k <;> simp [trimLeftGo]
  | cons c t ih =>
    cases k with
    | zero => rfl
    | succ k => rw [trimLeftGo, ih]; rfl

theorem trimLeftBy_spec {chars : List Str} (hne : ∀ c ∈ chars, c ≠ []) (s : Str) :
    (∀ c ∈ chars, ¬ c <+: trimLeftBy chars s) ∧ ∃ w, AllSpace chars w ∧ s = w ++ trimLeftBy chars s := by
  induction hn : s.length using Nat.strongRecOn generalizing s with
  | _ n ih =>
    cases s with
    | nil =>
      refine ⟨?_, [], ⟨[], by simp, rfl⟩, rfl⟩
      intro c hc hp
      exact hne c hc (List.prefix_nil.mp hp)
    | cons x t =>
      unfold trimLeftBy
      rw [trimLeftGo]
      split
      · rename_i h0
        exact ⟨(headLen_eq_zero hne).mp h0, [], ⟨[], by simp, rfl⟩, rfl⟩
      · rename_i h0
        obtain ⟨c, hc, ⟨r, hr⟩, hl⟩ := headLen_pos h0
        rw [trimLeftGo_skip]
        have hd : t.drop (headLen chars (x :: t) - 1) = r := by
          rw [← hl]
          cases c with
          | nil => exact absurd rfl (hne [] hc)
          | cons y c =>
            simp only [List.cons_append, List.cons.injEq] at hr
            rw [← hr.2]; simp
        rw [hd]
        have hlen : r.length < n := by
          have := congrArg List.length hr
          have h1 := List.length_pos_of_ne_nil (hne c hc)
          simp only [List.length_append] at this
          omega
        obtain ⟨h1, w, ⟨l, hl1, hl2⟩, h3⟩ := ih r.length hlen r rfl
        refine ⟨h1, c ++ w, ⟨c :: l, ?_, by simp [hl2]⟩, ?_⟩
        · intro d hd
          simp only [List.mem_cons] at hd
          rcases hd with rfl | hd
          · exact hc
          · exact hl1 d hd
        · rw [← hr, List.append_assoc]
          exact congrArg (c ++ ·) h3

/-- Nothing to remove. -/
theorem trimLeftBy_of_clean {chars : List Str} (hne : ∀ c ∈ chars, c ≠ []) {s : Str} (h : ∀ c ∈ chars, ¬ c <+: s) :
    trimLeftBy chars s = s := by
  cases s with
  | nil => rfl
  | cons x t =>
    unfold trimLeftBy
    rw [trimLeftGo, if_pos ((headLen_eq_zero hne).mpr h)]

theorem spaceChars_ne : ∀ c ∈ spaceChars, c ≠ [] := by decide

theorem spaceChars_rev_ne : ∀ c ∈ spaceChars.map List.reverse, c ≠ [] := by decide

/-- **`trimSpace`**: white space is removed from both ends, and nothing else. -/
theorem trimSpace_spec (s : Str) :
    (∀ c ∈ spaceChars, ¬ c <+: trimSpace s) ∧ (∀ c ∈ spaceChars, ¬ c <:+ trimSpace s) ∧
    ∃ l r, AllSpace spaceChars l ∧ AllSpace spaceChars r ∧ s = l ++ trimSpace s ++ r := by
  obtain ⟨h1, l, hl, e1⟩ := trimLeftBy_spec spaceChars_ne s
  obtain ⟨h2, r, ⟨rl, hr1, hr2⟩, e2⟩ := trimLeftBy_spec spaceChars_rev_ne (trimSpaceLeft s).reverse
  have e3 : trimSpaceLeft s = trimSpace s ++ r.reverse := by
    unfold trimSpace trimSpaceRight
    have := congrArg List.reverse e2
    simpa using this
  refine ⟨?_, ?_, l, r.reverse, hl, ⟨(rl.map List.reverse).reverse, ?_, ?_⟩, ?_⟩
  · intro c hc hp
    refine h1 c hc (hp.trans ?_)
    show trimSpace s <+: trimSpaceLeft s
    rw [e3]
    exact List.prefix_append _ _
  · intro c hc hp
    refine h2 c.reverse (List.mem_map_of_mem hc) ?_
    have : (trimLeftBy (spaceChars.map List.reverse) (trimSpaceLeft s).reverse) = (trimSpace s).reverse := by
      unfold trimSpace trimSpaceRight; simp
    rw [this]
    exact List.reverse_prefix.mpr hp
  · intro c hc
    rw [List.mem_reverse, List.mem_map] at hc
    obtain ⟨d, hd, rfl⟩ := hc
    obtain ⟨e, he, rfl⟩ := List.mem_map.mp (hr1 d hd)
    simpa using he
  · rw [hr2, List.reverse_flatten]
  · rw [List.append_assoc, ← e3]
    exact e1

theorem trimSpace_of_clean {s : Str} (h1 : ∀ c ∈ spaceChars, ¬ c <+: s) (h2 : ∀ c ∈ spaceChars, ¬ c <:+ s) :
    trimSpace s = s := by
  unfold trimSpace trimSpaceRight trimSpaceLeft
  rw [trimLeftBy_of_clean spaceChars_ne h1, trimLeftBy_of_clean spaceChars_rev_ne, List.reverse_reverse]
  intro c hc hp
  obtain ⟨d, hd, rfl⟩ := List.mem_map.mp hc
  exact h2 d hd (List.reverse_prefix.mp hp)

@[simp] theorem trimSpace_trimSpace (s : Str) : trimSpace (trimSpace s) = trimSpace s := by
  obtain ⟨h1, h2, -⟩ := trimSpace_spec s
  exact trimSpace_of_clean h1 h2

theorem trimSpace_infix (s : Str) : trimSpace s <:+: s := by
  obtain ⟨-, -, l, r, -, -, e⟩ := trimSpace_spec s
  exact ⟨l, r, e.symm⟩

theorem mem_of_mem_trimSpace {s : Str} {c : Byte} (h : c ∈ trimSpace s) : c ∈ s :=
  (trimSpace_infix s).sublist.mem h

theorem trimSpace_nil : trimSpace [] = [] := rfl

/-- A text that begins and ends with a visible ASCII character is not changed. -/
theorem trimSpace_visible {s : Str} (h1 : ∀ c, s.head? = some c → 33 ≤ c ∧ c ≤ 126)
    (h2 : ∀ c, s.getLast? = some c → 33 ≤ c ∧ c ≤ 126) : trimSpace s = s := by
  apply trimSpace_of_clean
  · rintro c hc ⟨t, rfl⟩
    have hne := spaceChars_ne c hc
    obtain ⟨b, c', rfl⟩ := List.exists_cons_of_ne_nil hne
    have := h1 b (by simp)
    have hall : ∀ c ∈ spaceChars, ∀ b, c.head? = some b → ¬ (33 ≤ b ∧ b ≤ 126) := by decide
    exact hall _ hc b rfl this
  · rintro c hc ⟨t, rfl⟩
    have hne := spaceChars_ne c hc
    have hl : (t ++ c).getLast? = c.getLast? := by rw [List.getLast?_append_of_ne_nil _ hne]
    obtain ⟨b, hb⟩ : ∃ b, c.getLast? = some b := by
      rw [← Option.isSome_iff_exists]; simpa using hne
    have := h2 b (hl.trans hb)
    have hall : ∀ c ∈ spaceChars, ∀ b, c.getLast? = some b → ¬ (33 ≤ b ∧ b ≤ 126) := by decide
    exact hall _ hc b hb this

end Verif.Go
