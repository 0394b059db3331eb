import Verif.Lemmas.Strings

/-! # First occurrences of separators that do not overlap themselves -/

namespace Verif.Go

set_option linter.unusedSectionVars false

variable {α : Type} [DecidableEq α]

/-- No proper end of `sep` is a beginning of `sep`: occurrences do not overlap. -/
def NoBorder (sep : List α) : Prop := sep ≠ [] ∧ ∀ k < sep.length, 0 < k → ¬ sep.drop k <+: sep

instance (sep : List α) : Decidable (NoBorder sep) := by unfold NoBorder; infer_instance

theorem NoBorder.ne {sep : List α} (h : NoBorder sep) : sep ≠ [] := h.1

/-- An occurrence in `a ++ sep ++ b` that begins in `a` lies in `a`. -/
theorem NoBorder.infix_of_prefix {sep a b : List α} (h : NoBorder sep) (ha : a ≠ []) (hp : sep <+: a ++ sep ++ b) :
    sep <+: a := by
  rw [List.append_assoc] at hp
  rcases List.prefix_or_prefix_of_prefix hp (List.prefix_append a (sep ++ b)) with h' | h'
  · exact h'
  · obtain ⟨r, hr⟩ := h'
    -- sep = a ++ r, and r is a beginning of sep ++ b
    by_cases hr0 : r = []
    · subst hr0; rw [← hr]; simp
    · exfalso
      rw [← hr, List.prefix_append_right_inj] at hp
      have hl : r.length ≤ sep.length := by rw [← hr]; simp
      have : r <+: sep := by
        have h1 : r <+: (a ++ r) ++ b := hp
        rw [hr] at h1
        exact List.prefix_of_prefix_length_le h1 (List.prefix_append sep b) hl
      have hd : sep.drop a.length = r := by rw [← hr]; simp
      refine h.2 a.length ?_ (List.length_pos_of_ne_nil ha) (by rw [hd]; exact this)
      rw [← hr]
      simp [List.length_pos_of_ne_nil hr0]

theorem NoBorder.cut_append {sep : List α} (h : NoBorder sep) {a : List α} (b : List α) (ha : ¬ sep <:+: a) :
    cut sep (a ++ sep ++ b) = some (a, b) := by
  induction a with
  | nil =>
    cases hs : sep with
    | nil => exact absurd hs h.1
    | cons c t =>
      have : (c :: t).isPrefixOf (c :: (t ++ b)) = true := by
        rw [List.isPrefixOf_iff_prefix]; exact List.prefix_append (c :: t) b
      simp [cut]
  | cons c a ih =>
    have hn : ¬ sep <+: (c :: a) ++ sep ++ b := fun hp => ha (h.infix_of_prefix (by simp) hp).isInfix
    have : sep.isPrefixOf (c :: (a ++ sep ++ b)) = false := by
      rw [← Bool.not_eq_true, List.isPrefixOf_iff_prefix]; exact hn
    have ih' := ih fun hi => ha (hi.trans (List.suffix_cons c a).isInfix)
    show cut sep (c :: (a ++ sep ++ b)) = _
    rw [cut, this, ih']
    rfl

theorem NoBorder.split_append {sep : List α} (h : NoBorder sep) {a : List α} (b : List α) (ha : ¬ sep <:+: a) :
    split (a ++ sep ++ b) sep = a :: split b sep := by
  induction a with
  | nil => exact split_of_prefix h.1
  | cons c a ih =>
    have hn : ¬ sep <+: c :: (a ++ sep ++ b) := fun hp => ha (h.infix_of_prefix (a := c :: a) (b := b) (by simp) hp).isInfix
    have ih' := ih fun hi => ha (hi.trans (List.suffix_cons c a).isInfix)
    show split (c :: (a ++ sep ++ b)) sep = _
    rw [split_cons_of_not_prefix hn, ih']
    rfl

theorem cut_eq_none {sep s : List α} (h0 : sep ≠ []) : cut sep s = none ↔ ¬ sep <:+: s := by
  induction s with
  | nil =>
    have : sep.isPrefixOf ([] : List α) = false := by
      rw [← Bool.not_eq_true, List.isPrefixOf_iff_prefix, List.prefix_nil]; exact h0
    simp [cut, this, h0]
  | cons c t ih =>
    rw [cut]
    split
    · rename_i hp
      rw [List.isPrefixOf_iff_prefix] at hp
      constructor
      · intro h; cases h
      · intro h; exact absurd hp.isInfix h
    · rename_i hp
      rw [List.isPrefixOf_iff_prefix] at hp
      simp only [Option.map_eq_none_iff, ih, List.infix_cons_iff, hp, false_or]

theorem cut_eq_some {sep s a b : List α} (h : cut sep s = some (a, b)) : s = a ++ sep ++ b := by
  induction s generalizing a with
  | nil =>
    rw [cut] at h
    split at h
    · rename_i hp
      rw [List.isPrefixOf_iff_prefix, List.prefix_nil] at hp
      simp only [Option.some.injEq, Prod.mk.injEq] at h
      obtain ⟨rfl, rfl⟩ := h
      simp [hp]
    · cases h
  | cons c t ih =>
    rw [cut] at h
    split at h
    · rename_i hp
      rw [List.isPrefixOf_iff_prefix] at hp
      obtain ⟨r, hr⟩ := hp
      simp only [Option.some.injEq, Prod.mk.injEq] at h
      obtain ⟨rfl, rfl⟩ := h
      rw [← hr]; simp
    · rw [Option.map_eq_some_iff] at h
      obtain ⟨⟨x, y⟩, h1, h2⟩ := h
      simp only [Prod.mk.injEq] at h2
      obtain ⟨rfl, rfl⟩ := h2
      rw [ih h1]; simp

theorem not_infix_of_cut {sep s a b : List α} (h0 : sep ≠ []) (h : cut sep s = some (a, b)) : ¬ sep <:+: a := by
  induction s generalizing a with
  | nil =>
    rw [cut] at h
    split at h
    · simp only [Option.some.injEq, Prod.mk.injEq] at h
      rw [← h.1]; simpa using h0
    · cases h
  | cons c t ih =>
    rw [cut] at h
    split at h
    · simp only [Option.some.injEq, Prod.mk.injEq] at h
      rw [← h.1]; simpa using h0
    · rename_i hp
      rw [List.isPrefixOf_iff_prefix] at hp
      rw [Option.map_eq_some_iff] at h
      obtain ⟨⟨x, y⟩, h1, h2⟩ := h
      simp only [Prod.mk.injEq] at h2
      obtain ⟨rfl, rfl⟩ := h2
      rw [List.infix_cons_iff, not_or]
      refine ⟨fun hpre => hp ?_, ih h1⟩
      rw [cut_eq_some h1]
      refine hpre.trans ?_
      rw [List.append_assoc]
      exact List.prefix_append (c :: x) _

/-- Existence of a first occurrence. -/
theorem exists_first {sep s : List α} (h0 : sep ≠ []) (h : sep <:+: s) :
    ∃ a b, s = a ++ sep ++ b ∧ ¬ sep <:+: a := by
  cases hc : cut sep s with
  | none => exact absurd h ((cut_eq_none h0).mp hc)
  | some p => exact ⟨p.1, p.2, cut_eq_some hc, not_infix_of_cut h0 hc⟩

theorem not_infix_of_mem_split {sep s p : List α} (h0 : sep ≠ []) (h : p ∈ split s sep) : ¬ sep <:+: p := by
  -- stronger: also no occurrence starts within the first part when followed by the rest
  suffices hs : (∀ q ∈ split s sep, ¬ sep <:+: q) ∧ ∃ q l, split s sep = q :: l ∧ q <+: s by exact hs.1 p h
  clear h
  induction s using sep_induction h0 with
  | nil =>
    refine ⟨?_, [], [], rfl, List.prefix_refl _⟩
    intro q hq
    have : q = [] := by simpa [split, splitGo] using hq
    rw [this]; simpa using h0
  | sepCase s ih =>
    rw [split_of_prefix h0]
    refine ⟨?_, [], _, rfl, List.nil_prefix⟩
    intro q hq
    simp only [List.mem_cons] at hq
    rcases hq with rfl | hq
    · simpa using h0
    · exact ih.1 q hq
  | cons c t hnp ih =>
    rw [split_cons_of_not_prefix hnp]
    obtain ⟨ih1, q, l, e, hq⟩ := ih
    rw [e, consHead]
    refine ⟨?_, c :: q, l, rfl, ?_⟩
    · intro x hx
      simp only [List.mem_cons] at hx
      rcases hx with rfl | hx
      · rw [List.infix_cons_iff, not_or]
        refine ⟨fun hp => hnp (hp.trans ?_), ih1 q (by rw [e]; simp)⟩
        exact List.cons_prefix_cons.mpr ⟨rfl, hq⟩
      · exact ih1 x (by rw [e]; simp [hx])
    · exact List.cons_prefix_cons.mpr ⟨rfl, hq⟩

end Verif.Go
