import Verif.Model.Cleaner
import Verif.Spec.Cleaner
import Verif.Lemmas.Space
import Mathlib.Tactic.Tauto

namespace Verif.Lemmas
open Verif.Go Verif.Model Verif.Spec
open scoped List

theorem headingLoop_replicate (d : Nat) (l r : List Byte) (k : Nat) :
    headingLoop (List.replicate d 0x3D ++ l) (List.replicate d 0x3D ++ r) k = headingLoop l r (k + d) := by
  induction d generalizing k with
  | zero => rfl
  | succ d ih =>
    simp only [List.replicate_succ, List.cons_append]
    rw [headingLoop]
    simp only [ne_eq, not_true_eq_false, and_self, if_false]
    rw [ih]
    congr 1; omega

theorem headingDepth_of_heading {line : Str} {d : Nat} (h : HeadingLine line d) : headingDepth line = d := by
  cases h with
  | text d mid hd h0 h1 h2 =>
    obtain ⟨d, rfl⟩ : ∃ e, d = e + 1 := ⟨d - 1, by omega⟩
    unfold headingDepth
    rw [if_neg]
    · rw [List.append_assoc, List.reverse_append, List.reverse_append, List.reverse_replicate]
      rw [List.append_assoc, headingLoop_replicate]
      cases mid with
      | nil => exact absurd rfl h0
      | cons x mid =>
        obtain ⟨y, r, hr⟩ : ∃ y r, (x :: mid).reverse = y :: r := by
          cases hr : (x :: mid).reverse with
          | nil => simp at hr
          | cons y r => exact ⟨y, r, rfl⟩
        rw [hr]
        simp only [List.cons_append]
        rw [headingLoop, if_pos]
        · omega
        · refine ⟨by simpa using h1, ?_⟩
          have : (x :: mid).getLast? = some y := by rw [← List.head?_reverse, hr]; rfl
          rw [this] at h2
          simpa using h2
    · rw [hasPrefix_iff, hasSuffix_iff]
      simp only [not_or, not_not]
      exact ⟨⟨List.replicate d 0x3D ++ mid ++ List.replicate (d + 1) 0x3D, by simp [List.replicate_succ]⟩,
        ⟨List.replicate (d + 1) 0x3D ++ mid ++ List.replicate d 0x3D, by simp [List.replicate_succ']⟩⟩
  | signs d hd =>
    obtain ⟨d, rfl⟩ : ∃ e, d = e + 1 := ⟨d - 1, by omega⟩
    unfold headingDepth
    rw [if_neg]
    · rw [List.reverse_replicate]
      have := headingLoop_replicate (d + 1) [] [] 0
      simp only [List.append_nil] at this
      rw [this]
      simp [headingLoop]
    · rw [hasPrefix_iff, hasSuffix_iff]
      simp only [not_or, not_not]
      exact ⟨⟨List.replicate d 0x3D, by simp [List.replicate_succ]⟩, ⟨List.replicate d 0x3D, by simp [List.replicate_succ']⟩⟩

theorem headingDepth_of_bold {line : Str} (h : BoldLine line) : headingDepth line = 10 := by
  unfold headingDepth
  rw [if_pos, if_pos]
  · rfl
  · rw [hasPrefix_iff, hasSuffix_iff]; exact h
  · left
    rw [hasPrefix_iff]
    rintro ⟨r, hr⟩
    obtain ⟨⟨s, hs⟩, -⟩ := h
    rw [← hr] at hs
    simp at hs

/-- Leading equal signs on both sides. -/
theorem headingLoop_pos {l r : List Byte} {k d : Nat} (hlen : l.length = r.length) (h : headingLoop l r k = d)
    (hd : 0 < d) : ∃ n, d = k + n ∧ ∃ l' r', l = List.replicate n 0x3D ++ l' ∧ r = List.replicate n 0x3D ++ r' ∧
      (∀ x, l'.head? = some x → x ≠ 0x3D) ∧ (∀ x, r'.head? = some x → x ≠ 0x3D) := by
  induction l generalizing r k with
  | nil =>
    have : r = [] := List.length_eq_zero_iff.mp hlen.symm
    subst this
    refine ⟨0, by simpa [headingLoop] using h.symm, [], [], rfl, rfl, by simp, by simp⟩
  | cons c l ih =>
    cases r with
    | nil => simp at hlen
    | cons e r =>
      rw [headingLoop] at h
      split at h
      · rename_i hc
        refine ⟨0, by omega, c :: l, e :: r, rfl, rfl, ?_, ?_⟩
        · intro x hx; simp at hx; rw [← hx]; exact hc.1
        · intro x hx; simp at hx; rw [← hx]; exact hc.2
      · rename_i hc
        split at h
        · omega
        · rename_i he
          have hce : c = e := by simpa using he
          subst hce
          have hc' : c = 0x3D := by
            by_contra hne
            exact hc ⟨hne, hne⟩
          subst hc'
          obtain ⟨n, h1, l', r', h2, h3, h4, h5⟩ := ih (by simpa using hlen) h
          exact ⟨n + 1, by omega, l', r', by rw [h2]; simp [List.replicate_succ], by rw [h3]; simp [List.replicate_succ], h4, h5⟩

theorem sectionStart_of_depth {line : Str} (h : 0 < headingDepth line) : SectionStart line (headingDepth line) := by
  by_cases hp : ¬ hasPrefix line b!"=" ∨ ¬ hasSuffix line b!"="
  · have e : headingDepth line = if hasPrefix line b!"'''" ∧ hasSuffix line b!"'''" then semiHeadingDepth else 0 := by
      unfold headingDepth; rw [if_pos hp]
    rw [e] at h ⊢
    split at h
    · rename_i hb
      rw [if_pos hb]
      rw [hasPrefix_iff, hasSuffix_iff] at hb
      exact .bold line hb
    · omega
  · have e : headingDepth line = headingLoop line line.reverse 0 := by unfold headingDepth; rw [if_neg hp]
    obtain ⟨n, hn, l', r', h1, h2, h3, h4⟩ := headingLoop_pos (by simp) e.symm h
    rw [Nat.zero_add] at hn
    rw [hn] at h ⊢
    refine .heading _ _ ?_
    have h2' : line = r'.reverse ++ List.replicate n 0x3D := by
      have := congrArg List.reverse h2
      simpa using this
    by_cases hl : l' = []
    · subst hl
      rw [h1]; simp only [List.append_nil]
      exact .signs n h
    · -- l' ends with the equal signs
      have hlen : l'.length = r'.length := by
        have := congrArg List.length h1
        have t2 := congrArg List.length h2'
        simp only [List.length_append, List.length_replicate, List.length_reverse] at this t2
        omega
      have hsuf : List.replicate n (0x3D : Byte) <:+ line := ⟨r'.reverse, h2'.symm⟩
      have hlsuf : l' <:+ line := ⟨List.replicate n 0x3D, h1.symm⟩
      have : List.replicate n (0x3D : Byte) <:+ l' := by
        rcases List.suffix_or_suffix_of_suffix hsuf hlsuf with hh | hh
        · exact hh
        · -- l' would consist of equal signs
          exfalso
          obtain ⟨x, t, rfl⟩ := List.exists_cons_of_ne_nil hl
          have hx : x ∈ List.replicate n (0x3D : Byte) := hh.mem (by simp)
          exact h3 x rfl (List.eq_of_mem_replicate hx)
      obtain ⟨mid, hm⟩ := this
      have e2 : line = List.replicate n 0x3D ++ mid ++ List.replicate n 0x3D := by rw [h1, ← hm]; simp
      have hr' : r'.reverse = List.replicate n 0x3D ++ mid := by
        rw [h2'] at e2
        exact List.append_cancel_right e2
      have hmid : mid ≠ [] := by
        rintro rfl
        obtain ⟨m, rfl⟩ : ∃ m, n = m + 1 := ⟨n - 1, by omega⟩
        rw [List.nil_append] at hm
        refine h3 0x3D ?_ rfl
        rw [← hm]; rfl
      rw [e2]
      refine .text n mid h hmid ?_ ?_
      · intro hh
        obtain ⟨x, t, rfl⟩ := List.exists_cons_of_ne_nil hmid
        refine h3 x ?_ (by simpa using hh)
        rw [← hm]; rfl
      · intro hh
        have : r'.head? = mid.getLast? := by
          have := congrArg List.reverse hr'
          rw [List.reverse_reverse] at this
          rw [this, List.reverse_append, List.head?_append]
          rw [List.head?_reverse]
          cases hg : mid.getLast? with
          | none => rw [hg] at hh; cases hh
          | some y => rfl
        exact h4 0x3D (by rw [this]; exact hh) rfl

/-- The lines that begin a section. -/
theorem headingDepth_iff {line : Str} {d : Nat} (hd : 0 < d) : headingDepth line = d ↔ SectionStart line d := by
  constructor
  · intro h
    have := sectionStart_of_depth (line := line) (by omega)
    rwa [h] at this
  · intro h
    cases h with
    | heading _ h => exact headingDepth_of_heading h
    | bold h => exact headingDepth_of_bold h

/-! ### The loop -/

/-- No white space at the ends of the lines. -/
def Trimmed (ls : List Str) : Prop := ∀ l ∈ ls, trimSpace l = l

theorem Trimmed.tail {l : Str} {ls : List Str} (h : Trimmed (l :: ls)) : Trimmed ls := fun x hx => h x (by simp [hx])

theorem Trimmed.right {a b : List Str} (h : Trimmed (a ++ b)) : Trimmed b := fun x hx => h x (by simp [hx])

theorem depth_nil : headingDepth [] = 0 := by decide

theorem walkSection_spec (d : Nat) (ls : List Str) (ht : Trimmed ls) :
    ∃ pre tail, ls = pre ++ tail ∧ (walkSection d ls).1 = pre.length ∧ (∀ l ∈ pre, headingDepth l = 0) ∧
      (tail = [] ∨ ∃ h t, tail = h :: t ∧ 0 < headingDepth h) ∧
      ((walkSection d ls).2 = true ↔ (∀ l ∈ pre, l = []) ∧ ∀ h t, tail = h :: t → headingDepth h ≤ d) := by
  induction ls with
  | nil => exact ⟨[], [], rfl, rfl, by simp, .inl rfl, by simp [walkSection]⟩
  | cons l ls ih =>
    have hl : trimSpace l = l := ht l (by simp)
    by_cases hd : headingDepth l > 0
    · refine ⟨[], l :: ls, rfl, ?_, by simp, .inr ⟨l, ls, rfl, hd⟩, ?_⟩
      · simp [walkSection, hl, hd]
      · simp [walkSection, hl, hd]
    · obtain ⟨pre, tail, h1, h2, h3, h4, h5⟩ := ih ht.tail
      refine ⟨l :: pre, tail, by rw [h1]; rfl, ?_, ?_, h4, ?_⟩
      · simp only [walkSection, hl, if_neg hd, h2, List.length_cons]
      · intro x hx
        simp only [List.mem_cons] at hx
        rcases hx with rfl | hx
        · omega
        · exact h3 x hx
      · simp only [walkSection, hl, if_neg hd, Bool.and_eq_true, List.isEmpty_iff, h5, List.mem_cons, forall_eq_or_imp]
        tauto

theorem sectionLoop_skip (ls : List Str) (k : Nat) : sectionLoop ls k = sectionLoop (ls.drop k) 0 := by
  induction ls generalizing k with
  | nil => cases k <;> simp [sectionLoop]
  | cons l ls ih =>
    cases k with
    | zero => rfl
    | succ k => rw [sectionLoop, ih]; rfl

/-- Only empty lines up to a heading that is not below level `d`, or up to the end. -/
def EmptySection (d : Nat) (blanks tail : List Str) : Prop :=
  (∀ l ∈ blanks, l = []) ∧ (tail = [] ∨ ∃ h t, tail = h :: t ∧ 0 < headingDepth h ∧ headingDepth h ≤ d)

theorem split_unique {a a' b b' : List Str} (h : a ++ b = a' ++ b') (ha : ∀ l ∈ a, headingDepth l = 0)
    (ha' : ∀ l ∈ a', headingDepth l = 0) (hb : b = [] ∨ ∃ h t, b = h :: t ∧ 0 < headingDepth h)
    (hb' : b' = [] ∨ ∃ h t, b' = h :: t ∧ 0 < headingDepth h) : a = a' ∧ b = b' := by
  induction a generalizing a' with
  | nil =>
    cases a' with
    | nil => exact ⟨rfl, h⟩
    | cons x a' =>
      simp only [List.nil_append] at h
      rcases hb with rfl | ⟨y, t, rfl, hy⟩
      · simp at h
      · simp only [List.cons_append, List.cons.injEq] at h
        have := ha' x (by simp)
        rw [← h.1] at this
        omega
  | cons x a ih =>
    cases a' with
    | nil =>
      simp only [List.nil_append] at h
      rcases hb' with rfl | ⟨y, t, rfl, hy⟩
      · simp at h
      · simp only [List.cons_append, List.cons.injEq] at h
        have := ha x (by simp)
        rw [h.1] at this
        omega
    | cons x' a' =>
      simp only [List.cons_append, List.cons.injEq] at h
      obtain ⟨rfl, h⟩ := h
      obtain ⟨rfl, rfl⟩ := ih h (fun l hl => ha l (by simp [hl])) (fun l hl => ha' l (by simp [hl]))
      exact ⟨rfl, rfl⟩

theorem sectionLoop_text {l : Str} (ls : List Str) (h : headingDepth l = 0) :
    sectionLoop (l :: ls) 0 = l :: sectionLoop ls 0 := by
  rw [sectionLoop, if_neg (by omega)]

theorem sectionLoop_empty {l : Str} {blanks tail : List Str} (ht : Trimmed (blanks ++ tail)) (h : 0 < headingDepth l)
    (he : EmptySection (headingDepth l) blanks tail) (hlast : blanks ++ tail = [] → headingDepth l ≠ 10) :
    sectionLoop (l :: (blanks ++ tail)) 0 = sectionLoop tail 0 := by
  rw [sectionLoop, if_pos h]
  by_cases h0 : blanks ++ tail = []
  · rw [if_pos h0, if_neg (show ¬ headingDepth l = semiHeadingDepth from hlast h0)]
    rw [List.append_eq_nil_iff] at h0
    rw [h0.2]; rfl
  · rw [if_neg h0]
    obtain ⟨pre, tail', h1, h2, h3, h4, h5⟩ := walkSection_spec (headingDepth l) (blanks ++ tail) ht
    have hb : ∀ x ∈ blanks, headingDepth x = 0 := fun x hx => by rw [he.1 x hx]; exact depth_nil
    have htail : tail = [] ∨ ∃ h t, tail = h :: t ∧ 0 < headingDepth h := by
      rcases he.2 with h | ⟨h, t, e, h', -⟩
      · exact .inl h
      · exact .inr ⟨h, t, e, h'⟩
    obtain ⟨rfl, rfl⟩ := split_unique h1 hb h3 htail h4
    have hemp : (walkSection (headingDepth l) (blanks ++ tail)).2 = true := by
      rw [h5]
      refine ⟨he.1, ?_⟩
      rintro x t rfl
      rcases he.2 with h | ⟨y, t', e, -, h'⟩
      · cases h
      · cases e; exact h'
    simp only [h2, hemp, Bool.not_true, Bool.false_eq_true, if_false]
    rw [List.drop_left]
    split
    · rw [sectionLoop_skip, List.drop_left]
    · rename_i hs
      rw [sectionLoop_skip]
      rcases htail with rfl | ⟨x, t, rfl, hx⟩
      · rw [List.drop_eq_nil_of_le (by simp)]
      · exact absurd (by simpa [startsWithHeading] using hx) hs

theorem sectionLoop_full {l : Str} {ls : List Str} (ht : Trimmed ls) (h : 0 < headingDepth l)
    (he : ∀ blanks tail, ls = blanks ++ tail → ¬ EmptySection (headingDepth l) blanks tail) :
    sectionLoop (l :: ls) 0 = l :: sectionLoop ls 0 := by
  rw [sectionLoop, if_pos h]
  have h0 : ls ≠ [] := by
    rintro rfl
    exact he [] [] rfl ⟨by simp, .inl rfl⟩
  rw [if_neg h0]
  obtain ⟨pre, tail, h1, h2, h3, h4, h5⟩ := walkSection_spec (headingDepth l) ls ht
  have : (walkSection (headingDepth l) ls).2 = false := by
    rw [← Bool.not_eq_true, h5]
    rintro ⟨ha, hb⟩
    refine he pre tail h1 ⟨ha, ?_⟩
    rcases h4 with h4 | ⟨x, t, e, hx⟩
    · exact .inl h4
    · exact .inr ⟨x, t, e, hx, hb x t e⟩
  simp [this]

/-- Induction over the loop. -/
theorem section_induction {P : List Str → Prop} (nil : P [])
    (text : ∀ l ls, headingDepth l = 0 → Trimmed ls → P ls → P (l :: ls))
    (last : ∀ l, headingDepth l = 10 → P [l])
    (empty : ∀ l blanks tail, 0 < headingDepth l → EmptySection (headingDepth l) blanks tail →
      (blanks ++ tail = [] → headingDepth l ≠ 10) → Trimmed (blanks ++ tail) → P tail → P (l :: (blanks ++ tail)))
    (full : ∀ l ls, 0 < headingDepth l →
      (∀ blanks tail, ls = blanks ++ tail → ¬ EmptySection (headingDepth l) blanks tail) → Trimmed ls → P ls → P (l :: ls)) :
    ∀ ls, Trimmed ls → P ls := by
  intro ls
  induction hn : ls.length using Nat.strongRecOn generalizing ls with
  | _ n ih =>
    intro ht
    cases ls with
    | nil => exact nil
    | cons l ls =>
      by_cases hd : headingDepth l = 0
      · exact text l ls hd ht.tail (ih ls.length (by rw [← hn]; simp) ls rfl ht.tail)
      · by_cases he : ∃ blanks tail, ls = blanks ++ tail ∧ EmptySection (headingDepth l) blanks tail
        · obtain ⟨blanks, tail, rfl, he⟩ := he
          by_cases hl : blanks ++ tail = [] ∧ headingDepth l = 10
          · rw [hl.1]; exact last l hl.2
          · refine empty l blanks tail (by omega) he (fun a b => hl ⟨a, b⟩) ht.tail
              (ih tail.length (by rw [← hn]; simp; omega) tail rfl ht.tail.right)
        · exact full l ls (by omega) (fun b t e h => he ⟨b, t, e, h⟩) ht.tail
            (ih ls.length (by rw [← hn]; simp) ls rfl ht.tail)

theorem sectionLoop_last {l : Str} (h : headingDepth l = 10) : sectionLoop [l] 0 = [l] := by
  rw [sectionLoop, if_pos (by omega), if_pos rfl, if_pos (show headingDepth l = semiHeadingDepth from h)]

theorem sectionLoop_sublist (ls : List Str) (ht : Trimmed ls) : sectionLoop ls 0 <+ ls := by
  revert ls
  refine section_induction ?_ ?_ ?_ ?_ ?_
  · exact List.Sublist.refl _
  · intro l ls h _ ih; rw [sectionLoop_text ls h]; exact ih.cons_cons l
  · intro l h; rw [sectionLoop_last h]
  · intro l blanks tail h he hl ht ih
    rw [sectionLoop_empty ht h he hl]
    exact (ih.trans (List.sublist_append_right blanks tail)).cons l
  · intro l ls h he ht ih; rw [sectionLoop_full ht h he]; exact ih.cons_cons l

/-- Lines with text. -/
def isTextLine (l : Str) : Bool := l ≠ [] && headingDepth l = 0

theorem sectionLoop_text_lines (ls : List Str) (ht : Trimmed ls) :
    (sectionLoop ls 0).filter isTextLine = ls.filter isTextLine := by
  revert ls
  refine section_induction ?_ ?_ ?_ ?_ ?_
  · rfl
  · intro l ls h _ ih; rw [sectionLoop_text ls h, List.filter_cons, List.filter_cons, ih]
  · intro l h; rw [sectionLoop_last h]
  · intro l blanks tail h he hl ht ih
    rw [sectionLoop_empty ht h he hl, ih, List.filter_cons, if_neg (by simp [isTextLine]; omega), List.filter_append]
    have : blanks.filter isTextLine = [] := by
      rw [List.filter_eq_nil_iff]
      intro x hx; rw [he.1 x hx]; decide
    rw [this]; rfl
  · intro l ls h he ht ih; rw [sectionLoop_full ht h he, List.filter_cons, List.filter_cons, ih]

/-- What follows a heading does not depend on what precedes it. -/
theorem sectionLoop_append (a b : List Str) (ht : Trimmed (a ++ b))
    (hb : ∃ h t, b = h :: t ∧ 0 < headingDepth h) :
    ∃ ra, ra <+ a ∧ sectionLoop (a ++ b) 0 = ra ++ sectionLoop b 0 := by
  induction hn : a.length using Nat.strongRecOn generalizing a with
  | _ n ih =>
    cases a with
    | nil => exact ⟨[], List.Sublist.refl _, rfl⟩
    | cons l a =>
      have ih' := ih a.length (by rw [← hn]; simp) a ht.tail rfl
      obtain ⟨ra, h1, h2⟩ := ih'
      by_cases hd : headingDepth l = 0
      · exact ⟨l :: ra, h1.cons_cons l, by rw [List.cons_append, sectionLoop_text _ hd, h2]; rfl⟩
      · by_cases he : ∃ blanks tail, a ++ b = blanks ++ tail ∧ EmptySection (headingDepth l) blanks tail
        · obtain ⟨blanks, tail, e, he⟩ := he
          have hne : a ++ b ≠ [] := by
            obtain ⟨h, t, rfl, -⟩ := hb; simp
          have hs : sectionLoop (l :: a ++ b) 0 = sectionLoop tail 0 := by
            rw [List.cons_append, e]
            exact sectionLoop_empty (by rw [← e]; exact ht.tail) (by omega) he (fun h => absurd (e.trans h) hne)
          -- the blank lines end in `a`
          rcases List.append_eq_append_iff.mp e with ⟨x, h3, h4⟩ | ⟨x, h3, h4⟩
          · -- blanks = a ++ x, b = x ++ tail
            cases x with
            | nil =>
              refine ⟨[], List.nil_sublist _, ?_⟩
              rw [hs, h4]; rfl
            | cons y x =>
              exfalso
              obtain ⟨h, t, rfl, hh⟩ := hb
              simp only [List.cons_append, List.cons.injEq] at h4
              have := he.1 y (by rw [h3]; simp)
              rw [h4.1, this, depth_nil] at hh
              omega
          · -- a = blanks ++ x, tail = x ++ b
            have htr : Trimmed (x ++ b) := by
              have : Trimmed (blanks ++ (x ++ b)) := by
                rw [← List.append_assoc, ← h3]; exact ht.tail
              exact this.right
            obtain ⟨rx, h5, h6⟩ := ih x.length (by rw [← hn, h3]; simp; omega) x htr rfl
            refine ⟨rx, ?_, ?_⟩
            · rw [h3]
              exact (h5.trans (List.sublist_append_right blanks x)).cons l
            · rw [hs, h4, h6]
        · refine ⟨l :: ra, h1.cons_cons l, ?_⟩
          rw [List.cons_append, sectionLoop_full (ls := a ++ b) ht.tail (by omega) (fun x y e h => he ⟨x, y, e, h⟩), h2]
          rfl

end Verif.Lemmas
