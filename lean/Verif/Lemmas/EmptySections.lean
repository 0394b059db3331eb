import Verif.Lemmas.Sections
import Verif.Spec.Sections

/-!
# Sections without text are removed
-/

namespace Verif.Model
open Verif.Go Verif.Spec Verif.Lemmas
open scoped List

theorem withEmptySections_refl (title : Str → Prop) (lines : List Str) : WithEmptySections title lines lines := by
  induction lines with
  | nil => exact .nil
  | cons l lines ih => exact .line l _ _ ih

theorem withEmptySections_mem {title : Str → Prop} {lines all : List Str} (h : WithEmptySections title lines all) :
    ∀ l ∈ all, l ∈ lines ∨ l = [] ∨ title l := by
  induction h with
  | nil => simp
  | line l lines all _ ih =>
    intro x hx
    rcases List.mem_cons.mp hx with rfl | hx
    · simp
    · rcases ih x hx with h | h | h <;> simp [h]
  | emptySection h d blanks lines all hh hd ht he _ ih =>
    intro x hx
    rcases List.mem_cons.mp hx with rfl | hx
    · exact .inr (.inr ht)
    · rcases List.mem_append.mp hx with hx | hx
      · exact .inr (.inl (List.eq_of_mem_replicate hx))
      · exact ih x hx

theorem withEmptySections_sublist {title : Str → Prop} {lines all : List Str} (h : WithEmptySections title lines all) : lines <+ all := by
  induction h with
  | nil => exact .refl _
  | line l lines all _ ih => exact ih.cons_cons l
  | emptySection h d blanks lines all _ _ _ _ _ ih => exact (ih.trans (List.sublist_append_right _ _)).cons h

theorem withEmptySections_nil {title : Str → Prop} {lines : List Str} (h : WithEmptySections title lines []) : lines = [] := by
  cases h
  rfl

theorem sectionLoop_length (ls : List Str) : ∀ skip, (sectionLoop ls skip).length ≤ ls.length := by
  induction ls with
  | nil => intro skip; simp [sectionLoop]
  | cons l ls ih =>
    intro skip
    cases skip with
    | succ n => rw [sectionLoop]; have := ih n; simp; omega
    | zero =>
      rw [sectionLoop]
      split
      · split
        · split <;> simp
        · have h0 := ih 0
          have h1 := fun n => ih n
          dsimp only
          split
          · simpa using h0
          · split
            · have := h1 (walkSection (headingDepth l) ls).1
              simp; omega
            · have := h1 ((walkSection (headingDepth l) ls).1 + 1)
              simp; omega
      · simpa using ih 0

/-- A heading that stays has a section that is not empty. -/
theorem stable_heading {l : Str} {ls : List Str} (h : sectionLoop (l :: ls) 0 = l :: ls) :
    sectionLoop ls 0 = ls ∧ (0 < headingDepth l → headingDepth l < 10 → (walkSection (headingDepth l) ls).2 = false) ∧
      (0 < headingDepth l → ls ≠ [] → (walkSection (headingDepth l) ls).2 = false) := by
  rw [sectionLoop] at h
  split at h
  next hd =>
    split at h
    next h0 =>
      subst h0
      split at h
      next hs => exact ⟨rfl, fun _ hlt => absurd hs (by unfold semiHeadingDepth; omega), fun _ hne => absurd rfl hne⟩
      next hs => cases h
    next h0 =>
      dsimp only at h
      split at h
      next he =>
        have he : (walkSection (headingDepth l) ls).2 = false := by simpa using he
        exact ⟨List.cons.inj h |>.2, fun _ _ => he, fun _ _ => he⟩
      next he =>
        exfalso
        split at h
        · have := sectionLoop_length ls (walkSection (headingDepth l) ls).1
          rw [h, List.length_cons] at this
          omega
        · have := sectionLoop_length ls ((walkSection (headingDepth l) ls).1 + 1)
          rw [h, List.length_cons] at this
          omega
  next hd => exact ⟨List.cons.inj h |>.2, fun h' => absurd h' hd, fun h' => absurd h' hd⟩

theorem headingLine_depth {h : Str} {d : Nat} (hh : HeadingLine h d) : 0 < d ∧ headingDepth h = d := by
  have hd : 0 < d := by cases hh <;> assumption
  exact ⟨hd, (headingDepth_iff hd).mpr (.heading _ _ hh)⟩

theorem walkSection_ends {d e : Nat} {rest : List Str} (ht : ∀ l ∈ rest, trimSpace l = l) (hd : e ≤ d) (h : SectionEnds e rest) :
    walkSection d rest = (0, true) := by
  rcases h with rfl | ⟨x, t, f, rfl, hf, hx⟩
  · rfl
  · obtain ⟨h0, h1⟩ := headingLine_depth hx
    rw [walkSection, ht x (by simp), if_pos (by omega), h1]
    simp
    omega

theorem walkSection_blanks (d n : Nat) (rest : List Str) : walkSection d (List.replicate n [] ++ rest) = ((walkSection d rest).1 + n, (walkSection d rest).2) := by
  induction n with
  | zero => rfl
  | succ n ih =>
    rw [List.replicate_succ, List.cons_append, walkSection]
    have : headingDepth (trimSpace []) = 0 := by decide +kernel
    rw [if_neg (by omega), ih]
    have : trimSpace [] = ([] : Str) := by decide +kernel
    simp [this]
    omega

/-- A section with text stays one when sections without text are added. -/
theorem walkSection_more {title : Str → Prop} {lines all : List Str} (h : WithEmptySections title lines all) (ht : ∀ l ∈ all, trimSpace l = l)
    (d : Nat) (hw : (walkSection d lines).2 = false) : (walkSection d all).2 = false := by
  induction h with
  | nil => exact hw
  | line l lines all _ ih =>
    rw [walkSection] at hw ⊢
    split at hw
    next hd =>
      rw [if_pos hd]
      exact hw
    next hd =>
      rw [if_neg hd]
      have := ih fun x hx => ht x (by simp [hx])
      dsimp only at hw ⊢
      cases he : (trimSpace l).isEmpty
      · rfl
      · rw [he] at hw
        simpa using this (by simpa using hw)
  | emptySection h e blanks lines all hh _ _ he _ ih =>
    have ht' : ∀ l ∈ all, trimSpace l = l := fun x hx => ht x (by simp [hx])
    have ih := ih ht' hw
    obtain ⟨h0, h1⟩ := headingLine_depth hh
    rw [walkSection, ht h (by simp), if_pos (by omega), h1]
    by_cases hle : e ≤ d
    · rw [walkSection_ends ht' hle he] at ih
      cases ih
    · simp
      omega

theorem sectionLoop_skip (a b : List Str) : sectionLoop (a ++ b) a.length = sectionLoop b 0 := by
  induction a with
  | nil => rfl
  | cons l a ih => rw [List.length_cons, List.cons_append, sectionLoop, ih]

theorem sectionLoop_beyond (ls : List Str) : ∀ n, ls.length ≤ n → sectionLoop ls n = [] := by
  induction ls with
  | nil => intro n _; cases n <;> rfl
  | cons l ls ih =>
    intro n hn
    cases n with
    | zero => simp at hn
    | succ n => rw [sectionLoop]; exact ih n (by simpa using hn)

/-- Exactly the sections without text are removed. -/
theorem sectionLoop_more {title : Str → Prop} {lines all : List Str} (h : WithEmptySections title lines all) (ht : ∀ l ∈ all, trimSpace l = l)
    (hs : sectionLoop lines 0 = lines) (hlast : ∀ l ∈ lines.getLast?, headingDepth l = 0) : sectionLoop all 0 = lines := by
  induction h with
  | nil => rfl
  | line l lines all hm ih =>
    obtain ⟨h1, h2, h3⟩ := stable_heading hs
    have ht' : ∀ l ∈ all, trimSpace l = l := fun x hx => ht x (by simp [hx])
    have ih := ih ht' h1 fun x hx => hlast x (by
      cases lines with
      | nil => cases hx
      | cons y lines => rw [List.getLast?_cons_cons]; exact hx)
    by_cases hd : 0 < headingDepth l
    · by_cases hne : lines = []
      · subst hne
        have := hlast l (by simp)
        omega
      · have hw := walkSection_more hm ht' _ (h3 hd hne)
        have ha : all ≠ [] := by
          rintro rfl
          exact hne (withEmptySections_nil hm)
        rw [sectionLoop, if_pos hd, if_neg ha]
        dsimp only
        rw [hw]
        simp [ih]
    · rw [sectionLoop, if_neg hd, ih]
  | emptySection h d blanks lines all hh hd10 _ he _ ih =>
    have ht' : ∀ l ∈ all, trimSpace l = l := fun x hx => ht x (by simp [hx])
    have ih := ih ht' hs hlast
    obtain ⟨h0, h1⟩ := headingLine_depth hh
    have hw : walkSection d (List.replicate blanks [] ++ all) = (blanks, true) := by
      rw [walkSection_blanks, walkSection_ends ht' (Nat.le_refl d) he, Nat.zero_add]
    rw [sectionLoop, if_pos (by omega), h1]
    split
    next hnil =>
      have ha : all = [] := (List.append_eq_nil_iff.mp hnil).2
      rw [if_neg (by unfold semiHeadingDepth; omega)]
      subst ha
      exact ih
    next hnil =>
      rw [hw]
      simp only [Bool.not_true, Bool.false_eq_true, if_false]
      have hskip : sectionLoop (List.replicate blanks [] ++ all) blanks = sectionLoop all 0 := by
        simpa using sectionLoop_skip (List.replicate blanks []) all
      rcases he with rfl | ⟨x, t, f, rfl, hf, hx⟩
      · split
        · rw [hskip, ih]
        · rw [sectionLoop_beyond _ _ (by simp)]
          exact ih
      · obtain ⟨h4, h5⟩ := headingLine_depth hx
        rw [if_pos, hskip, ih]
        simp [startsWithHeading, h5, h4]

end Verif.Model
