import Verif.Spec.Config
import Verif.Lemmas.Path
import Verif.Lemmas.Strings

/-! Facts about paths, layers and the merge of configurations. -/

namespace Verif.Lemmas
open Verif.Go Verif.Model Verif.Spec

/-! ### Paths -/

theorem walk_eq {d es : List Str} (hd : b!".." ∉ d) :
    walk d es = (es.foldl (cleanStep true) d.reverse).reverse ∧ b!".." ∉ walk d es := by
  induction es generalizing d with
  | nil => simp [walk, hd]
  | cons e es ih =>
    unfold walk
    by_cases h1 : e = [] ∨ e = b!"."
    · rw [if_pos h1]
      have := ih hd
      simpa [List.foldl_cons, cleanStep, h1] using this
    · rw [if_neg h1]
      by_cases h2 : e = b!".."
      · rw [if_pos h2]
        have hd' : b!".." ∉ d.dropLast := fun h => hd (List.dropLast_subset _ h)
        have := ih hd'
        refine ⟨?_, this.2⟩
        rw [this.1, List.foldl_cons]
        congr 2
        unfold cleanStep
        rw [if_neg h1, if_pos h2]
        cases hr : d.reverse with
        | nil => simp at hr; simp [hr]
        | cons top rest =>
          have ht : top ≠ b!".." := by
            rintro rfl
            exact hd (by rw [← List.mem_reverse, hr]; simp)
          have : d = rest.reverse ++ [top] := by
            rw [← List.reverse_reverse d, hr]; simp
          simp [this, ht]
      · rw [if_neg h2]
        have hd' : b!".." ∉ d ++ [e] := by
          simp only [List.mem_append, List.mem_singleton, not_or]
          exact ⟨hd, fun h => h2 h.symm⟩
        have := ih hd'
        refine ⟨?_, this.2⟩
        rw [this.1, List.foldl_cons]
        simp [cleanStep, h1, h2]

theorem isAbs_iff {p : Str} : isAbs p = true ↔ p.head? = some sepB := by
  cases p with
  | nil => simp [isAbs, hasPrefix]
  | cons c t =>
    simp only [isAbs, hasPrefix, List.isPrefixOf, List.head?_cons, Option.some.injEq, Bool.and_true, beq_iff_eq]
    exact eq_comm

theorem clean_abs {p : Str} (h : isAbs p = true) :
    clean p = sepB :: join b!"/" (walk [] (split p b!"/")) := by
  unfold clean renderPath cleanElems
  rw [h, if_pos rfl, (walk_eq (by simp)).1]
  rfl

theorem walk_append {d a b : List Str} : walk d (a ++ b) = walk (walk d a) b := by
  induction a generalizing d with
  | nil => rfl
  | cons e a ih =>
    simp only [List.cons_append, walk]
    split
    · exact ih
    split <;> exact ih

theorem pathJoin_abs {folder p : Str} (hf : isAbs folder = true) :
    pathJoin [folder, p] =
      sepB :: join b!"/" (walk (walk [] (split folder b!"/")) (split p b!"/")) := by
  have hne : folder ≠ [] := by rintro rfl; simp [isAbs, hasPrefix] at hf
  have : pathJoin [folder, p] = clean (folder ++ sepB :: p) := by
    simp [pathJoin, hne, join]
  rw [this, clean_abs (by rw [isAbs_append hne]; exact hf), split_singleton_append_split, walk_append]

theorem isAbs_pathJoin {folder : Str} {l : List Str} (hf : isAbs folder = true) :
    isAbs (pathJoin (folder :: l)) = true := by
  have hne : folder ≠ [] := by rintro rfl; simp [isAbs, hasPrefix] at hf
  unfold pathJoin
  simp only [List.dropWhile_cons, decide_eq_true_eq, hne, ↓reduceIte]
  rw [isAbs_clean]
  cases l with
  | nil => simpa [join] using hf
  | cons a l => simp only [join]; rw [List.append_assoc, isAbs_append hne]; exact hf

theorem isAbs_abs {cwd p : Str} (hc : isAbs cwd = true) : isAbs (abs cwd p) = true := by
  unfold abs
  split
  · rw [isAbs_clean]; assumption
  · exact isAbs_pathJoin hc

theorem toAbsolutePath_eq {cwd p : Str} (hc : isAbs cwd = true) :
    toAbsolutePath cwd p = resolveAgainst cwd p := by
  unfold toAbsolutePath resolveAgainst abs
  by_cases hp : p = []
  · simp [hp]
  by_cases ha : isAbs p = true
  · simp [hp, ha, isAbs_iff.mp ha]
  · have h2 : ¬ p.head? = some sepB := fun h => ha (isAbs_iff.mpr h)
    rw [if_pos ⟨hp, ha⟩, if_neg ha, if_neg hp, if_neg h2, pathJoin_abs hc]

theorem toAbsolutePathWithBasedir_eq {cwd d p : Str} (hd : isAbs d = true) :
    toAbsolutePathWithBasedir cwd d p = resolveAgainst d p := by
  unfold toAbsolutePathWithBasedir resolveAgainst abs
  by_cases hp : p = []
  · simp [hp]
  by_cases ha : isAbs p = true
  · simp [hp, ha, isAbs_iff.mp ha]
  · have h2 : ¬ p.head? = some sepB := fun h => ha (isAbs_iff.mpr h)
    rw [if_pos ⟨hp, ha⟩, if_pos (isAbs_pathJoin hd), if_neg hp, if_neg h2, ← pathJoin_abs hd]
    have hne : d ≠ [] := by rintro rfl; simp [isAbs, hasPrefix] at hd
    have : pathJoin [d, p] = clean (d ++ sepB :: p) := by simp [pathJoin, hne, join]
    rw [this, clean_clean]

/-- A resolved path is empty or absolute. -/
theorem resolveAgainst_cases (d p : Str) : resolveAgainst d p = [] ∨ isAbs (resolveAgainst d p) = true := by
  unfold resolveAgainst
  split
  · exact .inl rfl
  · right
    split
    · rename_i h; exact isAbs_iff.mpr h
    · exact isAbs_iff.mpr rfl

/-- Resolving an empty or an absolute path changes nothing. -/
theorem toAbsolutePath_of {cwd p : Str} (h : p = [] ∨ isAbs p = true) : toAbsolutePath cwd p = p := by
  unfold toAbsolutePath
  rw [if_neg]
  rintro ⟨h1, h2⟩
  rcases h with h | h
  · exact h1 h
  · exact h2 h

theorem isAbs_dir {p : Str} (h : isAbs p = true) : isAbs (dir p) = true := by
  unfold dir
  rw [isAbs_clean]
  cases p with
  | nil => simp [isAbs, hasPrefix] at h
  | cons c t =>
    have hc : c = sepB := by simpa using isAbs_iff.mp h
    subst hc
    have key : ∀ l : Str, ∃ m, (l ++ [sepB]).dropWhile (· ≠ sepB) = m ++ [sepB] := by
      intro l
      induction l with
      | nil => exact ⟨[], by simp⟩
      | cons a l ih =>
        by_cases ha : a = sepB
        · exact ⟨a :: l, by simp [ha]⟩
        · obtain ⟨m, hm⟩ := ih
          exact ⟨m, by simpa [ha] using hm⟩
    obtain ⟨m, hm⟩ := key t.reverse
    rw [List.reverse_cons, hm, List.reverse_append]
    exact isAbs_iff.mpr rfl

theorem isAbs_toAbsolutePath {cwd p : Str} (hc : isAbs cwd = true) (hp : p ≠ []) :
    isAbs (toAbsolutePath cwd p) = true := by
  unfold toAbsolutePath
  split
  · exact isAbs_abs hc
  · rename_i h
    by_contra hn
    exact h ⟨hp, hn⟩

theorem equalsInAnyOrder_self {α : Type} [DecidableEq α] (l : List α) : equalsInAnyOrder l l = true := by
  simp [equalsInAnyOrder]

theorem isAbs_projectCwd {cwd pf : Str} (hc : isAbs cwd = true) : isAbs (projectCwd cwd pf) = true := by
  unfold projectCwd
  split
  · exact isAbs_abs hc
  · exact hc

/-! ### The validity check -/

theorem occurs_iff {w t : Str} : contains t w = true ↔ Occurs w t := by
  rw [contains_iff]
  constructor
  · rintro ⟨a, b, h⟩; exact ⟨a, b, h.symm⟩
  · rintro ⟨a, b, h⟩; exact ⟨a, b, h.symm⟩

theorem optionalTemplateOk_iff {t : Str} :
    optionalTemplateOk t = true ↔ t = [] ∨ HasPlaceholders t := by
  simp [optionalTemplateOk, HasPlaceholders, occurs_iff]

theorem verify_iff {t d : Str} : verifyOutputAndDriver t d = true ↔ (t, d) ∈ supported := by
  unfold verifyOutputAndDriver supported
  simp only [List.mem_cons, Prod.mk.injEq, List.not_mem_nil, or_false]
  by_cases h1 : t = b!"epub2"
  · subst h1; simp
  by_cases h2 : t = b!"epub3"
  · subst h2; simp
  by_cases h3 : t = b!"stats-json"
  · subst h3; simp
  by_cases h4 : t = b!"stats-txt"
  · subst h4; simp
  · simp [h1, h2, h3, h4]

theorem ite_fatal {p : Prop} [Decidable p] {r : Res Unit} :
    (if p then Res.fatal else r) = .ok () ↔ ¬ p ∧ r = .ok () := by
  split
  · rename_i h; simp [h]
  · rename_i h; simp [h]

theorem supported_type {t d : Str} (h : (t, d) ∈ supported) :
    ¬ (t ≠ b!"epub2" ∧ t ≠ b!"epub3" ∧ t ≠ b!"stats-json" ∧ t ≠ b!"stats-txt") ∧
    ¬ (d ≠ b!"pandoc" ∧ d ≠ b!"internal") := by
  simp only [supported, List.mem_cons, Prod.mk.injEq, List.not_mem_nil, or_false] at h
  rcases h with ⟨rfl, rfl⟩ | ⟨rfl, rfl⟩ | ⟨rfl, rfl⟩ | ⟨rfl, rfl⟩ | ⟨rfl, rfl⟩ <;> simp

theorem not_three {s a b c : Str} : ¬ (s ≠ a ∧ s ≠ b ∧ s ≠ c) ↔ s ∈ [a, b, c] := by
  simp only [List.mem_cons, List.not_mem_nil, or_false]
  tauto

theorem assertValidity_iff (c : Config) : assertValidity c = .ok () ↔ Documented c := by
  unfold assertValidity
  simp only [ite_fatal, not_three, verify_iff, optionalTemplateOk_iff,
    occurs_iff, Classical.not_not, Int.not_lt, Int.not_le, and_true, gt_iff_lt]
  constructor
  · rintro ⟨_, _, h3, h4, h5, h6, h7, _, h9, h10, h11, h12, h13, h14, h15, h16⟩
    exact ⟨h3, h4, by omega, h6, h7, ⟨h9, h10⟩, h11, h12, h13, h14, h15, h16⟩
  · intro h
    refine ⟨(supported_type h.output).1, (supported_type h.output).2, h.output, h.math, by have := h.tocDepth; omega,
      h.workerThreads, h.svg, ?_, h.mathSvg.1, h.mathSvg.2, h.image, h.pdf, h.webp, h.size, h.age,
      h.eviction⟩
    intro h0
    obtain ⟨a, b, hab⟩ := h.mathSvg.1
    rw [h0] at hab
    simp at hab

end Verif.Lemmas
