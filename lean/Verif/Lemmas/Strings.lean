import Verif.Go.Strings
import Mathlib.Data.List.Basic

/-! Helper lemmas about the string functions. -/

set_option linter.unusedSectionVars false
set_option linter.unusedVariables false

namespace Verif.Go

variable {α : Type} [DecidableEq α]

theorem hasPrefix_iff {s p : List α} : hasPrefix s p = true ↔ p <+: s := by
  simp [hasPrefix, List.isPrefixOf_iff_prefix]

theorem hasSuffix_iff {s p : List α} : hasSuffix s p = true ↔ p <:+ s := by
  simp [hasSuffix]

/-! ### indexOf / contains -/

theorem contains_iff {s sub : List α} : contains s sub = true ↔ sub <:+: s := by
  induction s with
  | nil =>
    simp only [contains, indexOf]
    cases sub <;> simp
  | cons c t ih =>
    simp only [contains, indexOf] at ih ⊢
    split
    · rename_i h
      simp only [Option.isSome_some, true_iff]
      exact (List.isPrefixOf_iff_prefix.mp h).isInfix
    · rename_i h
      rw [List.isPrefixOf_iff_prefix] at h
      simp only [Option.isSome_map, ih, List.infix_cons_iff]
      tauto

theorem contains_singleton {s : List α} {c : α} : contains s [c] = true ↔ c ∈ s := by
  rw [contains_iff]
  constructor
  · rintro ⟨a, b, h⟩; rw [← h]; simp
  · intro h
    obtain ⟨a, b, rfl⟩ := List.append_of_mem h
    exact ⟨a, b, by simp⟩

theorem contains_eq_false_iff {s sub : List α} : contains s sub = false ↔ ¬ sub <:+: s := by
  rw [← contains_iff]; simp

/-! ### replaceAll -/

theorem replaceAllGo_skip (old new : List α) (k : Nat) (s : List α) :
    replaceAllGo old new k s = replaceAllGo old new 0 (s.drop k) := by
  induction s generalizing k with
  | nil => cases k <;> simp [replaceAllGo]
  | cons c t ih =>
    cases k with
    | zero => simp
    | succ k => simp only [replaceAllGo, List.drop_succ_cons]; exact ih k

@[simp] theorem replaceAll_nil (old new : List α) : replaceAll [] old new = [] := rfl

theorem replaceAll_of_prefix {old new s : List α} (h0 : old ≠ []) :
    replaceAll (old ++ s) old new = new ++ replaceAll s old new := by
  cases old with
  | nil => exact absurd rfl h0
  | cons o os =>
    have hp : (o :: os).isPrefixOf (o :: (os ++ s)) = true := by
      rw [List.isPrefixOf_iff_prefix]; exact ⟨s, rfl⟩
    simp only [replaceAll, List.cons_append, replaceAllGo, hp, if_true, List.length_cons,
      Nat.add_sub_cancel]
    rw [replaceAllGo_skip]
    simp

theorem replaceAll_cons_of_not_prefix {old new : List α} {c : α} {t : List α}
    (h : ¬ old <+: c :: t) : replaceAll (c :: t) old new = c :: replaceAll t old new := by
  have : old.isPrefixOf (c :: t) = false := by
    rw [← Bool.not_eq_true, List.isPrefixOf_iff_prefix]; exact h
  simp [replaceAll, replaceAllGo, this]

theorem replaceAll_singleton (c : α) (new s : List α) :
    replaceAll s [c] new = s.flatMap fun x => if x = c then new else [x] := by
  induction s with
  | nil => rfl
  | cons x t ih =>
    by_cases h : x = c
    · subst h
      have := replaceAll_of_prefix (old := [x]) (new := new) (s := t) (by simp)
      simp only [List.singleton_append] at this
      rw [this, ih]; simp
    · rw [replaceAll_cons_of_not_prefix (by simpa [List.prefix_cons_iff] using fun e => h e.symm), ih]
      simp [h]

theorem replaceAll_of_not_infix {old new s : List α} (h : ¬ old <:+: s) :
    replaceAll s old new = s := by
  induction s with
  | nil => rfl
  | cons c t ih =>
    rw [List.infix_cons_iff] at h
    rw [replaceAll_cons_of_not_prefix (fun e => h (Or.inl e)), ih (fun e => h (Or.inr e))]

theorem replaceAll_of_not_contains {old new s : List α} (h : contains s old = false) :
    replaceAll s old new = s :=
  replaceAll_of_not_infix (contains_eq_false_iff.mp h)

/-- Removing or replacing text that does not contain `c` keeps every `c`. -/
theorem mem_replaceAll_of_not_mem {old new s : List α} {c : α} (h0 : old ≠ []) (hc : c ∉ old)
    (h : c ∈ s) :
    c ∈ replaceAll s old new := by
  unfold replaceAll
  have key : ∀ k, (c ∈ s.drop k) → c ∈ replaceAllGo old new k s := by
    clear h
    induction s with
    | nil => intro k; simp
    | cons x t ih =>
      intro k hm
      cases k with
      | succ k => simpa [replaceAllGo] using ih k (by simpa using hm)
      | zero =>
        simp only [List.drop_zero] at hm
        simp only [replaceAllGo]
        split
        · rename_i hp
          rw [List.isPrefixOf_iff_prefix] at hp
          obtain ⟨r, hr⟩ := hp
          apply List.mem_append_right
          apply ih
          cases old with
          | nil => exact absurd rfl h0
          | cons o os =>
            simp only [List.cons_append, List.cons.injEq] at hr
            obtain ⟨rfl, rfl⟩ := hr
            simp only [List.length_cons, Nat.add_sub_cancel, List.drop_left]
            rcases List.mem_cons.mp hm with rfl | h
            · exact absurd (List.mem_cons_self) hc
            · rcases List.mem_append.mp h with h | h
              · exact absurd (List.mem_cons_of_mem _ h) hc
              · exact h
        · rcases List.mem_cons.mp hm with rfl | h
          · exact List.mem_cons_self
          · exact List.mem_cons_of_mem _ (ih 0 (by simpa using h))
  exact key 0 (by simpa using h)

/-! ### split / join -/

theorem splitGo_skip (sep : List α) (k : Nat) (s : List α) :
    splitGo sep k s = splitGo sep 0 (s.drop k) := by
  induction s generalizing k with
  | nil => cases k <;> simp [splitGo]
  | cons c t ih =>
    cases k with
    | zero => simp
    | succ k => simp only [splitGo, List.drop_succ_cons]; exact ih k

@[simp] theorem split_nil (sep : List α) : split [] sep = [[]] := rfl

theorem split_of_prefix {sep s : List α} (h0 : sep ≠ []) :
    split (sep ++ s) sep = [] :: split s sep := by
  cases sep with
  | nil => exact absurd rfl h0
  | cons o os =>
    have hp : (o :: os).isPrefixOf (o :: (os ++ s)) = true := by
      rw [List.isPrefixOf_iff_prefix]; exact ⟨s, rfl⟩
    simp only [split, List.cons_append, splitGo, hp, if_true, List.length_cons,
      Nat.add_sub_cancel]
    rw [splitGo_skip]
    simp

theorem split_cons_of_not_prefix {sep : List α} {c : α} {t : List α}
    (h : ¬ sep <+: c :: t) : split (c :: t) sep = consHead c (split t sep) := by
  have : sep.isPrefixOf (c :: t) = false := by
    rw [← Bool.not_eq_true, List.isPrefixOf_iff_prefix]; exact h
  simp [split, splitGo, this]

theorem consHead_ne_nil (c : α) (l : List (List α)) : consHead c l ≠ [] := by
  cases l <;> simp [consHead]

/-- Case analysis for `split`/`replaceAll`: induction over the next occurrence of the separator. -/
theorem sep_induction {sep : List α} (h0 : sep ≠ []) {P : List α → Prop}
    (nil : P []) (sepCase : ∀ s, P s → P (sep ++ s))
    (cons : ∀ c t, ¬ sep <+: c :: t → P t → P (c :: t)) : ∀ s, P s := by
  intro s
  induction hn : s.length using Nat.strongRecOn generalizing s with
  | _ n ih =>
    cases s with
    | nil => exact nil
    | cons c t =>
      by_cases hp : sep <+: c :: t
      · obtain ⟨r, hr⟩ := hp
        rw [← hr]
        apply sepCase
        apply ih r.length _ r rfl
        have := congrArg List.length hr
        have h1 : 0 < sep.length := List.length_pos_iff.mpr h0
        simp only [List.length_append] at this
        omega
      · exact cons c t hp (ih t.length (by simp [← hn]) t rfl)

theorem split_ne_nil {sep : List α} (s : List α) (h0 : sep ≠ []) : split s sep ≠ [] := by
  induction s using sep_induction h0 with
  | nil => simp
  | sepCase s ih => rw [split_of_prefix h0]; simp
  | cons c t hp ih => rw [split_cons_of_not_prefix hp]; exact consHead_ne_nil _ _

theorem join_cons_of_ne_nil {sep p : List α} {l : List (List α)} (h : l ≠ []) :
    join sep (p :: l) = p ++ sep ++ join sep l := by
  cases l with
  | nil => exact absurd rfl h
  | cons => rfl

theorem join_consHead {sep : List α} {c : α} {l : List (List α)} (h : l ≠ []) :
    join sep (consHead c l) = c :: join sep l := by
  cases l with
  | nil => exact absurd rfl h
  | cons p ps => cases ps <;> simp [consHead, join]

/-- Splitting and joining with another separator is replacing. -/
theorem join_split {sep : List α} (new s : List α) (h0 : sep ≠ []) :
    join new (split s sep) = replaceAll s sep new := by
  induction s using sep_induction h0 with
  | nil => rfl
  | sepCase s ih =>
    rw [split_of_prefix h0, replaceAll_of_prefix h0, join_cons_of_ne_nil (split_ne_nil s h0), ih]
    simp
  | cons c t hp ih =>
    rw [split_cons_of_not_prefix hp, replaceAll_cons_of_not_prefix hp,
      join_consHead (split_ne_nil t h0), ih]

theorem replaceAll_self {sep : List α} (s : List α) (h0 : sep ≠ []) : replaceAll s sep sep = s := by
  induction s using sep_induction h0 with
  | nil => rfl
  | sepCase s ih => rw [replaceAll_of_prefix h0, ih]
  | cons c t hp ih => rw [replaceAll_cons_of_not_prefix hp, ih]

theorem join_split_self {sep : List α} (s : List α) (h0 : sep ≠ []) :
    join sep (split s sep) = s := by
  rw [join_split _ _ h0, replaceAll_self _ h0]

theorem split_of_not_infix {sep s : List α} (h0 : sep ≠ []) (h : ¬ sep <:+: s) :
    split s sep = [s] := by
  induction s with
  | nil => rfl
  | cons c t ih =>
    rw [List.infix_cons_iff] at h
    rw [split_cons_of_not_prefix (fun e => h (Or.inl e)), ih (fun e => h (Or.inr e))]
    rfl

theorem split_singleton_of_not_mem {c : α} {s : List α} (h : c ∉ s) : split s [c] = [s] := by
  apply split_of_not_infix (by simp)
  intro hi
  exact h (contains_singleton.mp (contains_iff.mpr hi))

theorem split_singleton_append {c : α} {a : List α} (b : List α) (h : c ∉ a) :
    split (a ++ c :: b) [c] = a :: split b [c] := by
  induction a with
  | nil => exact split_of_prefix (sep := [c]) (by simp)
  | cons x t ih =>
    simp only [List.mem_cons, not_or] at h
    rw [List.cons_append, split_cons_of_not_prefix (by simpa [List.prefix_cons_iff] using h.1),
      ih h.2]
    rfl

/-- Joining parts without the separator byte and splitting again gives the parts. -/
theorem split_join_singleton {c : α} : ∀ {l : List (List α)}, l ≠ [] → (∀ p ∈ l, c ∉ p) →
    split (join [c] l) [c] = l
  | [], h, _ => absurd rfl h
  | [p], _, hp => split_singleton_of_not_mem (hp p (by simp))
  | p :: q :: r, _, hp => by
    have := split_join_singleton (c := c) (l := q :: r) (by simp)
      (fun x hx => hp x (List.mem_cons_of_mem _ hx))
    show split (p ++ [c] ++ join [c] (q :: r)) [c] = _
    rw [List.append_assoc, List.singleton_append, split_singleton_append _ (hp p (by simp)), this]

/-- No part of a split contains the separator byte. -/
theorem not_mem_of_mem_split_singleton {c : α} {s p : List α} (h : p ∈ split s [c]) : c ∉ p := by
  induction s generalizing p with
  | nil => simp at h; simp [h]
  | cons x t ih =>
    by_cases hx : x = c
    · subst hx
      have := split_of_prefix (sep := [x]) (s := t) (by simp)
      simp only [List.singleton_append] at this
      rw [this] at h
      rcases List.mem_cons.mp h with rfl | h
      · simp
      · exact ih h
    · rw [split_cons_of_not_prefix (by simpa [List.prefix_cons_iff] using fun e => hx e.symm)] at h
      cases hs : split t [c] with
      | nil => exact absurd hs (split_ne_nil t (by simp))
      | cons q qs =>
        rw [hs] at h ih
        simp only [consHead, List.mem_cons] at h
        rcases h with rfl | h
        · simp only [List.mem_cons, not_or]
          exact ⟨fun e => hx e.symm, ih (by simp)⟩
        · exact ih (by simp [h])

/-! ### Replacing and splitting -/

/-- A prefix of `a ++ c :: b` without `c` is a prefix of `a`. -/
theorem prefix_of_prefix_sep {c : α} {a b p : List α} (hc : c ∉ p) (h : p <+: a ++ c :: b) : p <+: a := by
  rcases List.prefix_or_prefix_of_prefix h (List.prefix_append a (c :: b)) with h' | h'
  · exact h'
  · obtain ⟨r, rfl⟩ := h'
    cases r with
    | nil => simp
    | cons x r =>
      obtain ⟨u, hu⟩ := h
      rw [List.append_assoc] at hu
      have := List.append_cancel_left hu
      simp only [List.cons_append, List.cons.injEq] at this
      exact absurd (by simp [this.1]) hc

theorem replaceAll_sep {c : α} {old : List α} (new : List α) (h0 : old ≠ []) (hc : c ∉ old) (a b : List α) :
    replaceAll (a ++ c :: b) old new = replaceAll a old new ++ c :: replaceAll b old new := by
  induction a using sep_induction h0 with
  | nil =>
    rw [List.nil_append, replaceAll_cons_of_not_prefix]
    · rfl
    · intro h
      have := prefix_of_prefix_sep (a := []) hc h
      exact h0 (List.prefix_nil.mp this)
  | sepCase a ih => rw [List.append_assoc, replaceAll_of_prefix h0, ih, replaceAll_of_prefix h0, List.append_assoc]
  | cons x t hx ih =>
    rw [List.cons_append, replaceAll_cons_of_not_prefix, ih, replaceAll_cons_of_not_prefix hx]
    · rfl
    · intro h
      exact hx (prefix_of_prefix_sep hc (a := x :: t) h)

/-- Replacing commutes with splitting at a character that does not occur in the replaced text. -/
theorem replaceAll_join {c : α} {old : List α} (new : List α) (h0 : old ≠ []) (hc : c ∉ old) (l : List (List α)) :
    replaceAll (join [c] l) old new = join [c] (l.map fun x => replaceAll x old new) := by
  induction l with
  | nil => rfl
  | cons x l ih =>
    by_cases hl : l = []
    · subst hl; rfl
    · rw [join_cons_of_ne_nil hl, List.map_cons, join_cons_of_ne_nil (by simpa using hl), ← ih, List.append_assoc,
        List.singleton_append, replaceAll_sep new h0 hc, List.append_assoc, List.singleton_append]

theorem not_mem_replaceAll {c : α} {s old new : List α} (h0 : old ≠ []) (hs : c ∉ s) (hn : c ∉ new) :
    c ∉ replaceAll s old new := by
  induction s using sep_induction h0 with
  | nil => exact hs
  | sepCase s ih =>
    rw [replaceAll_of_prefix h0]
    simp only [List.mem_append, not_or] at hs ⊢
    exact ⟨hn, ih hs.2⟩
  | cons x t hx ih =>
    rw [replaceAll_cons_of_not_prefix hx]
    simp only [List.mem_cons, not_or] at hs ⊢
    exact ⟨hs.1, ih hs.2⟩

theorem split_replaceAll {c : α} {old new : List α} (h0 : old ≠ []) (hc : c ∉ old) (hn : c ∉ new) (s : List α) :
    split (replaceAll s old new) [c] = (split s [c]).map fun x => replaceAll x old new := by
  have hs := join_split_self (sep := [c]) s (by simp)
  have hne : split s [c] ≠ [] := split_ne_nil s (by simp)
  conv_lhs => rw [← hs]
  rw [replaceAll_join new h0 hc, split_join_singleton (by simpa using hne)]
  intro p hp
  simp only [List.mem_map] at hp
  obtain ⟨x, hx, rfl⟩ := hp
  exact not_mem_replaceAll h0 (not_mem_of_mem_split_singleton hx) hn

end Verif.Go
