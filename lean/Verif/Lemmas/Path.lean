import Verif.Go.Path
import Verif.Lemmas.Strings
import Mathlib.Data.List.Induction

set_option linter.unusedSectionVars false

namespace Verif.Go

theorem split_singleton_append_split {α : Type} [DecidableEq α] (c : α) (a b : List α) :
    split (a ++ c :: b) [c] = split a [c] ++ split b [c] := by
  induction a with
  | nil =>
    have := split_of_prefix (sep := [c]) (s := b) (by simp)
    simpa using this
  | cons x t ih =>
    by_cases hx : x = c
    · subst hx
      have h1 := split_of_prefix (sep := [x]) (s := t ++ x :: b) (by simp)
      have h2 := split_of_prefix (sep := [x]) (s := t) (by simp)
      simp only [List.singleton_append] at h1 h2
      rw [List.cons_append, h1, h2, ih]; rfl
    · have hp : ∀ r : List α, ¬ [c] <+: x :: r := by
        intro r; simpa [List.prefix_cons_iff] using fun e => hx e.symm
      rw [List.cons_append, split_cons_of_not_prefix (hp _), split_cons_of_not_prefix (hp _), ih]
      cases hs : split t [c] with
      | nil => exact absurd hs (split_ne_nil t (by simp))
      | cons q qs => rfl

/-- A path element that `filepath.Clean` keeps as it is. -/
structure Plain (e : Str) : Prop where
  ne_nil : e ≠ []
  ne_dot : e ≠ b!"."
  ne_dotdot : e ≠ b!".."
  no_sep : sepB ∉ e

theorem cleanStep_plain {r : Bool} {stack : List Str} {e : Str} (h : Plain e) :
    cleanStep r stack e = e :: stack := by
  simp [cleanStep, h.ne_nil, h.ne_dot, h.ne_dotdot]

theorem isAbs_append {a b : Str} (h : a ≠ []) : isAbs (a ++ b) = isAbs a := by
  cases a with
  | nil => exact absurd rfl h
  | cons c t => simp [isAbs, hasPrefix, List.isPrefixOf]

theorem isAbs_false_of_no_sep {p : Str} (h : sepB ∉ p) : isAbs p = false := by
  cases p with
  | nil => rfl
  | cons c t =>
    simp only [List.mem_cons, not_or] at h
    simp [isAbs, hasPrefix, List.isPrefixOf, h.1]

theorem cleanElems_append_plain {d e : Str} (hd : d ≠ []) (he : Plain e) :
    cleanElems (d ++ b!"/" ++ e) = cleanElems d ++ [e] := by
  unfold cleanElems
  rw [List.append_assoc, isAbs_append hd, List.singleton_append, split_singleton_append_split,
    split_singleton_of_not_mem he.no_sep, List.foldl_append]
  simp [cleanStep_plain he]

theorem cleanElems_plain {e : Str} (he : Plain e) : cleanElems e = [e] := by
  unfold cleanElems
  rw [split_singleton_of_not_mem he.no_sep]
  simp [cleanStep_plain he]

/-! Clean element lists are fixed points. -/

/-- The stack (last element first) is a fixed point of cleaning. -/
structure NF (r : Bool) (stack : List Str) : Prop where
  no_sep : ∀ e ∈ stack, sepB ∉ e
  fix : stack.reverse.foldl (cleanStep r) [] = stack

theorem cleanStep_length (r : Bool) (stack : List Str) (e : Str) :
    (cleanStep r stack e).length ≤ stack.length + 1 := by
  unfold cleanStep
  split
  · omega
  split
  · split
    · split <;> simp
      omega
    · split <;> simp
  · simp

theorem foldl_cleanStep_length (r : Bool) (l stack : List Str) :
    (l.foldl (cleanStep r) stack).length ≤ stack.length + l.length := by
  induction l generalizing stack with
  | nil => simp
  | cons e t ih =>
    have := ih (cleanStep r stack e)
    have := cleanStep_length r stack e
    simp only [List.foldl_cons, List.length_cons]
    omega

theorem NF.tail {r : Bool} {top : Str} {rest : List Str} (h : NF r (top :: rest)) : NF r rest := by
  refine ⟨fun e he => h.no_sep e (List.mem_cons_of_mem _ he), ?_⟩
  have hf := h.fix
  rw [List.reverse_cons, List.foldl_append] at hf
  have hl := foldl_cleanStep_length r rest.reverse []
  generalize hX : rest.reverse.foldl (cleanStep r) [] = X at hf hl ⊢
  simp only [List.foldl_cons, List.foldl_nil, List.length_nil, List.length_reverse, Nat.zero_add] at hf hl
  unfold cleanStep at hf
  split at hf
  · subst hf; simp at hl; omega
  split at hf
  · split at hf
    · split at hf
      · rename_i h1
        simp only [List.cons.injEq] at hf
        exact hf.2
      · subst hf; simp at hl; omega
    · split at hf
      · simp at hf
      · simp only [List.cons.injEq] at hf
        rw [← hf.2]
  · simp only [List.cons.injEq] at hf
    exact hf.2

theorem NF.ne_nil {r : Bool} {stack : List Str} (h : NF r stack) : ∀ e ∈ stack, e ≠ [] ∧ e ≠ b!"." := by
  induction stack with
  | nil => simp
  | cons top rest ih =>
    intro e he
    rcases List.mem_cons.mp he with rfl | he
    · have hf := h.fix
      rw [List.reverse_cons, List.foldl_append, h.tail.fix] at hf
      constructor
      · rintro rfl
        simp [cleanStep] at hf
      · rintro rfl
        simp [cleanStep] at hf
    · exact ih h.tail e he

theorem NF.step {r : Bool} {stack : List Str} {e : Str} (h : NF r stack) (he : sepB ∉ e) :
    NF r (cleanStep r stack e) := by
  have push : cleanStep r stack e = e :: stack → NF r (e :: stack) := by
    intro hc
    refine ⟨?_, ?_⟩
    · intro x hx
      rcases List.mem_cons.mp hx with rfl | hx
      · exact he
      · exact h.no_sep x hx
    · rw [List.reverse_cons, List.foldl_append, h.fix]
      simpa using hc
  by_cases h1 : e = [] ∨ e = b!"."
  · simpa [cleanStep, h1] using h
  by_cases h2 : e = b!".."
  · cases stack with
    | nil =>
      cases r with
      | true => simp only [cleanStep, h2, if_true]; exact ⟨by simp, rfl⟩
      | false =>
        have : cleanStep false [] e = [e] := by simp [cleanStep, h2]
        rw [this]; exact push this
    | cons top rest =>
      by_cases h3 : top = b!".."
      · have : cleanStep r (top :: rest) e = e :: top :: rest := by
          simp [cleanStep, h2, h3]
        rw [this]; exact push this
      · have : cleanStep r (top :: rest) e = rest := by simp [cleanStep, h2, h3]
        rw [this]; exact h.tail
  · have : cleanStep r stack e = e :: stack := by simp [cleanStep, h1, h2]
    rw [this]; exact push this

theorem NF.foldl {r : Bool} {l stack : List Str} (h : NF r stack) (hl : ∀ e ∈ l, sepB ∉ e) :
    NF r (l.foldl (cleanStep r) stack) := by
  induction l generalizing stack with
  | nil => exact h
  | cons e t ih =>
    exact ih (h.step (hl e (by simp))) (fun x hx => hl x (List.mem_cons_of_mem _ hx))

theorem NF_cleanElems (p : Str) : NF (isAbs p) (cleanElems p).reverse := by
  unfold cleanElems
  rw [List.reverse_reverse]
  exact NF.foldl ⟨by simp, rfl⟩ (fun e he => not_mem_of_mem_split_singleton he)

theorem join_ne_nil {es : List Str} (h : es ≠ []) (hne : ∀ e ∈ es, e ≠ []) : join b!"/" es ≠ [] := by
  cases es with
  | nil => exact absurd rfl h
  | cons a l =>
    have := hne a (by simp)
    cases l with
    | nil => simpa [join] using this
    | cons b r => simp [join, this]

theorem isAbs_renderPath {r : Bool} {es : List Str} (h : NF r es.reverse) :
    isAbs (renderPath r es) = r := by
  cases r with
  | true => simp [renderPath, isAbs, hasPrefix]
  | false =>
    cases es with
    | nil => rfl
    | cons a l =>
      have ha := (h.ne_nil a (by simp)).1
      have hs := h.no_sep a (by simp)
      have hfa := isAbs_false_of_no_sep hs
      cases l with
      | nil => simpa [renderPath, join] using hfa
      | cons b t =>
        simp only [renderPath, Bool.false_eq_true, if_false, join]
        rw [List.append_assoc]
        simpa [isAbs_append ha] using hfa

theorem cleanElems_renderPath {r : Bool} {es : List Str} (h : NF r es.reverse) :
    cleanElems (renderPath r es) = es := by
  unfold cleanElems
  rw [isAbs_renderPath h]
  have hfix := h.fix
  rw [List.reverse_reverse] at hfix
  have hsp : es ≠ [] → split (join b!"/" es) b!"/" = es := fun hn =>
    split_join_singleton hn (fun e he => h.no_sep e (by simpa using he))
  cases r with
  | true =>
    have hsplit : split (renderPath true es) b!"/" = [] :: split (join b!"/" es) b!"/" := by
      simp only [renderPath, if_true]
      exact split_of_prefix (sep := b!"/") (by simp)
    rw [hsplit, List.foldl_cons]
    have hc : cleanStep true [] [] = [] := by simp [cleanStep]
    rw [hc]
    by_cases hn : es = []
    · subst hn; rfl
    · rw [hsp hn, hfix, List.reverse_reverse]
  | false =>
    by_cases hn : es = []
    · subst hn; rfl
    · simp only [renderPath, Bool.false_eq_true, if_false, hn]
      rw [hsp hn, hfix, List.reverse_reverse]

theorem cleanElems_clean (p : Str) : cleanElems (clean p) = cleanElems p :=
  cleanElems_renderPath (NF_cleanElems p)

theorem isAbs_clean (p : Str) : isAbs (clean p) = isAbs p :=
  isAbs_renderPath (NF_cleanElems p)

/-- `filepath.Clean` is idempotent. -/
theorem clean_clean (p : Str) : clean (clean p) = clean p := by
  show renderPath (isAbs (clean p)) (cleanElems (clean p)) = _
  rw [isAbs_clean, cleanElems_clean]; rfl

theorem clean_ne_nil (p : Str) : clean p ≠ [] := by
  unfold clean renderPath
  split
  · simp
  split
  · simp
  · rename_i h
    apply join_ne_nil h
    intro e he
    exact ((NF_cleanElems p).ne_nil e (by simpa using he)).1

/-! Joining plain elements -/

theorem renderPath_append {r : Bool} {es : List Str} {e : Str} (h : es ≠ []) :
    renderPath r (es ++ [e]) = renderPath r es ++ b!"/" ++ e := by
  have hj : ∀ l : List Str, l ≠ [] → join b!"/" (l ++ [e]) = join b!"/" l ++ b!"/" ++ e := by
    intro l hl
    induction l with
    | nil => exact absurd rfl hl
    | cons a t ih =>
      cases t with
      | nil => simp [join]
      | cons b u => simpa [join] using ih (by simp)
  cases r with
  | true => simp [renderPath, hj es h]
  | false => simp [renderPath, hj es h, h]

theorem pathJoin_two {d e : Str} (he : Plain e) :
    pathJoin [d, e] = renderPath (isAbs d) (cleanElems d ++ [e]) := by
  by_cases hd : d = []
  · subst hd
    have : pathJoin [[], e] = clean e := by simp [pathJoin, he.ne_nil, join]
    rw [this]
    unfold clean
    rw [cleanElems_plain he, isAbs_false_of_no_sep he.no_sep]
    rfl
  · have : pathJoin [d, e] = clean (d ++ b!"/" ++ e) := by simp [pathJoin, hd, join]
    rw [this]
    unfold clean
    rw [cleanElems_append_plain hd he, List.append_assoc, isAbs_append hd]

theorem pathJoin_three {d e n : Str} (he : Plain e) (hn : Plain n) :
    pathJoin [d, e, n] = renderPath (isAbs d) (cleanElems d ++ [e, n]) := by
  by_cases hd : d = []
  · subst hd
    have : pathJoin [[], e, n] = clean (e ++ b!"/" ++ n) := by simp [pathJoin, he.ne_nil, join]
    rw [this]
    unfold clean
    rw [cleanElems_append_plain he.ne_nil hn, cleanElems_plain he, List.append_assoc,
      isAbs_append he.ne_nil, isAbs_false_of_no_sep he.no_sep]
    rfl
  · have : pathJoin [d, e, n] = clean (d ++ b!"/" ++ e ++ b!"/" ++ n) := by
      simp [pathJoin, hd, join]
    rw [this]
    unfold clean
    rw [cleanElems_append_plain (by simp) hn, cleanElems_append_plain hd he]
    have : isAbs (d ++ b!"/" ++ e ++ b!"/" ++ n) = isAbs d := by
      rw [List.append_assoc, List.append_assoc, List.append_assoc, isAbs_append hd]
    rw [this]
    simp

theorem NF_append_plain {d : Str} {l : List Str} (hl : ∀ e ∈ l, Plain e) :
    NF (isAbs d) (cleanElems d ++ l).reverse := by
  induction l using List.reverseRecOn with
  | nil => simpa using NF_cleanElems d
  | append_singleton l e ih =>
    have h1 := ih (fun x hx => hl x (by simp [hx]))
    have he := hl e (by simp)
    have := h1.step he.no_sep
    rw [cleanStep_plain he] at this
    simpa using this

end Verif.Go
