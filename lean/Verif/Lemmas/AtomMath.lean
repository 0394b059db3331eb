import Verif.Lemmas.AtomLinks
import Verif.Lemmas.PlaceholderLoop

/-!
# The formulas of a line
-/

namespace Verif.Model
open Verif.Go Verif.Spec Verif.Lemmas Verif.Props
open scoped List

theorem matchMath_formula {attributes formula : Str} (h : FormulaOk attributes formula) (rest : Str) :
    matchMath ((Atom.math attributes formula).src ++ rest) = some ((Atom.math attributes formula).src, formula) := by
  have h1 : (0x3E : Byte) ∉ attributes := fun hc => h.attributes _ hc (by decide)
  have h2 : (0x0A : Byte) ∉ attributes := fun hc => h.attributes _ hc (by decide)
  have h3 : (0x3C : Byte) ∉ formula := fun hc => h.chars _ hc (by decide)
  have e1 : cut b!">" (((Atom.math attributes formula).src ++ rest).drop 5) = some (attributes, formula ++ b!"</math>" ++ rest) := by
    have : ((Atom.math attributes formula).src ++ rest).drop 5 = attributes ++ 0x3E :: (formula ++ b!"</math>" ++ rest) := by
      simp [Atom.src]
    rw [this]
    exact cut_single _ h1
  have e2 : cut b!"</math>" (formula ++ b!"</math>" ++ rest) = some (formula, rest) := by
    generalize hf : formula = f at h3 ⊢
    clear h e1 hf
    induction f with
    | nil => rfl
    | cons c f ih =>
      simp only [List.mem_cons, not_or] at h3
      rw [List.cons_append, List.cons_append, cut, if_neg, ih h3.2]
      · rfl
      · rw [List.isPrefixOf_iff_prefix, List.cons_prefix_cons]
        exact fun hc => h3.1 hc.1
  have e0 : hasPrefix ((Atom.math attributes formula).src ++ rest) b!"<math" = true := by
    rw [hasPrefix, List.isPrefixOf_iff_prefix]
    exact ⟨attributes ++ b!">" ++ formula ++ b!"</math>" ++ rest, by simp [Atom.src]⟩
  rw [matchMath, if_pos e0, e1]
  simp only
  rw [if_neg h2, e2]
  rfl

theorem matchMath_other {c : Byte} {t : Str} (h : c ≠ 0x3C) : matchMath (c :: t) = none := by
  rw [matchMath, if_neg]
  rw [hasPrefix, List.isPrefixOf_iff_prefix, List.cons_prefix_cons]
  exact fun hc => h hc.1.symm

theorem matchMath_safe {x : Str} (h : TagSafe x) (hne : x ≠ []) (rest : Str) : matchMath (x ++ rest) = none := by
  rw [matchMath, if_neg]
  rw [hasPrefix, List.isPrefixOf_iff_prefix]
  intro hp
  exact h.not_prefix hne rest (c := 0x6D) (by unfold TagCharacter; decide) (List.IsPrefix.trans ⟨b!"ath", rfl⟩ hp)

theorem findMath_text {x : Str} (h : TagSafe x) (rest : Str) : findMath (x ++ rest) 0 = findMath rest 0 := by
  induction x with
  | nil => rfl
  | cons c x ih =>
    have hm := matchMath_safe h (by simp) rest
    rw [List.cons_append] at hm ⊢
    rw [findMath, hm]
    exact ih (h.suffix (List.suffix_cons _ _))

theorem findMath_skip (x rest : Str) : findMath (x ++ rest) x.length = findMath rest 0 := by
  induction x with
  | nil => rfl
  | cons c x ih => exact ih

theorem findMath_formula {attributes formula : Str} (h : FormulaOk attributes formula) (rest : Str) :
    findMath ((Atom.math attributes formula).src ++ rest) 0 = ((Atom.math attributes formula).src, formula) :: findMath rest 0 := by
  have hm := matchMath_formula h rest
  obtain ⟨c, r, e, -⟩ := Atom.src_head (a := .math attributes formula) rfl
  rw [e, List.cons_append] at hm ⊢
  rw [findMath, hm]
  simp only [List.length_cons, Nat.add_sub_cancel, findMath_skip]

/-- The formulas of a line. -/
def formulas : List Atom → List (Str × Str)
  | [] => []
  | .math attributes formula :: rest => ((Atom.math attributes formula).src, formula) :: formulas rest
  | _ :: rest => formulas rest

theorem findMath_atoms {env : ParserEnv} (as : List Atom) (h : ∀ a ∈ as, a.Ok env) (hr : NoRefs as) : findMath (srcs as) 0 = formulas as := by
  induction as with
  | nil => rfl
  | cons a as ih =>
    have ih := ih (fun x hx => h x (by simp [hx])) fun x hx => hr x (by simp [hx])
    have ha := h a (by simp)
    by_cases hm : a.isMath = true
    · cases a with
      | math attributes formula => rw [srcs_cons, findMath_formula ha, ih, formulas]
      | _ => simp [Atom.isMath] at hm
    · rw [srcs_cons, findMath_text (ha.tagSafe (by simpa using hm) (hr a (by simp))), ih]
      cases a with
      | math attributes formula => simp [Atom.isMath] at hm
      | _ => rfl

theorem Atom.not_ref {a : Atom} (h : a.isPlain = true ∨ a.isMath = true) : a.isRef = false := by
  cases a <;> simp_all [Atom.isPlain, Atom.isMath, Atom.isRef]

theorem math_step (env : ParserEnv) (html : HtmlEnv) (as : List Atom) (h : ∀ a ∈ as, a.Ok env) (hp : ∀ a ∈ as, a.isPlain = true ∨ a.isMath = true) :
    ∀ (pre : List Atom), TagSafe (srcs pre) → ∀ (s : TokState), KeysCreated s →
    ∃ bs s', Ends (fun _ => mathLoop (formulas as) (srcs pre ++ srcs as)) s (srcs pre ++ srcs bs) s' ∧
      Grows s s' ∧ List.Forall₂ (Step env html s'.tokenMap) as bs ∧ ∀ b ∈ bs, b.isPlain = true := by
  induction as with
  | nil => exact fun pre _ s _ => ⟨[], s, Ends.pure _ s, Grows.refl s, .nil, by simp⟩
  | cons a as ih =>
    intro pre hpre s hs
    have ih := ih (fun x hx => h x (by simp [hx])) (fun x hx => hp x (by simp [hx]))
    have ha := h a (by simp)
    by_cases hm : a.isMath = true
    · cases a with
      | math attributes formula =>
        obtain ⟨s1, e1, g1, l1⟩ := Ends.newToken b!"REF_MATH" (.math formula) s
        have hk : TagSafe (srcs (pre ++ [.key b!"REF_MATH" s.counter])) := by
          have := not_mem_keyed (tokenKey_chars s.counter (type := b!"REF_MATH") (by decide)) (c := 0x3C) (by decide) (by decide)
          rw [srcs_append]
          exact hpre.append (tagSafe_of_no_lt (by simp [Atom.src, this]))
        obtain ⟨bs, s', e2, g2, h2, h3⟩ := ih (pre ++ [.key b!"REF_MATH" s.counter]) hk s1 (g1.keysCreated hs)
        refine ⟨.key b!"REF_MATH" s.counter :: bs, s', ?_, g1.trans g2, .cons ?_ h2, ?_⟩
        · have e3 := e1.bind (g := fun n key => mathLoop (formulas as) (replaceFirst (Atom.math attributes formula).src key
            (srcs pre ++ srcs (.math attributes formula :: as)))) (a := tokenKey b!"REF_MATH" s.counter) (s' := s1) (b := srcs pre ++ srcs (.key b!"REF_MATH" s.counter :: bs)) (s'' := s') ?_
          · refine Ends.congr ⟨0, fun n _ => ?_⟩ e3
            simp [formulas, mathLoop, newToken]
          · have : replaceFirst (Atom.math attributes formula).src (tokenKey b!"REF_MATH" s.counter) (srcs pre ++ srcs (.math attributes formula :: as)) =
                srcs (pre ++ [.key b!"REF_MATH" s.counter]) ++ srcs as := by
              rw [srcs_cons, ← List.append_assoc, replaceFirst_at]
              · simp [Atom.src]
              · simp [Atom.src]
              · intro j hj hi
                rw [List.append_assoc, List.drop_append_of_le_length (by omega)] at hi
                have hne : (srcs pre).drop j ≠ [] := by
                  intro e
                  have := congrArg List.length e
                  simp at this
                  omega
                refine (hpre.suffix (List.drop_suffix j _)).not_prefix hne _ (c := 0x6D) (by unfold TagCharacter; decide) (List.IsPrefix.trans ?_ hi)
                exact ⟨b!"ath" ++ attributes ++ b!">" ++ formula ++ b!"</math>", by simp [Atom.src]⟩
            rw [this]
            simpa [Atom.src] using e2
        · refine Step.toKey rfl ⟨by decide, by decide⟩ ?_
          rintro t ht x ⟨path, width, height, style, hx, rfl⟩ tokens' ht'
          refine ⟨0, _, ht' _ _ (ht _ _ (g2.lookup (g1.keysCreated hs) l1)), fun fuel _ => ?_⟩
          rw [expandToken, hx]
          simp [formulaHtml]
        · intro b hb
          rcases List.mem_cons.mp hb with rfl | hb
          · rfl
          · exact h3 b hb
      | _ => simp [Atom.isMath] at hm
    · have hm' : a.isMath = false := by simpa using hm
      have hk : TagSafe (srcs (pre ++ [a])) := by
        have := ha.tagSafe hm' (Atom.not_ref (hp a (by simp)))
        rw [srcs_append]
        exact hpre.append (by simpa using this)
      obtain ⟨bs, s', e, g, h2, h3⟩ := ih (pre ++ [a]) hk s hs
      have ef : formulas (a :: as) = formulas as := by
        cases a with
        | math attributes formula => simp [Atom.isMath] at hm
        | _ => rfl
      refine ⟨a :: bs, s', ?_, g, .cons (Step.refl a) h2, ?_⟩
      · rw [ef]
        simpa using e
      · intro b hb
        rcases List.mem_cons.mp hb with rfl | hb
        · rcases hp b (by simp) with hp | hp
          · exact hp
          · exact absurd hp hm
        · exact h3 b hb

/-- All formulas are replaced by keys. -/
theorem math_pass (env : ParserEnv) (html : HtmlEnv) (as : List Atom) (h : ∀ a ∈ as, a.Ok env) (hp : ∀ a ∈ as, a.isPlain = true ∨ a.isMath = true)
    (s : TokState) (hs : KeysCreated s) : ∃ bs s', Ends (fun _ => parseMath (srcs as)) s (srcs bs) s' ∧
      Grows s s' ∧ List.Forall₂ (Step env html s'.tokenMap) as bs ∧ ∀ b ∈ bs, b.isPlain = true := by
  obtain ⟨bs, s', e, g, h2, h3⟩ := math_step env html as h hp [] (tagSafe_of_no_lt (by simp)) s hs
  refine ⟨bs, s', ?_, g, h2, h3⟩
  rw [srcs_nil, List.nil_append, List.nil_append] at e
  simpa only [parseMath, findMath_atoms as h fun a ha => Atom.not_ref (hp a ha)] using e

end Verif.Model
