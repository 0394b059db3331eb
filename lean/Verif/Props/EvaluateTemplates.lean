import Verif.Lemmas.PlaceholderLoop

/-!
# C39: templates are evaluated inside out, independent of the order of the map
-/

namespace Verif.Props
open Verif.Go Verif.Model Verif.Spec Verif.Lemmas
open scoped List

theorem Resolved.mono {m m' : List (Str × Str)} (hm : ∀ e ∈ m, e ∈ m') {ps : List HoledPiece} {x : Str} (h : Resolved m ps x) :
    Resolved m' ps x := by
  induction h with
  | nil => exact .nil
  | char c _ ih => exact .char c ih
  | hole key ha _ _ ih1 ih2 => exact .hole key (hm _ ha) ih1 ih2

/-- C39: For every text with (arbitrarily nested) templates, each template is sent to the wiki exactly once per occurrence,
inner ones before outer ones and with placeholders instead of the inner templates, and the result is the text with all
placeholders replaced by the answers, also those in answers. This does not depend on the order of the loops over the map
(`iterate`).

The hash consists of hexadecimal digits, and different templates of the text have different hashes. The answers contain no
placeholders except for those of the template. Missing for the whole claim: the text must be well-formed (see
`C39_unterminated_template_fails`), and the text `TEMPLATE_PLACEHOLDER_` must not be part of the result (see
`C39_placeholder_in_text_never_ends`). -/
theorem C39_templates_are_evaluated_inside_out_partial (env : TemplateEnv) (doc : NestedText) (hw : doc.WellFormed [])
    (hhex : ∀ t, ∀ c ∈ env.hash t, c ∈ b!"0123456789abcdef")
    (hinj : ∀ t ∈ doc.templates, ∀ t' ∈ doc.templates,
      env.hash (t.request env.hash) = env.hash (t'.request env.hash) → t.request env.hash = t'.request env.hash)
    (answer : Str → Str)
    (hans : ∀ t ∈ doc.templates,
      env.evaluate (t.request env.hash) (env.hash (t.request env.hash)) = .ok (answer (t.request env.hash)))
    (hholes : ∀ t ∈ doc.templates, ∃ ps, answer (t.request env.hash) = holedText ps ∧
      ∀ k, .hole k ∈ ps → .hole k ∈ t.holed env.hash) :
    ∃ x, Resolved (doc.templates.map fun t => (env.hash (t.request env.hash), answer (t.request env.hash))) (doc.holed env.hash) x ∧
      (¬ b!"TEMPLATE_PLACEHOLDER_" <:+: x →
        ∀ iterate : Nat → List (Str × Str) → List (Str × Str), (∀ n m, (iterate n m).Perm m) →
        ∃ steps, ∀ fuel, steps ≤ fuel → evaluateTemplates env iterate fuel doc.text =
          some (.ok (x, doc.templates.map fun t => (t.request env.hash, env.hash (t.request env.hash))))) := by
  let answers := doc.templates.map fun t => (env.hash (t.request env.hash), answer (t.request env.hash))
  have hb : ∀ t, (0x7B : Byte) ∉ env.hash t := fun t h => absurd (hhex t _ h) (by decide)
  have hd : ∀ t, (0x24 : Byte) ∉ env.hash t := fun t h => absurd (hhex t _ h) (by decide)
  obtain ⟨x, hx⟩ := Resolved.of_holes (answers := answers) (ps := doc.holed env.hash)
    (holes_resolved doc (answer := answer) (fun t ht => ⟨List.mem_map.mpr ⟨t, ht, rfl⟩, hholes t ht⟩))
  refine ⟨x, hx, fun hc iterate hit => ?_⟩
  obtain ⟨hnd, hmem⟩ := evaluated_results env.hash answer doc.templates ⟨[], []⟩ [] (by simpa using hinj) (by simp) (by simp)
  have hres : Resolved (evaluated env.hash answer ⟨[], []⟩ doc.templates).results (doc.holed env.hash) x := by
    refine Resolved.mono (fun e he => ?_) hx
    rw [hmem]
    obtain ⟨t, ht, rfl⟩ := List.mem_map.mp he
    exact ⟨t, by simpa using ht, rfl⟩
  obtain ⟨n, hn⟩ := Resolved.count hres
  obtain ⟨h1, _⟩ := placeholderLoop_text hb doc [] [] ⟨[], []⟩ hw (fun j hj => absurd hj (by simp)) hans
  simp only [List.nil_append, List.append_nil, List.length_nil] at h1
  obtain ⟨N, hN⟩ := h1.finish (by omega)
  refine ⟨max N (n + 1), fun fuel hf => ?_⟩
  have hr := resolvePlaceholders_ok hnd (fun e he => by
    obtain ⟨t, _, rfl⟩ := (hmem e).mp he
    exact hd _) iterate hit hc n (Nat.le_refl n) hn fuel 0 (by omega)
  rw [evaluateTemplates, hN fuel (by omega)]
  simp only [hr, Option.map_some, evaluated_calls, List.nil_append]

/-! ### Every text -/

theorem placeholderLoop_calls (env : TemplateEnv) (fuel : Nat) : ∀ (content : Str) (i : Nat) (st : TemplateState) (r : Str × TemplateState),
    placeholderLoop env fuel content i st = some (.ok r) →
    (∀ e ∈ st.calls, e.2 = env.hash e.1 ∧ ∃ a, env.evaluate e.1 e.2 = .ok a) →
    ∀ e ∈ r.2.calls, e.2 = env.hash e.1 ∧ ∃ a, env.evaluate e.1 e.2 = .ok a := by
  induction fuel with
  | zero => intro content i st r h; simp [placeholderLoop] at h
  | succ fuel ih =>
    intro content i st r h hs
    rw [placeholderLoop] at h
    split at h
    · split at h
      · split at h
        · cases h
        · rename_i endIndex _
          simp only at h
          split at h
          · cases h
          · rename_i inner st' hin
            have hs' : ∀ e ∈ st'.calls, e.2 = env.hash e.1 ∧ ∃ a, env.evaluate e.1 e.2 = .ok a := by
              split at hin
              · exact ih _ _ _ _ hin hs
              · cases hin; exact hs
            split at h
            · rename_i a ha
              refine ih _ _ _ _ h ?_
              intro e he
              rcases List.mem_append.mp he with he | he
              · exact hs' e he
              · rw [List.mem_singleton] at he
                subst he
                exact ⟨rfl, a, ha⟩
            · cases h
            · cases h
            · cases h
          · cases h
          · cases h
          · cases h
      · exact ih _ _ _ _ h hs
    · cases h; exact hs

theorem resolvePlaceholders_clean (iterate : Nat → List (Str × Str) → List (Str × Str)) (results : List (Str × Str)) (fuel : Nat) :
    ∀ (n : Nat) (content x : Str), resolvePlaceholders iterate results fuel n content = some x → contains x templatePlaceholderPrefix = false := by
  induction fuel with
  | zero => intro n content x h; simp [resolvePlaceholders] at h
  | succ fuel ih =>
    intro n content x h
    rw [resolvePlaceholders] at h
    split at h
    · exact ih _ _ _ h
    · rename_i hc
      cases h
      simpa using hc

/-- C39: For every text (well-formed or not), a result contains no placeholder, and each template that has been sent to the
wiki and counted in `calls` was answered without error. -/
theorem C39_results_are_complete (env : TemplateEnv) (iterate : Nat → List (Str × Str) → List (Str × Str)) (fuel : Nat)
    (content x : Str) (calls : List (Str × Str)) (h : evaluateTemplates env iterate fuel content = some (.ok (x, calls))) :
    ¬ b!"$$TEMPLATE_PLACEHOLDER_" <:+: x ∧ ∀ e ∈ calls, e.2 = env.hash e.1 ∧ ∃ a, env.evaluate e.1 e.2 = .ok a := by
  unfold evaluateTemplates at h
  split at h
  · cases h
  · rename_i c st hl
    cases hr : resolvePlaceholders iterate st.results fuel 0 c with
    | none => rw [hr] at h; cases h
    | some y =>
      rw [hr] at h
      cases h
      refine ⟨?_, placeholderLoop_calls env fuel _ _ _ _ hl (by simp)⟩
      have := resolvePlaceholders_clean _ _ _ _ _ _ hr
      rw [contains_eq_false_iff] at this
      exact this
  · cases h
  · cases h
  · cases h

/-- C39: If one of the templates fails, the evaluation of the text fails: such a template never silently disappears or
stays in the text. -/
theorem C39_failed_template_is_an_error (env : TemplateEnv) (iterate : Nat → List (Str × Str) → List (Str × Str))
    (doc : NestedText) (hw : doc.WellFormed [])
    (hhex : ∀ t, ∀ c ∈ env.hash t, c ∈ b!"0123456789abcdef")
    (hans : ∀ t ∈ doc.templates, (∃ x, env.evaluate (t.request env.hash) (env.hash (t.request env.hash)) = .ok x) ∨
      env.evaluate (t.request env.hash) (env.hash (t.request env.hash)) = .err)
    (hbad : ∃ t ∈ doc.templates, env.evaluate (t.request env.hash) (env.hash (t.request env.hash)) = .err) :
    ∃ steps, ∀ fuel, steps ≤ fuel → evaluateTemplates env iterate fuel doc.text = some .err := by
  obtain ⟨N, hN⟩ := placeholderLoop_fail (fun t h => absurd (hhex t _ h) (by decide)) doc [] [] ⟨[], []⟩ hw
    (fun j hj => absurd hj (by simp)) hans hbad
  simp only [List.nil_append, List.append_nil, List.length_nil] at hN
  refine ⟨N, fun fuel hf => ?_⟩
  rw [evaluateTemplates, hN fuel hf]

theorem placeholderLoop_plain (env : TemplateEnv) (content : Str) (h : ¬ b!"{{" <:+: content) (fuel : Nat) : ∀ (i : Nat) (st : TemplateState),
    placeholderLoop env fuel content i st = none ∨ placeholderLoop env fuel content i st = some (.ok (content, st)) := by
  induction fuel with
  | zero => intro i st; exact Or.inl rfl
  | succ fuel ih =>
    intro i st
    rw [placeholderLoop]
    split
    · rw [if_neg]
      · exact ih _ _
      · intro he
        apply h
        rw [← he]
        exact (List.take_prefix _ _).isInfix.trans (List.drop_suffix _ _).isInfix
    · exact Or.inr rfl

/-- The code does not satisfy C39 for every text: the evaluation of a text without templates that contains the beginning of
a placeholder never ends. -/
theorem C39_placeholder_in_text_never_ends (env : TemplateEnv) (iterate : Nat → List (Str × Str) → List (Str × Str))
    (hit : ∀ n m, (iterate n m).Perm m) (content : Str) (h : ¬ b!"{{" <:+: content) (hp : b!"$$TEMPLATE_PLACEHOLDER_" <:+: content)
    (fuel : Nat) : evaluateTemplates env iterate fuel content = none := by
  have hr : ∀ (f n : Nat), resolvePlaceholders iterate [] f n content = none := by
    intro f
    induction f with
    | zero => intro n; rfl
    | succ f ih =>
      intro n
      rw [resolvePlaceholders, if_pos (show contains content templatePlaceholderPrefix = true from contains_iff.mpr hp), List.perm_nil.mp (hit n [])]
      exact ih _
  unfold evaluateTemplates
  rcases placeholderLoop_plain env content h fuel 0 ⟨[], []⟩ with h' | h'
  · rw [h']
  · rw [h']
    simp only [hr, Option.map_none]

/-- The code does not satisfy C39 for every text: one unterminated template makes the evaluation of the whole text fail. -/
theorem C39_unterminated_template_fails (env : TemplateEnv) (iterate : Nat → List (Str × Str) → List (Str × Str)) :
    evaluateTemplates env iterate 20 b!"set {{a, b} of {{c}}" = some .err := by
  rfl

/-! ### Examples -/

/-- A hash that only knows the templates of the example. -/
def exampleTemplates : TemplateEnv where
  hash t := if t = b!"{{b}}" then b!"b0" else if t = b!"{{a|$$TEMPLATE_PLACEHOLDER_b0$$}}" then b!"a0" else b!"c0"
  evaluate t _ := if t = b!"{{b}}" then .ok b!"B" else
    if t = b!"{{a|$$TEMPLATE_PLACEHOLDER_b0$$}}" then .ok b!"<$$TEMPLATE_PLACEHOLDER_b0$$,$$TEMPLATE_PLACEHOLDER_b0$$>" else .err

/-- `x{{a|{{b}}}}{{b}}` -/
def exampleDocument : NestedText :=
  .char 0x78 (.template (.char 0x61 (.char 0x7C (.template (.char 0x62 .nil) .nil))) (.template (.char 0x62 .nil) .nil))

example : exampleDocument.text = b!"x{{a|{{b}}}}{{b}}" := rfl

example : exampleDocument.WellFormed [] := by
  simp only [exampleDocument, NestedText.WellFormed]
  decide

example : exampleDocument.templates.map (fun t => (t.request exampleTemplates.hash, exampleTemplates.hash (t.request exampleTemplates.hash))) =
    [(b!"{{b}}", b!"b0"), (b!"{{a|$$TEMPLATE_PLACEHOLDER_b0$$}}", b!"a0"), (b!"{{b}}", b!"b0")] := by decide +kernel

example : evaluateTemplates exampleTemplates (fun _ m => m) 60 b!"x{{a|{{b}}}}{{b}}" =
    some (.ok (b!"x<B,B>B", [(b!"{{b}}", b!"b0"), (b!"{{a|$$TEMPLATE_PLACEHOLDER_b0$$}}", b!"a0"), (b!"{{b}}", b!"b0")])) := by
  decide +kernel

/-- The order of the map is reversed. -/
example : evaluateTemplates exampleTemplates (fun _ m => m.reverse) 60 b!"x{{a|{{b}}}}{{b}}" =
    some (.ok (b!"x<B,B>B", [(b!"{{b}}", b!"b0"), (b!"{{a|$$TEMPLATE_PLACEHOLDER_b0$$}}", b!"a0"), (b!"{{b}}", b!"b0")])) := by
  decide +kernel

/-- The hypotheses of the theorem hold for the example. -/
example : ∃ answer : Str → Str,
    (∀ t, ∀ c ∈ exampleTemplates.hash t, c ∈ b!"0123456789abcdef") ∧
    (∀ t ∈ exampleDocument.templates, ∀ t' ∈ exampleDocument.templates,
      exampleTemplates.hash (t.request exampleTemplates.hash) = exampleTemplates.hash (t'.request exampleTemplates.hash) →
      t.request exampleTemplates.hash = t'.request exampleTemplates.hash) ∧
    (∀ t ∈ exampleDocument.templates, exampleTemplates.evaluate (t.request exampleTemplates.hash)
      (exampleTemplates.hash (t.request exampleTemplates.hash)) = .ok (answer (t.request exampleTemplates.hash))) ∧
    (∀ t ∈ exampleDocument.templates, ∃ ps, answer (t.request exampleTemplates.hash) = holedText ps ∧
      ∀ k, .hole k ∈ ps → .hole k ∈ t.holed exampleTemplates.hash) := by
  refine ⟨fun t => if t = b!"{{b}}" then b!"B" else b!"<$$TEMPLATE_PLACEHOLDER_b0$$,$$TEMPLATE_PLACEHOLDER_b0$$>", ?_, ?_, ?_, ?_⟩
  · intro t c hc
    simp only [exampleTemplates] at hc
    split at hc
    · revert c; decide
    · split at hc <;> (revert c; decide)
  · simp only [exampleDocument, NestedText.templates]
    simp only [List.nil_append, List.append_nil, List.mem_append, List.mem_singleton]
    rintro t ((rfl | rfl) | rfl) t' ((rfl | rfl) | rfl) <;> decide +kernel
  · simp only [exampleDocument, NestedText.templates]
    simp only [List.nil_append, List.append_nil, List.mem_append, List.mem_singleton]
    rintro t ((rfl | rfl) | rfl) <;> decide +kernel
  · simp only [exampleDocument, NestedText.templates]
    simp only [List.nil_append, List.append_nil, List.mem_append, List.mem_singleton]
    rintro t ((rfl | rfl) | rfl)
    · exact ⟨[.char 0x42], by decide +kernel, by intro k hk; simp at hk⟩
    · refine ⟨[.char 0x3C, .hole b!"b0", .char 0x2C, .hole b!"b0", .char 0x3E], by decide +kernel, ?_⟩
      intro k hk
      simp at hk
      subst hk
      simp only [NestedText.holed]
      have : exampleTemplates.hash (b!"{{" ++ holedText [.char 0x62] ++ b!"}}") = b!"b0" := by decide +kernel
      rw [this]
      simp
    · exact ⟨[.char 0x42], by decide +kernel, by intro k hk; simp at hk⟩

/-- `x{{b}}{{c}}`, of which the second template fails. -/
example : let doc : NestedText := .char 0x78 (.template (.char 0x62 .nil) (.template (.char 0x63 .nil) .nil))
    doc.WellFormed [] ∧
    (doc.templates.map fun t => exampleTemplates.evaluate (t.request exampleTemplates.hash) (exampleTemplates.hash (t.request exampleTemplates.hash))) =
      [.ok b!"B", .err] ∧
    evaluateTemplates exampleTemplates (fun _ m => m) 60 doc.text = some .err := by
  refine ⟨?_, by decide +kernel, by decide +kernel⟩
  simp only [NestedText.WellFormed]
  decide

example (env : TemplateEnv) (fuel : Nat) : evaluateTemplates env (fun _ m => m) fuel b!"see $$TEMPLATE_PLACEHOLDER_" = none :=
  C39_placeholder_in_text_never_ends env _ (fun _ _ => .refl _) _
    (by rw [← contains_eq_false_iff]; decide +kernel) (by rw [← contains_iff]; decide +kernel) fuel

end Verif.Props
