import Verif.Lemmas.HaltArticle
import Verif.Props.Tokens
import Verif.Props.EvaluateTemplates
import Verif.Lemmas.TemplatesEnd

/-!
# C61: reading an article comes to an end
-/

namespace Verif.Props
open Verif.Go Verif.Model Verif.Spec Verif.Lemmas
open scoped List

/-- C61: The tokenizer comes to an end on every text, with markup of every kind and however broken it is, and in every state:
there is a number of steps after which it has a result (a text with tokens, an error or a crash). -/
theorem C61_parser_ends (env : ParserEnv) (hu : CreatesNoMarkup env.upperFirst) (content : Str) (s : TokState) :
    AlwaysEnds fun fuel => tokenizeContent env fuel content s :=
  AlwaysEnds.of_halts (tokenizeContent_halts hu content) s

/-- C61: Cleaning comes to an end on every text. -/
theorem C61_cleaning_ends (env : ParserEnv) (content : Str) : AlwaysEnds fun fuel => cleanText env fuel content :=
  cleanText_ends env content

/-- C61: The search for templates comes to an end on every text, whatever the wiki answers. -/
theorem C61_template_search_ends (env : TemplateEnv) (hh : ∀ t, (0x7B : Byte) ∉ env.hash t) (content : Str) (st : TemplateState) :
    AlwaysEnds fun fuel => placeholderLoop env fuel content 0 st := by
  obtain ⟨N, r, h⟩ := placeholderLoop_ends env hh _ content rfl _ 0 rfl st
  exact ⟨N, r, h⟩

/-- C39 for every text, also for texts with braces that do not belong to templates: the result is the text in which each placeholder is replaced by the
answer with its key, in which placeholders are replaced in the same way. -/
theorem C39_answers_are_filled_in_partial (env : TemplateEnv) (hhex : ∀ t, ∀ c ∈ env.hash t, c ∈ b!"0123456789abcdef")
    (hans : ∀ t a, env.evaluate t (env.hash t) = .ok a →
      ∃ qs, a = holedText qs ∧ ¬ SpellsPlaceholder qs ∧ ∀ k, .hole k ∈ qs → (0x24 : Byte) ∉ k ∧ holeText k <:+: t)
    (iterate : Nat → List (Str × Str) → List (Str × Str)) (hit : ∀ n m, (iterate n m).Perm m) (content : Str)
    (hw : ¬ b!"TEMPLATE_PLACEHOLDER_" <:+: content) (fuel : Nat) (c : Str) (st : TemplateState)
    (h : placeholderLoop env fuel content 0 ⟨[], []⟩ = some (.ok (c, st))) (hcol : NoCollision st.calls)
    (hx : ∀ ps x, c = holedText ps → ¬ SpellsPlaceholder ps → Filled st.results ps x → ¬ b!"TEMPLATE_PLACEHOLDER_" <:+: x) :
    (∀ e ∈ st.results, ∃ t, (t, e.1) ∈ st.calls ∧ e.1 = env.hash t ∧ env.evaluate t e.1 = .ok e.2) ∧
    ∃ ps x, c = holedText ps ∧ ¬ SpellsPlaceholder ps ∧ Filled st.results ps x ∧
      ∃ steps, ∀ fuel, steps ≤ fuel → evaluateTemplates env iterate fuel content = some (.ok (x, st.calls)) := by
  have hb : ∀ t, ∀ c ∈ env.hash t, c ≠ 0x24 ∧ ¬ brace c := by
    intro t c hc
    have : ∀ c ∈ b!"0123456789abcdef", c ≠ 0x24 ∧ ¬ (c = 0x7B ∨ c = 0x7D) := by decide
    exact this c (hhex t c hc)
  obtain ⟨ha, ⟨ps, rfl, hclean, hkeys⟩, -⟩ := placeholderLoop_answers env hb hans fuel content 0 ⟨[], []⟩ c st h hcol
    ⟨by simp, by simp, fun _ => 0, by simp⟩ (CleanHoles.of_text hw)
  obtain ⟨x, hres⟩ := ha.filled hkeys
  refine ⟨ha.sent, ps, x, rfl, hclean, hres, ?_⟩
  obtain ⟨n, hn⟩ := Resolved.count hres.resolved
  obtain ⟨N, r, hN⟩ := C61_template_search_ends env (fun t hm => (hb t _ hm).2 (.inl rfl)) content ⟨[], []⟩
  have hr : r = .ok (holedText ps, st) := by
    have h1 := placeholderLoop_mono env fuel _ _ _ _ h (max fuel N) (by omega)
    have h2 := hN (max fuel N) (by omega)
    simp only [h1] at h2
    cases h2; rfl
  refine ⟨max N (n + 1), fun f hf => ?_⟩
  have hd : ∀ e ∈ st.results, (0x24 : Byte) ∉ e.1 := by
    intro e he hm
    obtain ⟨t, -, h2, -⟩ := ha.sent e he
    rw [h2] at hm
    exact (hb t _ hm).1 rfl
  have hrp := resolvePlaceholders_ok ha.nodup hd iterate hit (hx ps x rfl hclean hres) n (Nat.le_refl n) hn f 0 (by omega)
  have hl := hN f (by omega)
  simp only [hr] at hl
  simp only [evaluateTemplates, hl, hrp, Option.map_some]

/-- C61: The evaluation of templates comes to an end on every text, also on texts with braces that do not belong to templates, if the result does not
contain the name of the placeholders: the text of the article does not contain it, the answers contain placeholders only if they were asked for with
them, no two templates have the same hash and the text with all answers does not contain it. (Without this it need not end, see
`C39_placeholder_in_text_never_ends`.) -/
theorem C61_evaluation_of_templates_ends_partial (env : TemplateEnv) (hhex : ∀ t, ∀ c ∈ env.hash t, c ∈ b!"0123456789abcdef")
    (hans : ∀ t a, env.evaluate t (env.hash t) = .ok a →
      ∃ qs, a = holedText qs ∧ ¬ SpellsPlaceholder qs ∧ ∀ k, .hole k ∈ qs → (0x24 : Byte) ∉ k ∧ holeText k <:+: t)
    (iterate : Nat → List (Str × Str) → List (Str × Str)) (hit : ∀ n m, (iterate n m).Perm m) (content : Str)
    (hw : ¬ b!"TEMPLATE_PLACEHOLDER_" <:+: content)
    (hres : ∀ fuel c st, placeholderLoop env fuel content 0 ⟨[], []⟩ = some (.ok (c, st)) → NoCollision st.calls ∧
      ∀ ps x, c = holedText ps → ¬ SpellsPlaceholder ps → Filled st.results ps x → ¬ b!"TEMPLATE_PLACEHOLDER_" <:+: x) :
    AlwaysEnds fun fuel => evaluateTemplates env iterate fuel content := by
  have hh : ∀ t, (0x7B : Byte) ∉ env.hash t := fun t hm => absurd (hhex t _ hm) (by decide)
  obtain ⟨N, r, hN⟩ := C61_template_search_ends env hh content ⟨[], []⟩
  cases r with
  | err => exact ⟨N, .err, fun fuel hf => by have := hN fuel hf; simp only at this; simp only [evaluateTemplates, this]⟩
  | panic => exact ⟨N, .panic, fun fuel hf => by have := hN fuel hf; simp only at this; simp only [evaluateTemplates, this]⟩
  | fatal => exact ⟨N, .fatal, fun fuel hf => by have := hN fuel hf; simp only at this; simp only [evaluateTemplates, this]⟩
  | ok p =>
    obtain ⟨c, st⟩ := p
    have h := hN N (Nat.le_refl _)
    obtain ⟨h1, h2⟩ := hres N c st h
    obtain ⟨-, ps, x, -, -, -, n, hn⟩ := C39_answers_are_filled_in_partial env hhex hans iterate hit content hw N c st h h1 h2
    exact ⟨n, _, hn⟩

/-- C61: Reading an article comes to an end if the evaluation of its templates does. (The latter is the case for the texts of
`C39_templates_are_evaluated_inside_out_partial`, but not always, see `C39_placeholder_in_text_never_ends`.) -/
theorem C61_article_ends_partial (env : ParserEnv) (hu : CreatesNoMarkup env.upperFirst) (templates : TemplateEnv)
    (iterate : Nat → List (Str × Str) → List (Str × Str)) (content : Str)
    (ht : ∀ fuel cleaned, cleanText env fuel content = some (.ok cleaned) →
      AlwaysEnds fun fuel => evaluateTemplates templates iterate fuel cleaned) :
    AlwaysEnds fun fuel => tokenizeArticle env templates iterate fuel content := by
  obtain ⟨n1, r1, h1⟩ := C61_cleaning_ends env content
  cases r1 with
  | err => exact ⟨n1, .err, fun fuel hf => by simp only [tokenizeArticle, h1 fuel hf]⟩
  | panic => exact ⟨n1, .panic, fun fuel hf => by simp only [tokenizeArticle, h1 fuel hf]⟩
  | fatal => exact ⟨n1, .fatal, fun fuel hf => by simp only [tokenizeArticle, h1 fuel hf]⟩
  | ok cleaned =>
    obtain ⟨n2, r2, h2⟩ := ht n1 cleaned (h1 n1 (Nat.le_refl _))
    cases r2 with
    | err => exact ⟨max n1 n2, .err, fun fuel hf => by simp only [tokenizeArticle, h1 fuel (by omega), h2 fuel (by omega)]⟩
    | panic => exact ⟨max n1 n2, .panic, fun fuel hf => by simp only [tokenizeArticle, h1 fuel (by omega), h2 fuel (by omega)]⟩
    | fatal => exact ⟨max n1 n2, .fatal, fun fuel hf => by simp only [tokenizeArticle, h1 fuel (by omega), h2 fuel (by omega)]⟩
    | ok p =>
      obtain ⟨evaluated, calls⟩ := p
      obtain ⟨n3, r3, h3⟩ := C61_cleaning_ends env evaluated
      have hb : ∀ fuel, max n1 (max n2 n3) ≤ fuel → tokenizeArticle env templates iterate fuel content = match r3 with
          | .ok content => tokenizeContent env fuel content TokState.initial
          | .err => some .err
          | .panic => some .panic
          | .fatal => some .fatal := by
        intro fuel hf
        simp only [tokenizeArticle, h1 fuel (by omega), h2 fuel (by omega), h3 fuel (by omega)]
        cases r3 <;> rfl
      cases r3 with
      | err => exact ⟨_, .err, hb⟩
      | panic => exact ⟨_, .panic, hb⟩
      | fatal => exact ⟨_, .fatal, hb⟩
      | ok final =>
        obtain ⟨n4, r4, h4⟩ := C61_parser_ends env hu final TokState.initial
        refine ⟨max (max n1 (max n2 n3)) n4, r4, fun fuel hf => ?_⟩
        show tokenizeArticle env templates iterate fuel content = some r4
        rw [hb fuel (by omega)]
        exact h4 fuel (by omega)

/-- C61: Reading an article with templates comes to an end, also when braces and other markup are broken, under the conditions of
`C61_evaluation_of_templates_ends_partial` on the cleaned text. -/
theorem C61_article_with_templates_ends_partial (env : ParserEnv) (hu : CreatesNoMarkup env.upperFirst) (templates : TemplateEnv)
    (hhex : ∀ t, ∀ c ∈ templates.hash t, c ∈ b!"0123456789abcdef")
    (hans : ∀ t a, templates.evaluate t (templates.hash t) = .ok a →
      ∃ qs, a = holedText qs ∧ ¬ SpellsPlaceholder qs ∧ ∀ k, .hole k ∈ qs → (0x24 : Byte) ∉ k ∧ holeText k <:+: t)
    (iterate : Nat → List (Str × Str) → List (Str × Str)) (hit : ∀ n m, (iterate n m).Perm m) (content : Str)
    (hc : ∀ fuel cleaned, cleanText env fuel content = some (.ok cleaned) → ¬ b!"TEMPLATE_PLACEHOLDER_" <:+: cleaned ∧
      ∀ fuel c st, placeholderLoop templates fuel cleaned 0 ⟨[], []⟩ = some (.ok (c, st)) → NoCollision st.calls ∧
        ∀ ps x, c = holedText ps → ¬ SpellsPlaceholder ps → Filled st.results ps x → ¬ b!"TEMPLATE_PLACEHOLDER_" <:+: x) :
    AlwaysEnds fun fuel => tokenizeArticle env templates iterate fuel content :=
  C61_article_ends_partial env hu templates iterate content fun fuel cleaned h =>
    C61_evaluation_of_templates_ends_partial templates hhex hans iterate hit cleaned (hc fuel cleaned h).1 (hc fuel cleaned h).2

/-- C61: Reading an article without opening braces and dollar signs comes to an end. -/
theorem C61_article_without_templates_ends (env : ParserEnv) (hu : CreatesNoMarkup env.upperFirst) (templates : TemplateEnv)
    (iterate : Nat → List (Str × Str) → List (Str × Str)) (content : Str) (hb : (0x7B : Byte) ∉ content)
    (hd : (0x24 : Byte) ∉ content) : AlwaysEnds fun fuel => tokenizeArticle env templates iterate fuel content := by
  refine C61_article_ends_partial env hu templates iterate content fun fuel cleaned h => ?_
  have hb' := cleanText_new h hb (by decide) hb
  have hd' := cleanText_new h hb (by decide) hd
  have h1 : ¬ b!"{{" <:+: cleaned := fun h => hb' (h.subset (by simp))
  have h2 : contains cleaned templatePlaceholderPrefix = false := by
    rw [contains_eq_false_iff]
    exact fun h => hd' (h.subset (by decide))
  refine ⟨cleaned.length + 1, .ok (cleaned, []), fun fuel hf => ?_⟩
  obtain ⟨fuel, rfl⟩ := Nat.exists_eq_add_of_le' (show 1 ≤ fuel by omega)
  show evaluateTemplates templates iterate (fuel + 1) cleaned = _
  rw [evaluateTemplates, placeholderLoop_plain_ends templates cleaned h1 _ _ _ (by omega)]
  simp [resolvePlaceholders, h2]

/-! ### Examples -/

example : CreatesNoMarkup tokenizerEnv.upperFirst := fun _ _ _ => Nat.le_refl _

/-- A conversion of the first letter that does something. -/
example : CreatesNoMarkup fun s => match s with | 0x61 :: t => 0x41 :: t | s => s := by
  intro s c hc
  simp only
  split
  · have h : c ≠ 0x41 := by rintro rfl; exact absurd hc (by decide)
    rw [List.count_cons_of_ne h.symm]
    exact List.count_le_count_cons
  · exact Nat.le_refl _

/-- A heading with a link and an unclosed emphasis, a table with a list in a cell and another unclosed emphasis: this takes
more than thirty steps. -/
example : (tokenizeContent tokenizerEnv 30 b!"= [[a|b]] ''x =\n{|\n|b\n* e\n|}\n\n'''c\n* d" TokState.initial).isSome = false ∧
    (tokenizeContent tokenizerEnv 90 b!"= [[a|b]] ''x =\n{|\n|b\n* e\n|}\n\n'''c\n* d" TokState.initial).isSome = true := by
  decide +kernel

/-- An unclosed link. -/
example : (tokenizeContent tokenizerEnv 90 b!"a\n* [[d" TokState.initial).isSome = true := by decide +kernel

example : (0x7B : Byte) ∉ b!"== a ==\n[[b]] ''c" ∧ (0x24 : Byte) ∉ b!"== a ==\n[[b]] ''c" := by decide

/-- A text with braces that do not belong to templates: there is nothing to be closed by the first ones and the last one is alone. -/
def strayBraces : Str := b!"x }} {{a|{{b}}}} {y }"

/-- The text and the calls after the search. -/
def strayBracesSearched : Str × TemplateState :=
  (b!"x }} $$TEMPLATE_PLACEHOLDER_a0$$ {y }", ⟨[(b!"{{b}}", b!"b0"), (b!"{{a|$$TEMPLATE_PLACEHOLDER_b0$$}}", b!"a0")],
    [(b!"a0", b!"<$$TEMPLATE_PLACEHOLDER_b0$$,$$TEMPLATE_PLACEHOLDER_b0$$>"), (b!"b0", b!"B")]⟩)

deriving instance DecidableEq for TemplateState

theorem strayBraces_search : placeholderLoop exampleTemplates 90 strayBraces 0 ⟨[], []⟩ = some (.ok strayBracesSearched) := by
  decide +kernel

theorem not_spells {ps : List HoledPiece} (h : .char 0x54 ∉ ps) : ¬ SpellsPlaceholder ps :=
  fun hs => h (hs.subset (by simp))

theorem filled_chars {answers : List (Str × Str)} (s : Str) {ps : List HoledPiece} {x : Str} (h : Filled answers ps x) :
    Filled answers (s.map .char ++ ps) (s ++ x) := by
  induction s with
  | nil => exact h
  | cons c s ih => exact .char c ih

/-- The hypotheses of `C61_evaluation_of_templates_ends_partial` hold for this text. -/
example :
    (∀ t, ∀ c ∈ exampleTemplates.hash t, c ∈ b!"0123456789abcdef") ∧
    (∀ t a, exampleTemplates.evaluate t (exampleTemplates.hash t) = .ok a →
      ∃ qs, a = holedText qs ∧ ¬ SpellsPlaceholder qs ∧ ∀ k, .hole k ∈ qs → (0x24 : Byte) ∉ k ∧ holeText k <:+: t) ∧
    ¬ b!"TEMPLATE_PLACEHOLDER_" <:+: strayBraces ∧
    (∀ fuel c st, placeholderLoop exampleTemplates fuel strayBraces 0 ⟨[], []⟩ = some (.ok (c, st)) → NoCollision st.calls ∧
      ∀ ps x, c = holedText ps → ¬ SpellsPlaceholder ps → Filled st.results ps x → ¬ b!"TEMPLATE_PLACEHOLDER_" <:+: x) := by
  refine ⟨?_, ?_, by rw [← contains_eq_false_iff]; decide +kernel, ?_⟩
  · intro t c hc
    simp only [exampleTemplates] at hc
    split at hc
    · revert c; decide
    · split at hc <;> (revert c; decide)
  · intro t a h
    simp only [exampleTemplates] at h
    split at h
    · cases h; exact ⟨[.char 0x42], by decide +kernel, not_spells (by simp), by intro k hk; simp at hk⟩
    · split at h
      · rename_i ht
        cases h
        refine ⟨[.char 0x3C, .hole b!"b0", .char 0x2C, .hole b!"b0", .char 0x3E], by decide +kernel, not_spells (by simp), ?_⟩
        intro k hk
        simp at hk
        subst hk ht
        exact ⟨by decide, by rw [← contains_iff]; decide +kernel⟩
      · cases h
  · intro fuel c st h
    have h1 := placeholderLoop_mono _ fuel _ _ _ _ h (max fuel 90) (by omega)
    have h2 := placeholderLoop_mono _ 90 _ _ _ _ strayBraces_search (max fuel 90) (by omega)
    rw [h1] at h2
    cases h2
    refine ⟨by unfold NoCollision; decide +kernel, ?_⟩
    intro ps x hc hs hf
    have hd : ∀ e ∈ strayBracesSearched.2.results, (0x24 : Byte) ∉ e.1 := by decide +kernel
    obtain ⟨n, hn⟩ := Resolved.count hf.resolved
    have hps : ps = b!"x }} ".map .char ++ .hole b!"a0" :: (b!" {y }".map .char ++ []) := by
      refine holedText_inj hs ?_ (hn.keys hd) ?_ (hc.symm.trans (by decide +kernel))
      · show ¬ SpellsPlaceholder _
        exact not_spells (by simp)
      · intro k hk
        simp at hk
        subst hk
        decide
    subst hps
    have hf' : Filled strayBracesSearched.2.results (b!"x }} ".map .char ++ .hole b!"a0" :: (b!" {y }".map .char ++ [])) _ :=
      filled_chars _ (.hole (inner := b!"<".map .char ++ .hole b!"b0" :: (b!",".map .char ++ .hole b!"b0" :: (b!">".map .char ++ []))) _
        (by decide +kernel) (not_spells (by simp))
        (filled_chars _ (.hole (inner := b!"B".map .char ++ []) _ (by decide +kernel) (not_spells (by simp)) (filled_chars _ .nil)
          (filled_chars _ (.hole (inner := b!"B".map .char ++ []) _ (by decide +kernel) (not_spells (by simp)) (filled_chars _ .nil)
            (filled_chars _ .nil)))))
        (filled_chars _ .nil))
    rw [hf.unique (by decide +kernel) hd hf', ← contains_eq_false_iff]
    decide +kernel

example : evaluateTemplates exampleTemplates (fun _ m => m) 90 strayBraces = some (.ok (b!"x }} <B,B> {y }", strayBracesSearched.2.calls)) := by
  decide +kernel

end Verif.Props
