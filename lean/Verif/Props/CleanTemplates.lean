import Verif.Lemmas.Templates

/-! # C40: ignored and trailing templates -/

namespace Verif.Props
open Verif.Go Verif.Model Verif.Spec Verif.Lemmas TemplateText
open scoped List

/-- The template is configured as ignored. Names are compared in lower case and without surrounding white space. -/
def IsIgnored (env : ParserEnv) (name : Str) : Bool :=
  decide (trimSpace (env.lower name) ∈ (env.config.list .ignoredTemplates).map env.lower)

/-- The template is configured as trailing. -/
def IsTrailing (env : ParserEnv) (name : Str) : Bool :=
  decide (trimSpace (env.lower name) ∈ (env.config.list .trailingTemplates).map env.lower)

/-- All templates of the text satisfy `p lead name args`. -/
def AllTemplates (p : Str → Str → TemplateText → Prop) : TemplateText → Prop
  | .nil => True
  | .char _ rest => AllTemplates p rest
  | .template lead name args rest => p lead name args ∧ AllTemplates p args ∧ AllTemplates p rest

/-- No configured name is a proper beginning of the name of the template. -/
def NoConfiguredPrefix (env : ParserEnv) (name : Str) : Prop :=
  ∀ e ∈ env.config.list .ignoredTemplates ++ env.config.list .trailingTemplates,
    env.lower e <+: trimSpace (env.lower name) → env.lower e = trimSpace (env.lower name)

theorem removes_iff (env : ParserEnv) (name : Str) (h : NoConfiguredPrefix env name) :
    removesTemplate env (normName env name) = (IsIgnored env name || IsTrailing env name) := by
  have key : ∀ l : List Str, (∀ e ∈ l, env.lower e <+: normName env name → env.lower e = normName env name) →
      hasAnyPrefix (normName env name) (l.map env.lower) = decide (normName env name ∈ l.map env.lower) := by
    intro l hl
    unfold hasAnyPrefix
    rw [Bool.eq_iff_iff]
    simp only [List.any_eq_true, List.mem_map, decide_eq_true_eq]
    constructor
    · rintro ⟨x, ⟨e, he, rfl⟩, hp⟩
      exact ⟨e, he, hl e he (hasPrefix_iff.mp hp)⟩
    · rintro ⟨e, he, h'⟩
      exact ⟨_, ⟨e, he, rfl⟩, by rw [hasPrefix_iff, h']; exact List.prefix_refl _⟩
  unfold removesTemplate IsIgnored IsTrailing
  rw [key _ fun e he => h e (by simp [he]), key _ fun e he => h e (by simp [he])]
  rfl

/-- The text of a template. -/
def templateSource (x : Str × Str × TemplateText) : Str := b!"{{" ++ x.1 ++ x.2.1 ++ x.2.2.text ++ b!"}}"

theorem without_congr {p q : Str → Bool} (d : TemplateText) (h : AllTemplates (fun _ n _ => p n = q n) d) :
    d.without p = d.without q := by
  induction d with
  | nil => rfl
  | char c rest ih => simp only [without]; rw [ih h]
  | template lead name args rest ih1 ih2 => simp only [without]; rw [ih1 h.2.1, ih2 h.2.2, h.1]

theorem outermost_congr {p q r : Str → Bool} (d : TemplateText) (h : AllTemplates (fun _ n _ => p n = q n) d) :
    d.outermost p r = d.outermost q r := by
  induction d with
  | nil => rfl
  | char c rest ih => simp only [outermost]; rw [ih h]
  | template lead name args rest ih1 ih2 => simp only [outermost]; rw [ih1 h.2.1, ih2 h.2.2, h.1]

theorem allTemplates_imp {p q : Str → Str → TemplateText → Prop} (hpq : ∀ a b c, p a b c → q a b c) (d : TemplateText)
    (h : AllTemplates p d) : AllTemplates q d := by
  induction d with
  | nil => trivial
  | char c rest ih => exact ih h
  | template lead name args rest ih1 ih2 => exact ⟨hpq _ _ _ h.1, ih1 h.2.1, ih2 h.2.2⟩

theorem outermost_map {p q : Str → Bool} {f g : Str × Str × TemplateText → Str} (d : TemplateText)
    (h : AllTemplates (fun l n a => q n = true → f (l, n, a) = g (l, n, a)) d) :
    (d.outermost p q).flatMap f = (d.outermost p q).flatMap g := by
  induction d with
  | nil => rfl
  | char c rest ih => exact ih h
  | template lead name args rest ih1 ih2 =>
    simp only [outermost, List.flatMap_append]
    rw [ih2 h.2.2]
    congr 1
    split
    · split
      · next hq => simp [h.1 hq]
      · rfl
    · exact ih1 h.2.1

/-- **C40** Exactly the templates configured as ignored or trailing are removed, and the trailing ones are added at the
end, in their order. Everything else stays where it is. (A template that is configured as both counts as trailing;
templates in the arguments of a removed template are removed with it.) Missing: names that only begin with a configured
name are removed as well (`C40_prefix_is_enough`), and trailing templates must have no arguments and a name in normal
form (`C40_arguments_are_lost`). -/
theorem C40_templates_removed_and_moved_partial (env : ParserEnv) (d : TemplateText) (hw : d.WellFormed [])
    (hp : AllTemplates (fun _ name _ => NoConfiguredPrefix env name) d)
    (ht : AllTemplates (fun lead name args => IsTrailing env name = true →
      lead = [] ∧ args.text = [] ∧ trimSpace (env.lower name) = name) d) :
    handleUnwantedAndTrailingTemplates env d.text =
      (d.without fun n => IsIgnored env n || IsTrailing env n).text ++
        (d.outermost (fun n => IsIgnored env n || IsTrailing env n) (IsTrailing env)).flatMap
          fun x => b!"\n" ++ templateSource x := by
  have hr := allTemplates_imp (q := fun _ n _ => removesTemplate env (normName env n) = (IsIgnored env n || IsTrailing env n))
    (fun _ n _ h => removes_iff env n h) d hp
  rw [handleTemplates_text env d hw, without_congr d hr]
  congr 1
  unfold foundNames
  rw [outermost_congr d hr, List.flatMap_map]
  refine outermost_map d (allTemplates_imp ?_ d ht)
  intro l n a h hq
  obtain ⟨h1, h2, h3⟩ := h hq
  simp [templateSource, h1, h2, normName, h3]

/-- **C40** Whatever the configuration is, the text outside of the removed templates stays as it is; every removed
template that is configured as trailing leaves its name at the end, in small letters and without white space, and nothing
else is added. -/
theorem C40_rest_unchanged (env : ParserEnv) (d : TemplateText) (hw : d.WellFormed []) :
    let removed : Str → Bool := fun n => (env.config.list .ignoredTemplates ++ env.config.list .trailingTemplates).any
      fun e => hasPrefix (trimSpace (env.lower n)) (env.lower e)
    handleUnwantedAndTrailingTemplates env d.text =
      (d.without removed).text ++
        (d.outermost removed (IsTrailing env)).flatMap fun x => b!"\n{{" ++ trimSpace (env.lower x.2.1) ++ b!"}}" := by
  have e : (fun n => removesTemplate env (normName env n)) = fun n =>
      (env.config.list .ignoredTemplates ++ env.config.list .trailingTemplates).any
        fun e => hasPrefix (trimSpace (env.lower n)) (env.lower e) := by
    funext n
    simp [removesTemplate, hasAnyPrefix, normName, List.any_map, Function.comp_def]
  intro removed
  rw [handleTemplates_text env d hw, e]
  congr 1
  unfold foundNames
  rw [e, List.flatMap_map]
  rfl

/-- A configuration with an ignored and a trailing template. -/
def templateEnv : ParserEnv where
  lower := List.map lowerByte
  upperFirst := id
  config := { defaultConfig ⟨b!"/c", false, false⟩ with
    list := fun o => match o with
      | .ignoredTemplates => [b!"toc"]
      | .trailingTemplates => [b!"note"]
      | _ => [] }

example : handleUnwantedAndTrailingTemplates templateEnv b!"a {{TOC|x={{b}}}} {{note}}{{c|{{ Toc}}d}}{|" =
    b!"a  {{c|d}}{|\n{{note}}" := by decide +kernel

/-- The hypotheses of the theorem hold for such a text. -/
example : let d := char 0x61 (template b!" " b!"TOC" (char 0x7C nil) (template [] b!"note" nil (template [] b!"c" nil nil)))
    d.WellFormed [] ∧ AllTemplates (fun _ name _ => NoConfiguredPrefix templateEnv name) d ∧
    AllTemplates (fun lead name args => IsTrailing templateEnv name = true →
      lead = [] ∧ args.text = [] ∧ trimSpace (templateEnv.lower name) = name) d ∧
    d.text = b!"a{{ TOC|}}{{note}}{{c}}" ∧
    (d.without fun n => IsIgnored templateEnv n || IsTrailing templateEnv n).text = b!"a{{c}}" := by
  refine ⟨?_, ⟨?_, trivial, ?_, trivial, ?_, trivial, trivial⟩, ⟨?_, trivial, ?_, trivial, ?_, trivial, trivial⟩, by decide, by decide⟩
  · refine ⟨by decide, by decide, ⟨by decide, ⟨_, _, rfl, by decide⟩, by decide, ⟨_, _, rfl, by decide⟩, ⟨by decide, by decide, trivial⟩,
      ⟨by decide, ⟨_, _, rfl, by decide⟩, by decide, ⟨_, _, rfl, by decide⟩, trivial,
        ⟨by decide, ⟨_, _, rfl, by decide⟩, by decide, ⟨_, _, rfl, by decide⟩, trivial, trivial⟩⟩⟩⟩
  all_goals first
    | (unfold NoConfiguredPrefix; decide)
    | decide

/-- **C40** fails: a template is removed, and not moved, if its name only begins with a configured name. -/
theorem C40_prefix_is_enough :
    handleUnwantedAndTrailingTemplates templateEnv b!"a {{tocology}} {{notebook|b}}" = b!"a  " := by decide +kernel

/-- **C40** fails: the arguments of a trailing template are lost, as is the case of its name. -/
theorem C40_arguments_are_lost :
    handleUnwantedAndTrailingTemplates templateEnv b!"a {{Note|important}}" = b!"a \n{{note}}" := by decide +kernel

end Verif.Props
