import Verif.Lemmas.Hidden
import Verif.Props.EvaluateTemplates
import Verif.Props.Cleaner
import Verif.Spec.Sections

/-!
# Articles with templates
-/

namespace Verif.Model
open Verif.Go Verif.Spec Verif.Lemmas Verif.Props
open scoped List

/-- An article that consists of the given parts and contains the templates of `d` (behind comments and removed links); `lines`
is what is left of it when comments, removed links, ignored templates, spaces around lines and empty list entries are removed
and trailing templates are moved to the end. -/
structure CleanedArticle (env : ParserEnv) (parts : List SourcePart) (d : TemplateText) (written all lines : List Str) : Prop where
  /-- comments and links to be removed; ignored templates are in `d` -/
  hidden : ∀ p ∈ parts, p.WellFormed (linkRules env) fun _ => False
  noSwitch : ∀ p ∈ parts, p ≠ .noToc
  placed : WellPlaced parts
  kept : keptText parts = d.text
  comments : ¬ b!"<!--" <:+: d.text
  /-- all other links are kept -/
  links : ∃ l : LinkText, l.text = d.text ∧ l.WellFormed ∧ l.AllLinks fun inner => PlainLabel (linkRules env) inner ∧ ¬ Unwanted (linkRules env) inner
  templates : d.WellFormed []
  names : AllTemplates (fun _ name _ => NoConfiguredPrefix env name) d
  trailing : AllTemplates (fun lead name args => IsTrailing env name = true → lead = [] ∧ args.text = [] ∧ trimSpace (env.lower name) = name) d
  /-- the switch `__NOTOC__` is between the pieces that are left -/
  switches : ∃ pieces : List Str, (d.without fun n => IsIgnored env n || IsTrailing env n).text ++
      (d.outermost (fun n => IsIgnored env n || IsTrailing env n) (IsTrailing env)).flatMap (fun x => b!"\n" ++ templateSource x) = join b!"__NOTOC__" pieces ∧
    (∀ p ∈ pieces, ¬ b!"__" <:+: p ∧ p.getLast? ≠ some 0x5F) ∧ pieces.flatten = join b!"\n" written
  trimmed : WrittenLines all written
  clean : CleanLines all
  entries : ∀ l ∈ all, ¬ OnlyListChars l
  /-- sections without text -/
  removed : WithEmptySections (fun _ => True) lines all
  sections : NoEmptySections lines
  /-- the special case of the railway templates of the German Wikipedia -/
  railway : ¬ b!"{{BS-table}}" <:+: join b!"\n" lines

theorem railwayLoop_none {s : Str} (h : ¬ b!"{{BS-table}}" <:+: s) : ∀ (fuel i : Nat), s.length < fuel + i → 0 < fuel → railwayLoop fuel s i = some (.ok s) := by
  intro fuel
  induction fuel with
  | zero => intro i _ h; omega
  | succ fuel ih =>
    intro i hf _
    rw [railwayLoop]
    split
    · rw [if_neg, ih (i + 1) (by omega) (by omega)]
      intro he
      exact not_prefix_drop h i (he ▸ List.take_prefix 12 (s.drop i))
    · rfl

theorem sectionLoop_filled (ls : List Str) (ht : Trimmed ls) (h : NoEmptySections ls) : sectionLoop ls 0 = ls := by
  induction ls with
  | nil => rfl
  | cons l ls ih =>
    have ih := ih ht.tail fun before blanks rest x d e => h (l :: before) blanks rest x d (by rw [e]; rfl)
    by_cases hd : headingDepth l = 0
    · rw [sectionLoop_text ls hd, ih]
    · have hd : 0 < headingDepth l := by omega
      rw [sectionLoop_full ht.tail hd, ih]
      rintro blanks tail e ⟨hb, ht⟩
      obtain ⟨x, t, e', hx⟩ := h [] blanks tail l _ (by rw [e]; rfl) hd (sectionStart_of_depth hd) hb
      rcases ht with rfl | ⟨y, t', e'', h1, h2⟩
      · cases e'
      · rw [e'] at e''
        cases e''
        have := hx _ h1 (sectionStart_of_depth h1)
        omega

theorem linkLoop_wanted (env : ParserEnv) (l : LinkText) (hw : l.WellFormed)
    (hl : l.AllLinks fun inner => PlainLabel (linkRules env) inner ∧ ¬ Unwanted (linkRules env) inner) : linkLoop env l.text 0 = .ok l.text := by
  have hno : ∀ d : LinkText, d.without (fun _ => False) = d := by
    intro d
    induction d with
    | nil => rfl
    | char c rest ih => rw [LinkText.without, ih]
    | bracket i rest ih1 ih2 => rw [LinkText.without, ih1, ih2]
    | link i rest ih1 ih2 => rw [LinkText.without, if_neg (by simp), ih1, ih2]
  have := linkLoop_text env (fun _ => False) l hw (allLinks_imp (fun s hs => by
    rw [isUnwantedLink_iff env s hs.1]
    simp [hs.2]) l hl) []
  rw [hno, linkLoop_short env [] (by simp)] at this
  simpa using this

theorem replaceAll_switches (pieces : List Str) (h : ∀ p ∈ pieces, ¬ b!"__" <:+: p ∧ p.getLast? ≠ some 0x5F) :
    replaceAll (join b!"__NOTOC__" pieces) b!"__NOTOC__" [] = pieces.flatten := by
  induction pieces with
  | nil => rfl
  | cons p pieces ih =>
    by_cases hne : pieces = []
    · subst hne
      have : ¬ b!"__NOTOC__" <:+: p := fun hi => (h p (by simp)).1 (List.IsInfix.trans ⟨[], b!"NOTOC__", rfl⟩ hi)
      simpa [join] using replaceAll_of_not_infix this
    · rw [join_cons_of_ne_nil hne]
      rw [List.append_assoc, switch_free _ _ (h p (by simp)).1 (h p (by simp)).2, replaceAll_of_prefix (by simp), ih fun q hq => h q (by simp [hq])]
      simp

/-- Cleaning an article with templates. -/
theorem clean_article {env : ParserEnv} {parts : List SourcePart} {d : TemplateText} {written all lines : List Str}
    (h : CleanedArticle env parts d written all lines) (fuel : Nat) (hf : (join b!"\n" lines).length < fuel) :
    cleanText env fuel (sourceText parts) = some (.ok (join b!"\n" lines)) := by
  have hpl : ∀ pre p post, parts = pre ++ p :: post → p.FitsBetween ([] ++ pre) post := fun pre p post e => by simpa using h.placed pre p post e
  have hclean : ∀ l ∈ all, CleanLine l := fun l hl => ⟨h.clean.noBreak l hl, h.clean.trimmed l hl, by
    have := (keepListLine_iff l).mpr (h.entries l hl)
    rwa [h.clean.trimmed l hl] at this⟩
  have e0 : removeComments (sourceText parts) = parts.flatMap part1 := by
    have := hidden_comments parts h.hidden [] [] hpl List.nil_suffix (part1_calm parts h.hidden [] (by rw [List.nil_append, h.kept]; exact h.comments))
    simpa using this
  have ek : parts.flatMap part2 = keptText parts := by
    unfold keptText
    have hp := h.hidden
    have hs := h.noSwitch
    clear hpl e0 h
    induction parts with
    | nil => rfl
    | cons p parts ih =>
      rw [List.flatMap_cons, List.flatMap_cons, ih (fun q hq => hp q (by simp [hq])) (fun q hq => hs q (by simp [hq]))]
      congr 1
      cases p with
      | shown t => rfl
      | comment b => rfl
      | commentLine b => rfl
      | link b => rfl
      | template lead name args => exact (hp (.template lead name args) (by simp)).2.1.elim
      | noToc => exact absurd rfl (hs _ (by simp))
  have e1 : linkLoop env (parts.flatMap part1) 0 = .ok d.text := by
    obtain ⟨l, hl1, hl2, hl3⟩ := h.links
    have := hidden_links env parts h.hidden [] [] hpl List.nil_suffix (by
      rw [List.nil_append, h.kept, ← hl1]
      exact linkLoop_wanted env l hl2 hl3)
    rw [List.nil_append, List.nil_append, ek, h.kept] at this
    exact this
  have e2 := C40_templates_removed_and_moved_partial env d h.templates h.names h.trailing
  obtain ⟨pieces, hp1, hp2, hp3⟩ := h.switches
  rw [hp1] at e2
  have e3 : removeUnwantedWikitext (join b!"__NOTOC__" pieces) = join b!"\n" written := by
    rw [removeUnwantedWikitext, ← hp3, replaceAll_switches pieces hp2]
  have hne : written ≠ [] := by
    rintro rfl
    cases hl' : all with
    | nil => exact h.clean.ne hl'
    | cons l ls =>
      have := h.trimmed
      rw [hl'] at this
      cases this
  have hone : ∀ w ∈ written, (0x0A : Byte) ∉ w := by
    have hl := h.trimmed
    have hc := h.clean.noBreak
    clear hpl hclean e0 ek e1 e2 e3 hp1 hp2 hp3 hne hf h
    induction hl with
    | nil => simp
    | line a l b lines written ha hb _ ih =>
      intro w hw
      rcases List.mem_cons.mp hw with rfl | hw
      · simp only [List.mem_append, not_or]
        exact ⟨⟨padding_not_mem ha (by decide), hc l (by simp)⟩, padding_not_mem hb (by decide)⟩
      · exact ih (fun x hx => hc x (by simp [hx])) w hw
    | emptyEntry a m b lines written ha hb _ hm _ ih =>
      intro w hw
      rcases List.mem_cons.mp hw with rfl | hw
      · simp only [List.mem_append, not_or]
        exact ⟨⟨padding_not_mem ha (by decide), fun hx => absurd (hm _ hx) (by decide)⟩, padding_not_mem hb (by decide)⟩
      · exact ih hc w hw
  have e4 : removeEmptyListEntries (join b!"\n" written) = join b!"\n" all := by
    rw [removeEmptyListEntries, split_join_singleton hne hone, written_trimmed h.trimmed hclean]
  have hsub := withEmptySections_sublist h.removed
  have e5 : removeEmptySections (join b!"\n" all) = join b!"\n" lines := by
    rw [removeEmptySections, split_join_singleton h.clean.ne h.clean.noBreak,
      sectionLoop_more h.removed h.clean.trimmed (sectionLoop_filled lines (fun l hl => h.clean.trimmed l (hsub.subset hl)) h.sections)]
    intro l hl
    by_contra hd
    obtain ⟨ls, e⟩ := List.getLast?_eq_some_iff.mp hl
    obtain ⟨x, t, e', _⟩ := h.sections ls [] [] l (headingDepth l) e (by omega) (sectionStart_of_depth (by omega)) (by simp)
    cases e'
  rw [cleanText, e0, removeUnwantedInternalLinks, e1]
  simp only [e2, e3, e4, e5]
  exact railwayLoop_none h.railway fuel 0 (by omega) (by omega)

/-- The templates of a text are evaluated. -/
theorem evaluate_resolved (env : TemplateEnv) (doc : NestedText) (hw : doc.WellFormed [])
    (hhex : ∀ t, ∀ c ∈ env.hash t, c ∈ b!"0123456789abcdef")
    (hinj : ∀ t ∈ doc.templates, ∀ t' ∈ doc.templates,
      env.hash (t.request env.hash) = env.hash (t'.request env.hash) → t.request env.hash = t'.request env.hash)
    (answer : Str → Str)
    (hans : ∀ t ∈ doc.templates,
      env.evaluate (t.request env.hash) (env.hash (t.request env.hash)) = .ok (answer (t.request env.hash)))
    (x : Str) (hx : Resolved (doc.templates.map fun t => (env.hash (t.request env.hash), answer (t.request env.hash))) (doc.holed env.hash) x)
    (hc : ¬ b!"TEMPLATE_PLACEHOLDER_" <:+: x) (iterate : Nat → List (Str × Str) → List (Str × Str)) (hit : ∀ n m, (iterate n m).Perm m) :
    ∃ steps, ∀ fuel, steps ≤ fuel → evaluateTemplates env iterate fuel doc.text =
      some (.ok (x, doc.templates.map fun t => (t.request env.hash, env.hash (t.request env.hash)))) := by
  have hb : ∀ t, (0x7B : Byte) ∉ env.hash t := fun t h => absurd (hhex t _ h) (by decide)
  have hd : ∀ t, (0x24 : Byte) ∉ env.hash t := fun t h => absurd (hhex t _ h) (by decide)
  obtain ⟨hnd, hmem⟩ := evaluated_results env.hash answer doc.templates ⟨[], []⟩ [] (by simpa using hinj) (by simp) (by simp)
  have hres : Resolved (evaluated env.hash answer ⟨[], []⟩ doc.templates).results (doc.holed env.hash) x := by
    refine Resolved.mono (fun e he => ?_) hx
    rw [hmem]
    obtain ⟨t, ht, rfl⟩ := List.mem_map.mp he
    exact ⟨t, by simpa using ht, rfl⟩
  obtain ⟨n, hn⟩ := Resolved.count hres
  obtain ⟨h1, _⟩ := placeholderLoop_text hb doc [] [] ⟨[], []⟩ hw (fun j hj => absurd hj (by simp)) hans
  simp only [List.nil_append, List.append_nil, List.length_nil] at h1
  obtain ⟨N, hN⟩ := h1.finish (by omega)
  refine ⟨max N (n + 1), fun fuel hf => ?_⟩
  have hr := resolvePlaceholders_ok hnd (fun e he => by
    obtain ⟨t, _, rfl⟩ := (hmem e).mp he
    exact hd _) iterate hit hc n (Nat.le_refl n) hn fuel 0 (by omega)
  rw [evaluateTemplates, hN fuel (by omega)]
  simp only [hr, Option.map_some, evaluated_calls, List.nil_append]

end Verif.Model
