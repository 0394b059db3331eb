import Verif.Lemmas.TemplateArticle
import Verif.Props.Hidden

/-!
# C69: templates in articles are replaced by what the wiki answers
-/

namespace Verif.Props
open Verif.Go Verif.Model Verif.Spec Verif.Lemmas
open scoped List

/-- The HTML of an article that is cleaned, evaluated and cleaned again. -/
theorem article_of_steps (env : ParserEnv) (hp : PlainPrefixes env) (templates : TemplateEnv)
    (iterate : Nat → List (Str × Str) → List (Str × Str)) (html : HtmlEnv) (style title : Str)
    (doc : List (Nat × DocBlock)) (h : DocOk env doc) (hm : ∀ b ∈ doc, b.2.AllLines (Rendered html)) {source s x : Str} {calls : List (Str × Str)} (k k' k'' : Nat)
    (h1 : ∀ fuel, k ≤ fuel → cleanText env fuel source = some (.ok s))
    (h2 : ∀ fuel, k' ≤ fuel → evaluateTemplates templates iterate fuel s = some (.ok (x, calls)))
    (h3 : ∀ fuel, k'' ≤ fuel → cleanText env fuel x = some (.ok (join b!"\n" (documentSource doc)))) :
    ∃ steps, ∀ fuel, steps ≤ fuel →
      articleHtml env templates iterate html fuel style title source =
        some (.ok (htmlHeader style ++ b!"\n<h1>" ++ title ++ b!"</h1>\n" ++
          join b!"\n" (documentHtml ⟨ArticleImage.html env (imageSource html), formulaPicture html⟩ false doc) ++ htmlFooter)) := by
  obtain ⟨text, t, ⟨k1, ht⟩, k2, hx⟩ := tokenize_document env html hp doc h hm TokState.initial (by simp [KeysCreated, TokState.initial])
  refine ⟨k + k' + k'' + k1 + k2 + 1, fun fuel hf => ?_⟩
  have htk : tokenizeArticle env templates iterate fuel source = some (.ok (text, t)) := by
    rw [tokenizeArticle, h1 fuel (by omega)]
    simp only [h2 fuel (by omega), h3 fuel (by omega), ht fuel (by omega)]
  rw [articleHtml, htk]
  simp only
  rw [generateHtml, hx fuel (by omega)]
  rfl

/-- An article with (nested) templates becomes the HTML of the article in which each template has been replaced by the answer of
the wiki; comments, links to be removed, ignored templates, `__NOTOC__`, spaces around lines, empty list entries and empty sections
in the article and in the answers leave no trace, and trailing templates are moved to the end. -/
theorem C69_templates_become_their_answers_partial (env : ParserEnv) (hp : PlainPrefixes env) (templates : TemplateEnv)
    (hhex : ∀ t, ∀ c ∈ templates.hash t, c ∈ b!"0123456789abcdef")
    (iterate : Nat → List (Str × Str) → List (Str × Str)) (hit : ∀ n m, (iterate n m).Perm m) (html : HtmlEnv) (style title : Str)
    -- the article as the author has written it
    (parts : List SourcePart) (d : TemplateText) (written all lines : List Str) (ha : CleanedArticle env parts d written all lines)
    -- its templates and what the wiki answers
    (text : NestedText) (htext : text.text = join b!"\n" lines) (hw : text.WellFormed [])
    (hinj : ∀ t ∈ text.templates, ∀ t' ∈ text.templates,
      templates.hash (t.request templates.hash) = templates.hash (t'.request templates.hash) → t.request templates.hash = t'.request templates.hash)
    (answer : Str → Str)
    (hans : ∀ t ∈ text.templates,
      templates.evaluate (t.request templates.hash) (templates.hash (t.request templates.hash)) = .ok (answer (t.request templates.hash)))
    -- the article with the answers
    (parts' : List SourcePart)
    (hx : Resolved (text.templates.map fun t => (templates.hash (t.request templates.hash), answer (t.request templates.hash)))
      (text.holed templates.hash) (sourceText parts'))
    (hc : ¬ b!"TEMPLATE_PLACEHOLDER_" <:+: sourceText parts')
    (hw' : ∀ p ∈ parts', p.WellFormed (linkRules env) fun name => IsIgnored env name = true ∧ IsTrailing env name = false)
    (hpl : WellPlaced parts')
    (doc : List (Nat × DocBlock)) (h : DocOk env doc) (hm : ∀ b ∈ doc, b.2.AllLines (Rendered html))
    (all' : List Str) (ha' : WithEmptySections (HeadingOfArticle env) (documentSource doc) all')
    (written' : List Str) (hl : WrittenLines all' written') (hk : keptText parts' = join b!"\n" written') :
    ∃ steps, ∀ fuel, steps ≤ fuel →
      articleHtml env templates iterate html fuel style title (sourceText parts) =
        some (.ok (htmlHeader style ++ b!"\n<h1>" ++ title ++ b!"</h1>\n" ++
          join b!"\n" (documentHtml ⟨ArticleImage.html env (imageSource html), formulaPicture html⟩ false doc) ++ htmlFooter)) := by
  obtain ⟨k', he⟩ := evaluate_resolved templates text hw hhex hinj answer hans _ hx hc iterate hit
  rw [htext] at he
  exact article_of_steps env hp templates iterate html style title doc h hm ((join b!"\n" lines).length + 1) k' ((join b!"\n" (documentSource doc)).length + 1)
    (fun fuel hf => clean_article ha fuel (by omega)) he
    (fun fuel hf => clean_hidden env doc h parts' hw' hpl all' ha' written' hl hk fuel (by omega))

/-- If the wiki has no answer for a template of an article, there is an error and no incomplete page. -/
theorem C69_failed_template_is_an_error (env : ParserEnv) (templates : TemplateEnv)
    (hhex : ∀ t, ∀ c ∈ templates.hash t, c ∈ b!"0123456789abcdef")
    (iterate : Nat → List (Str × Str) → List (Str × Str)) (html : HtmlEnv) (style title : Str)
    (parts : List SourcePart) (d : TemplateText) (written all lines : List Str) (ha : CleanedArticle env parts d written all lines)
    (text : NestedText) (htext : text.text = join b!"\n" lines) (hw : text.WellFormed [])
    (hans : ∀ t ∈ text.templates, (∃ x, templates.evaluate (t.request templates.hash) (templates.hash (t.request templates.hash)) = .ok x) ∨
      templates.evaluate (t.request templates.hash) (templates.hash (t.request templates.hash)) = .err)
    (hbad : ∃ t ∈ text.templates, templates.evaluate (t.request templates.hash) (templates.hash (t.request templates.hash)) = .err) :
    ∃ steps, ∀ fuel, steps ≤ fuel → articleHtml env templates iterate html fuel style title (sourceText parts) = some .err := by
  obtain ⟨k, he⟩ := C39_failed_template_is_an_error templates iterate text hw hhex hans hbad
  rw [htext] at he
  refine ⟨k + (join b!"\n" lines).length + 1, fun fuel hf => ?_⟩
  rw [articleHtml, tokenizeArticle, clean_article ha fuel (by omega)]
  simp only [he fuel (by omega)]

/-! ### Examples -/

/-- A configuration with an ignored and a trailing template. -/
def hiddenTrailingEnv : ParserEnv where
  lower := exampleEnv.lower
  upperFirst := exampleEnv.upperFirst
  config := { exampleEnv.config with
    list := fun o => match o with
      | .ignoredTemplates => [b!"Infobox"]
      | .trailingTemplates => [b!"Sources"]
      | o => exampleEnv.config.list o }

/-- The answers of the wiki. -/
def sampleAnswer (request : Str) : Str :=
  if request = b!"{{n}}" then b!"3" else if request = b!"{{list}}" then b!"* x<!-- y -->" else if request = b!"{{sources}}" then b!"\nThe end."
  else b!"$$TEMPLATE_PLACEHOLDER_aaaaa$$ km"

def sampleTemplates : TemplateEnv where
  hash := fun t => List.replicate t.length 0x61
  evaluate := fun request _ => .ok (sampleAnswer request)

open LinkText in
def sampleParts : List SourcePart :=
  [.shown b!"{{infobox|a}}A {{unit|{{n}}}} walk.", .comment b!" c ", .link (char 0x64 (char 0x65 (char 0x3A (char 0x53 nil)))),
    .shown b!"{{sources}}\n* {{n}} __NOTOC__\n*\n== E ==\n\n== T ==\n{{list}}"]

example : sourceText sampleParts = b!"{{infobox|a}}A {{unit|{{n}}}} walk.<!-- c -->[[de:S]]{{sources}}
* {{n}} __NOTOC__
*
== E ==

== T ==
{{list}}" := by decide +kernel

def sampleAnswered : List SourcePart := [.shown b!"A 3 km walk.\n* 3\n== T ==\n* x", .comment b!" y ", .shown b!"\n\nThe end."]

def templateChars : Str → TemplateText → TemplateText
  | [], d => d
  | c :: t, d => .char c (templateChars t d)

def nestedChars : Str → NestedText → NestedText
  | [], d => d
  | c :: t, d => .char c (nestedChars t d)

def sampleSource : TemplateText :=
  .template [] b!"infobox" (templateChars b!"|a" .nil) (templateChars b!"A " (.template [] b!"unit" (templateChars b!"|" (.template [] b!"n" .nil .nil))
    (templateChars b!" walk." (.template [] b!"sources" .nil (templateChars b!"\n* " (.template [] b!"n" .nil (templateChars b!" __NOTOC__\n*\n== E ==\n\n== T ==\n" (.template [] b!"list" .nil .nil))))))))

def sampleText : NestedText :=
  nestedChars b!"A " (.template (nestedChars b!"unit|" (.template (nestedChars b!"n" .nil) .nil)) (nestedChars b!" walk.\n* "
    (.template (nestedChars b!"n" .nil) (nestedChars b!"\n== T ==\n" (.template (nestedChars b!"list" .nil) (nestedChars b!"\n" (.template (nestedChars b!"sources" .nil) .nil)))))))

def sampleWritten : List Str := [b!"A {{unit|{{n}}}} walk.", b!"* {{n}} ", b!"*", b!"== E ==", b!"", b!"== T ==", b!"{{list}}", b!"{{sources}}"]

def sampleAll : List Str := [b!"A {{unit|{{n}}}} walk.", b!"* {{n}}", b!"== E ==", b!"", b!"== T ==", b!"{{list}}", b!"{{sources}}"]

def sampleLines : List Str := [b!"A {{unit|{{n}}}} walk.", b!"* {{n}}", b!"== T ==", b!"{{list}}", b!"{{sources}}"]

/-- The article with the answers. -/
def sampleArticle : List (Nat × DocBlock) :=
  [(0, .paragraph [[⟨none, [.text b!"A 3 km walk."]⟩]]), (0, .list (.mk .star [.mk .star (1, [⟨none, [.text b!"3"]⟩]) []])),
    (0, .heading 2 1 1 [⟨none, [.text b!"T"]⟩]), (0, .list (.mk .star [.mk .star (1, [⟨none, [.text b!"x"]⟩]) []])),
    (1, .paragraph [[⟨none, [.text b!"The end."]⟩]])]

theorem templateChars_ok {t : Str} (h : ∀ c ∈ t, c ∉ b!"{}") {d : TemplateText} {after : Str} (hd : d.WellFormed after) : (templateChars t d).WellFormed after := by
  induction t with
  | nil => exact hd
  | cons c t ih =>
    have hc := h c (by simp)
    refine ⟨?_, ?_, ih fun x hx => h x (by simp [hx])⟩ <;> (rw [List.cons_prefix_cons]; rintro ⟨rfl, _⟩; exact hc (by decide))

theorem nestedChars_ok {t : Str} (h : ∀ c ∈ t, c ∉ b!"{}") {d : NestedText} {after : Str} (hd : d.WellFormed after) : (nestedChars t d).WellFormed after := by
  induction t with
  | nil => exact hd
  | cons c t ih =>
    have hc := h c (by simp)
    refine ⟨?_, ?_, ih fun x hx => h x (by simp [hx])⟩ <;> (rw [List.cons_prefix_cons]; rintro ⟨rfl, _⟩; exact hc (by decide))

theorem template_ok {name : Str} {args rest : TemplateText} {after : Str} (h1 : ∃ c t, name = c :: t ∧ isLead c = false) (h2 : ∀ c ∈ name, c ∉ b!"{}|\n")
    (h3 : TemplateText.EndsName (args.text ++ b!"}}")) (h4 : args.WellFormed (b!"}}" ++ rest.text ++ after)) (h5 : rest.WellFormed after) :
    (TemplateText.template [] name args rest).WellFormed after := ⟨by simp, h1, h2, h3, h4, h5⟩

theorem resolved_chars {answers : List (Str × Str)} (s : Str) {ps : List HoledPiece} {x : Str} (h : Resolved answers ps x) :
    Resolved answers (s.map .char ++ ps) (s ++ x) := by
  induction s with
  | nil => exact h
  | cons c s ih => exact .char c ih

instance decideTemplates {p : Str → Str → TemplateText → Prop} [∀ a b c, Decidable (p a b c)] : ∀ d, Decidable (AllTemplates p d)
  | .nil => .isTrue trivial
  | .char _ rest => decideTemplates rest
  | .template lead name args rest =>
    have := decideTemplates (p := p) args
    have := decideTemplates (p := p) rest
    inferInstanceAs (Decidable (p lead name args ∧ AllTemplates p args ∧ AllTemplates p rest))

instance (env : ParserEnv) (name : Str) : Decidable (NoConfiguredPrefix env name) := by unfold NoConfiguredPrefix; infer_instance

theorem sections_of_test {lines : List Str} (h : ∀ n < lines.length, 0 < headingDepth (lines.getD n []) →
      ∃ x ∈ ((lines.drop (n + 1)).dropWhile (· == [])).head?, headingDepth x = 0 ∨ headingDepth (lines.getD n []) < headingDepth x) : NoEmptySections lines := by
  intro before blanks rest hd d e h0 hs hb
  have hdep := (headingDepth_iff h0).mpr hs
  have h1 := h before.length (by rw [e]; simp)
  have e1 : lines.getD before.length [] = hd := by rw [e]; simp
  have e2 : lines.drop (before.length + 1) = blanks ++ rest := by rw [e]; simp
  rw [e1, e2, hdep, List.dropWhile_append] at h1
  have e3 : blanks.dropWhile (· == []) = [] := by
    clear e2 e h1 e1
    induction blanks with
    | nil => rfl
    | cons b bs ih => rw [List.dropWhile_cons_of_pos (by simp [hb b (by simp)]), ih fun x hx => hb x (by simp [hx])]
  rw [e3] at h1
  obtain ⟨x, hx, hxd⟩ := h1 h0
  simp only [List.isEmpty_nil, if_true] at hx
  cases rest with
  | nil => simp at hx
  | cons y t =>
    refine ⟨y, t, rfl, fun e' he' hse => ?_⟩
    have hy := (headingDepth_iff he').mpr hse
    by_cases hyn : y = []
    · rw [hyn, depth_nil] at hy; omega
    · rw [List.dropWhile_cons_of_neg (by simpa using hyn)] at hx
      simp at hx
      rw [hx] at hy
      omega

theorem sample_cleaned : CleanedArticle hiddenTrailingEnv sampleParts sampleSource sampleWritten sampleAll sampleLines where
  hidden := by
    have hfile : ∀ a b : Str, hiddenTrailingEnv.lower a ∉ hiddenTrailingEnv.config.list .filePrefixes → (linkPrefixes (linkAim b)).head? = some a →
        ¬ IsFile (linkRules hiddenTrailingEnv) (linkAim b) := by
      rintro a b h1 h2 ⟨p, h3, h4⟩
      rw [h2] at h3
      cases h3
      exact h1 h4
    simp only [sampleParts, List.mem_cons, List.not_mem_nil, or_false, forall_eq_or_imp, forall_eq]
    refine ⟨trivial, ⟨by decide, by decide, by decide⟩, ⟨by simp [LinkText.WellFormed], rfl, ⟨hfile b!"de" _ (by decide +kernel) (by decide +kernel), by decide +kernel, b!"de", by decide +kernel, by decide +kernel, ?_⟩, by decide +kernel⟩, trivial⟩
    right; decide +kernel
  noSwitch := by simp [sampleParts]
  placed := placed_of_test (by decide +kernel)
  kept := by decide +kernel
  comments := by decide +kernel
  links := by
    have : ∀ (t : Str) (q : Str → Prop), (charsThen t .nil).AllLinks q := by
      intro t q
      induction t with
      | nil => trivial
      | cons c t ih => exact ih
    exact ⟨charsThen sampleSource.text .nil, by rw [charsThen_text]; simp [LinkText.text], charsThen_ok (by decide +kernel) trivial, this _ _⟩
  templates := by
    refine template_ok ⟨_, _, rfl, by decide⟩ (by decide) ⟨_, _, rfl, by decide⟩ (templateChars_ok (by decide) trivial) (templateChars_ok (by decide)
      (template_ok ⟨_, _, rfl, by decide⟩ (by decide) ⟨_, _, rfl, by decide⟩ (templateChars_ok (by decide) (template_ok ⟨_, _, rfl, by decide⟩ (by decide) ⟨_, _, rfl, by decide⟩ trivial trivial))
      (templateChars_ok (by decide) (template_ok ⟨_, _, rfl, by decide⟩ (by decide) ⟨_, _, rfl, by decide⟩ trivial (templateChars_ok (by decide)
      (template_ok ⟨_, _, rfl, by decide⟩ (by decide) ⟨_, _, rfl, by decide⟩ trivial (templateChars_ok (by decide) (template_ok ⟨_, _, rfl, by decide⟩ (by decide) ⟨_, _, rfl, by decide⟩ trivial trivial))))))))
  names := by decide +kernel
  trailing := by decide +kernel
  switches := ⟨[b!"A {{unit|{{n}}}} walk.\n* {{n}} ", b!"\n*\n== E ==\n\n== T ==\n{{list}}\n{{sources}}"], by decide +kernel, by decide +kernel, by decide +kernel⟩
  trimmed := by
    have hpad : Padding b!" " := by simp [Padding]
    have hno : Padding [] := by simp [Padding]
    exact .line [] b!"A {{unit|{{n}}}} walk." [] _ _ hno hno (.line [] b!"* {{n}}" b!" " _ _ hno hpad (.emptyEntry [] b!"*" [] _ _ hno hno (by simp) (by simp)
      (.line [] b!"== E ==" [] _ _ hno hno (.line [] [] [] _ _ hno hno (.line [] b!"== T ==" [] _ _ hno hno (.line [] b!"{{list}}" [] _ _ hno hno (.line [] b!"{{sources}}" [] _ _ hno hno .nil)))))))
  clean := ⟨by simp [sampleAll], by decide +kernel, by decide +kernel⟩
  entries := by decide +kernel
  removed := by
    have hT : HeadingLine b!"== T ==" 2 := .text 2 b!" T " (by simp) (by simp) (by simp) (by simp)
    have hE : HeadingLine b!"== E ==" 2 := .text 2 b!" E " (by simp) (by simp) (by simp) (by simp)
    exact .line _ _ _ (.line _ _ _ (.emptySection b!"== E ==" 2 1 _ _ hE (by simp) trivial (.inr ⟨_, _, 2, rfl, by simp, hT⟩) (withEmptySections_refl _ _)))
  sections := sections_of_test (by decide +kernel)
  railway := by decide +kernel

theorem sampleText_ok : sampleText.WellFormed [] :=
  nestedChars_ok (by decide) ⟨nestedChars_ok (by decide) ⟨nestedChars_ok (by decide) trivial, trivial⟩, nestedChars_ok (by decide)
    ⟨nestedChars_ok (by decide) trivial, nestedChars_ok (by decide) ⟨nestedChars_ok (by decide) trivial, nestedChars_ok (by decide) ⟨nestedChars_ok (by decide) trivial, trivial⟩⟩⟩⟩

/-- The hypotheses of **C69** hold for the article above. -/
example : PlainPrefixes hiddenTrailingEnv ∧ (∀ t, ∀ c ∈ sampleTemplates.hash t, c ∈ b!"0123456789abcdef") ∧
    CleanedArticle hiddenTrailingEnv sampleParts sampleSource sampleWritten sampleAll sampleLines ∧
    sampleText.text = join b!"\n" sampleLines ∧ sampleText.WellFormed [] ∧
    (∀ t ∈ sampleText.templates, ∀ t' ∈ sampleText.templates,
      sampleTemplates.hash (t.request sampleTemplates.hash) = sampleTemplates.hash (t'.request sampleTemplates.hash) →
        t.request sampleTemplates.hash = t'.request sampleTemplates.hash) ∧
    (∀ t ∈ sampleText.templates, sampleTemplates.evaluate (t.request sampleTemplates.hash) (sampleTemplates.hash (t.request sampleTemplates.hash)) =
      .ok (sampleAnswer (t.request sampleTemplates.hash))) ∧
    Resolved (sampleText.templates.map fun t => (sampleTemplates.hash (t.request sampleTemplates.hash), sampleAnswer (t.request sampleTemplates.hash)))
      (sampleText.holed sampleTemplates.hash) (sourceText sampleAnswered) ∧
    ¬ b!"TEMPLATE_PLACEHOLDER_" <:+: sourceText sampleAnswered ∧
    (∀ p ∈ sampleAnswered, p.WellFormed (linkRules hiddenTrailingEnv) fun name => IsIgnored hiddenTrailingEnv name = true ∧ IsTrailing hiddenTrailingEnv name = false) ∧
    WellPlaced sampleAnswered ∧ DocOk hiddenTrailingEnv sampleArticle ∧ (∀ b ∈ sampleArticle, b.2.AllLines (Rendered htmlEnv)) ∧
    WithEmptySections (HeadingOfArticle hiddenTrailingEnv) (documentSource sampleArticle) (documentSource sampleArticle) ∧
    WrittenLines (documentSource sampleArticle) (documentSource sampleArticle) ∧
    keptText sampleAnswered = join b!"\n" (documentSource sampleArticle) := by
  have htext : ∀ t ∈ [b!"A 3 km walk.", b!"3", b!"T", b!"x", b!"The end."], (Inline.text t).WellFormed hiddenTrailingEnv := by
    intro t h
    exact text_of ((by decide +kernel : ∀ t ∈ [b!"A 3 km walk.", b!"3", b!"T", b!"x", b!"The end."], TextTest t) t h)
  refine ⟨exampleEnv_plain, ?_, sample_cleaned, by decide +kernel, sampleText_ok, by decide +kernel, fun _ _ => rfl, ?_, by decide +kernel, ?_,
    placed_of_test (by decide +kernel), ⟨by simp [sampleArticle], ?_, by simp [sampleArticle, BlocksFollow, CanFollow], trivial, ?_, by simp [sampleArticle]⟩, ?_, withEmptySections_refl _ _, ?_, by decide +kernel⟩
  · intro t c hc
    rw [List.eq_of_mem_replicate hc]
    decide
  · have hn : ∀ {answers : List (Str × Str)}, (b!"aaaaa", b!"3") ∈ answers → Resolved answers (.hole b!"aaaaa" :: b!" km".map .char) (b!"3" ++ b!" km") := fun ha =>
      .hole (inner := b!"3".map .char) _ ha (by simpa using resolved_chars b!"3" (.nil)) (by simpa using resolved_chars b!" km" (.nil))
    have hlit : ∀ {answers : List (Str × Str)} (key a : Str) {ps : List HoledPiece} {x : Str}, (key, a) ∈ answers → Resolved answers ps x →
        Resolved answers (.hole key :: ps) (a ++ x) := fun key a _ _ ha hr =>
      .hole (inner := a.map .char) _ (by rw [holedText_chars]; exact ha) (by simpa using resolved_chars a (.nil)) hr
    have := resolved_chars (answers := sampleText.templates.map fun t => (sampleTemplates.hash (t.request sampleTemplates.hash), sampleAnswer (t.request sampleTemplates.hash)))
      b!"A " (.hole (inner := .hole b!"aaaaa" :: b!" km".map .char) (List.replicate 39 0x61) (by decide +kernel) (hn (by decide +kernel))
        (resolved_chars b!" walk.\n* " (hlit b!"aaaaa" b!"3" (by decide +kernel) (resolved_chars b!"\n== T ==\n" (hlit b!"aaaaaaaa" b!"* x<!-- y -->" (by decide +kernel)
          (resolved_chars b!"\n" (hlit b!"aaaaaaaaaaa" b!"\nThe end." (by decide +kernel) .nil)))))))
    exact this
  · simp only [sampleAnswered, List.mem_cons, List.not_mem_nil, or_false, forall_eq_or_imp, forall_eq]
    exact ⟨trivial, ⟨by decide, by decide, by decide⟩, trivial⟩
  · simp only [sampleArticle, List.mem_cons, List.not_mem_nil, or_false, forall_eq_or_imp, forall_eq, DocBlock.WellFormed, TreeList.WellFormed,
      treeItemsWellFormed, treesWellFormed]
    simp only [List.mem_cons, List.not_mem_nil, or_false, forall_eq_or_imp, forall_eq] at htext
    refine ⟨⟨by simp, rich_of ?_ (by simp [RunsSeparated]) (by decide +kernel), by decide, by decide +kernel⟩,
      ⟨by simp, by simp, ⟨rich_of ?_ (by simp [RunsSeparated]) (by decide +kernel), by simp⟩, by simp⟩,
      ⟨by decide, by decide, rich_of ?_ (by simp [RunsSeparated]) (by decide +kernel), by decide +kernel⟩,
      ⟨by simp, by simp, ⟨rich_of ?_ (by simp [RunsSeparated]) (by decide +kernel), by simp⟩, by simp⟩,
      ⟨by simp, rich_of ?_ (by simp [RunsSeparated]) (by decide +kernel), by decide, by decide +kernel⟩⟩
    all_goals simp [Run.WellFormed, htext]
  · simp [sampleArticle, DocBlock.texts, NoReferences, lineRefs, TreeList.texts, treeItemsTexts, treesTexts]
  · simp [sampleArticle, DocBlock.AllLines, TreeList.WellFormed, treeItemsWellFormed, treesWellFormed, Rendered]
  · generalize documentSource sampleArticle = ls
    have hno : Padding [] := by simp [Padding]
    induction ls with
    | nil => exact .nil
    | cons l ls ih => simpa using WrittenLines.line [] l [] _ _ hno hno ih

end Verif.Props
