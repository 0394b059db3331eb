import Verif.Lemmas.Hidden
import Verif.Props.Document
import Mathlib.Data.List.Infix

/-!
# C68: what is not shown leaves no trace
-/

namespace Verif.Props
open Verif.Go Verif.Model Verif.Spec Verif.Lemmas
open scoped List

/-- Comments, links to be removed (categories, links to other languages), ignored templates, the switch `__NOTOC__`, spaces at the
beginning and the end of lines, list entries without text and sections without text change nothing in the HTML of an article,
wherever they are. -/
theorem C68_hidden_parts_leave_no_trace_partial (env : ParserEnv) (hp : PlainPrefixes env) (templates : TemplateEnv)
    (iterate : Nat → List (Str × Str) → List (Str × Str)) (html : HtmlEnv) (style title : Str)
    (doc : List (Nat × DocBlock)) (h : DocOk env doc) (hm : ∀ b ∈ doc, b.2.AllLines (Rendered html))
    (parts : List SourcePart)
    (hw : ∀ p ∈ parts, p.WellFormed (linkRules env) fun name => IsIgnored env name = true ∧ IsTrailing env name = false)
    (hpl : WellPlaced parts) (all : List Str) (ha : WithEmptySections (HeadingOfArticle env) (documentSource doc) all)
    (written : List Str) (hl : WrittenLines all written) (hk : keptText parts = join b!"\n" written) :
    ∃ steps, ∀ fuel, steps ≤ fuel →
      articleHtml env templates iterate html fuel style title (sourceText parts) =
        some (.ok (htmlHeader style ++ b!"\n<h1>" ++ title ++ b!"</h1>\n" ++
          join b!"\n" (documentHtml ⟨ArticleImage.html env (imageSource html), formulaPicture html⟩ false doc) ++ htmlFooter)) :=
  article_of_clean env hp templates iterate html style title doc h hm _ ((join b!"\n" (documentSource doc)).length + 1)
    fun fuel hf => clean_hidden env doc h parts hw hpl all ha written hl hk fuel (by omega)

/-! ### Examples -/

/-- The default configuration with an ignored template. -/
def hiddenEnv : ParserEnv where
  lower := exampleEnv.lower
  upperFirst := exampleEnv.upperFirst
  config := { exampleEnv.config with
    list := fun o => match o with
      | .ignoredTemplates => [b!"Infobox"]
      | o => exampleEnv.config.list o }

/-- A small article. -/
def smallArticle : List (Nat × DocBlock) :=
  [(1, .paragraph [[⟨none, [.text b!"A town."]⟩]]), (1, .list (.mk .star [.mk .star (1, [⟨none, [.text b!"x"]⟩]) []])), (1, .gap)]

open LinkText in
/-- The article with parts that are not shown. -/
def hiddenParts : List SourcePart :=
  [.template [] b!"infobox" (.char 0x7C (.char 0x5B (.char 0x5B (.char 0x62 (.char 0x5D (.char 0x5D .nil)))))), .shown b!"\nA ", .comment b!" c ",
    .shown b!"town.", .link (char 0x64 (char 0x65 (char 0x3A (char 0x53 nil)))), .commentLine b!" line -", .shown b!"\n\n* \n* x ",
    .noToc, .shown b!"\n\n== Links ==\n", .link (charsThen b!"Category:T" nil)]

/-- The lines that are shown. -/
def hiddenLines : List Str := [b!"", b!"A town.", b!"", b!"* ", b!"* x ", b!"", b!"== Links ==", b!""]

example : sourceText hiddenParts = b!"{{infobox|[[b]]}}
A <!-- c -->town.[[de:S]]
<!-- line --->

* \n* x __NOTOC__

== Links ==
[[Category:T]]" := by decide +kernel

/-- A test for the places of parts. -/
def fitsTest (before after : List SourcePart) : SourcePart → Bool
  | .shown _ => true
  | .comment _ => (sourceText before).getLast? != some 0x0A
  | .commentLine _ => sourceText after == [] || (sourceText after).head? == some 0x0A
  | .link _ => (keptText before).tails.all fun t => t.count 0x5B ≤ t.count 0x5D
  | .template _ _ _ => ((keptText before).tails.all fun t => t.count 0x5B ≤ t.count 0x5D) && (keptText before).getLast? != some 0x7B
  | .noToc => ((keptText before).tails.all fun t => t.count 0x5B ≤ t.count 0x5D) && (keptText before).getLast? != some 0x5F

theorem fits_of_test {before after : List SourcePart} {p : SourcePart} (h : fitsTest before after p = true) : p.FitsBetween before after := by
  have hb : ∀ s : Str, (s.tails.all fun t => decide (t.count 0x5B ≤ t.count 0x5D)) = true → BracketsClosed s := by
    intro s h t ht
    simpa using List.all_eq_true.mp h t (List.mem_tails _ _ |>.mpr ht)
  cases p with
  | shown t => trivial
  | comment b => simpa [fitsTest, SourcePart.FitsBetween] using h
  | commentLine b => simpa [fitsTest, SourcePart.FitsBetween] using h
  | link d => exact hb _ h
  | template l n a =>
    rw [fitsTest, Bool.and_eq_true] at h
    exact ⟨hb _ h.1, by simpa using h.2⟩
  | noToc =>
    rw [fitsTest, Bool.and_eq_true] at h
    exact ⟨hb _ h.1, by simpa using h.2⟩

theorem placed_of_test {parts : List SourcePart}
    (h : ∀ n < parts.length, fitsTest (parts.take n) (parts.drop (n + 1)) (parts.getD n .noToc) = true) : WellPlaced parts := by
  intro before p after e
  have := h before.length (by rw [e]; simp)
  rw [e] at this
  refine fits_of_test ?_
  simpa using this

/-- The hypotheses of **C68** hold for the parts above. -/
example : PlainPrefixes hiddenEnv ∧ DocOk hiddenEnv smallArticle ∧ (∀ b ∈ smallArticle, b.2.AllLines (Rendered htmlEnv)) ∧
    (∀ p ∈ hiddenParts, p.WellFormed (linkRules hiddenEnv) fun name => IsIgnored hiddenEnv name = true ∧ IsTrailing hiddenEnv name = false) ∧
    WellPlaced hiddenParts ∧ WithEmptySections (HeadingOfArticle hiddenEnv) (documentSource smallArticle) [[], b!"A town.", [], b!"* x", [], b!"== Links ==", []] ∧
    WrittenLines [[], b!"A town.", [], b!"* x", [], b!"== Links ==", []] hiddenLines ∧ keptText hiddenParts = join b!"\n" hiddenLines := by
  have htext : ∀ t ∈ [b!"A town.", b!"x"], (Inline.text t).WellFormed hiddenEnv := by
    intro t h
    exact text_of ((by decide +kernel : ∀ t ∈ [b!"A town.", b!"x"], TextTest t) t h)
  refine ⟨exampleEnv_plain, ⟨by simp [smallArticle], ?_, by simp [smallArticle, BlocksFollow, CanFollow], trivial, ?_, by simp [smallArticle]⟩, ?_, ?_,
    placed_of_test (by decide +kernel), ?_, ?_, by decide +kernel⟩
  · simp only [smallArticle, List.mem_cons, List.not_mem_nil, or_false, forall_eq_or_imp, forall_eq, DocBlock.WellFormed, TreeList.WellFormed,
      treeItemsWellFormed, treesWellFormed]
    simp only [List.mem_cons, List.not_mem_nil, or_false, forall_eq_or_imp, forall_eq] at htext
    refine ⟨⟨by simp, rich_of ?_ (by simp [RunsSeparated]) (by decide +kernel), by decide, by decide +kernel⟩,
      ⟨by simp, by simp, ⟨rich_of ?_ (by simp [RunsSeparated]) (by decide +kernel), by simp⟩, by simp⟩, trivial⟩
    all_goals simp [Run.WellFormed, htext]
  · simp [smallArticle, DocBlock.texts, NoReferences, lineRefs, TreeList.texts, treeItemsTexts, treesTexts]
  · simp [smallArticle, DocBlock.AllLines, TreeList.WellFormed, treeItemsWellFormed, treesWellFormed, Rendered]
  · have hfile : ∀ a b : Str, hiddenEnv.lower a ∉ hiddenEnv.config.list .filePrefixes → (linkPrefixes (linkAim b)).head? = some a →
        ¬ IsFile (linkRules hiddenEnv) (linkAim b) := by
      rintro a b h1 h2 ⟨p, h3, h4⟩
      rw [h2] at h3
      cases h3
      exact h1 h4
    simp only [hiddenParts, List.mem_cons, List.not_mem_nil, or_false, forall_eq_or_imp, forall_eq]
    refine ⟨⟨?_, by decide +kernel, by decide +kernel, ?_⟩, trivial, ?_, trivial, ⟨by simp [LinkText.WellFormed], rfl, ⟨hfile b!"de" _ (by decide +kernel) (by decide +kernel), by decide +kernel, b!"de", by decide +kernel, by decide +kernel, ?_⟩, by decide +kernel⟩,
      ?_, trivial, trivial, trivial, ⟨charsThen_ok (by decide) trivial, rfl, ⟨hfile b!"Category" _ (by decide +kernel) (by decide +kernel), by decide +kernel, b!"Category", by decide +kernel, by decide +kernel, ?_⟩, by decide +kernel⟩⟩
    · refine ⟨by simp, ⟨_, _, rfl, by decide⟩, by decide, ⟨_, _, rfl, by decide⟩, ?_, trivial⟩
      simp [TemplateText.WellFormed, TemplateText.text, List.cons_prefix_cons]
    · refine ⟨charsThen b!"{{infobox|" (.link (.char 0x62 .nil) (charsThen b!"}}" .nil)), by decide +kernel, ?_, ?_⟩
      · exact charsThen_ok (by decide) ⟨rfl, by simp [LinkText.WellFormed], charsThen_ok (by decide) trivial⟩
      · refine ⟨⟨?_, by decide⟩, trivial, trivial⟩
        rintro ⟨_, _, p, hp, _⟩
        have e : linkPrefixes (linkAim (LinkText.char 98 LinkText.nil).text) = [] := by decide +kernel
        rw [e] at hp
        exact absurd hp (by simp)
    · exact ⟨by decide, by decide, by decide⟩
    · right; decide +kernel
    · exact ⟨by decide, by decide, by decide⟩
    · left; decide +kernel
  · have e : documentSource smallArticle = [[], b!"A town.", [], b!"* x", []] := by decide +kernel
    rw [e]
    refine .line _ _ _ (.line _ _ _ (.line _ _ _ (.line _ _ _ (.line _ _ _ (.emptySection b!"== Links ==" 2 1 [] []
      (.text 2 b!" Links " (by simp) (by simp) (by simp) (by simp)) (by simp) ?_ (.inl rfl) .nil)))))
    refine ⟨2, 1, 1, [⟨none, [.text b!"Links"]⟩], ⟨by simp, by simp, rich_of ?_ (by simp [RunsSeparated]) (by decide +kernel), by decide +kernel, by decide +kernel⟩, by decide +kernel⟩
    have : (Inline.text b!"Links").WellFormed hiddenEnv := text_of (by decide +kernel)
    simp [Run.WellFormed, this]
  · have hpad : Padding b!" " := by simp [Padding]
    have hno : Padding [] := by simp [Padding]
    exact .line [] [] [] _ _ hno hno (.line [] b!"A town." [] _ _ hno hno (.line [] [] [] _ _ hno hno (.emptyEntry [] b!"*" b!" " _ _ hno hpad (by simp) (by simp)
      (.line [] b!"* x" b!" " _ _ hno hpad (.line [] [] [] _ _ hno hno (.line [] b!"== Links ==" [] _ _ hno hno (.line [] [] [] _ _ hno hno .nil)))))))

end Verif.Props
