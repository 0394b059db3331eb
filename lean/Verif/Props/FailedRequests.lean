import Verif.Model.ArticleText
import Verif.Spec.Document
import Verif.Props.Formulas
import Verif.Props.TemplateArticle

/-!
# Failed requests never leave gaps in a page (C76)
-/

namespace Verif.Props
open Verif.Go Verif.Model Verif.Spec

/-- The first run has the same result as the second one or ends with an error. -/
def SameOrError {α : Type} (x y : Option (Res α)) : Prop := x = y ∨ x = some .err

theorem then_same {α β : Type} {m1 m2 : ExpM α} {f1 f2 : α → ExpM β} (hm : SameOrError m1 m2)
    (hf : ∀ a, SameOrError (f1 a) (f2 a)) : SameOrError (m1 >>= f1 : ExpM β) (m2 >>= f2 : ExpM β) := by
  rcases hm with rfl | rfl
  · rcases m1 with _ | _ | _ | _ | _
    · exact .inl rfl
    · exact hf _
    · exact .inl rfl
    · exact .inl rfl
    · exact .inl rfl
  · exact .inr rfl

theorem sameOrError_mapM {α β : Type} {f1 f2 : α → ExpM β} (hf : ∀ a, SameOrError (f1 a) (f2 a)) (l : List α) :
    SameOrError (ExpM.mapM f1 l) (ExpM.mapM f2 l) := by
  induction l with
  | nil => exact .inl rfl
  | cons a l ih => exact then_same (hf a) fun b => then_same ih fun bs => .inl rfl

theorem sameOrError_expandLoop {α : Type} (simple : Str → List α) {k1 k2 : Str → ExpM (List α)}
    (hk : ∀ key, SameOrError (k1 key) (k2 key)) (content rest : Str) (skip i : Nat) (segment : Option Nat) (new : List α) :
    SameOrError (expandLoop simple k1 content rest skip i segment new) (expandLoop simple k2 content rest skip i segment new) := by
  induction rest generalizing skip i segment new with
  | nil => rw [expandLoop, expandLoop]; exact .inl rfl
  | cons c t ih =>
    cases skip with
    | succ skip => rw [expandLoop, expandLoop]; exact ih _ _ _ _
    | zero =>
      rw [expandLoop, expandLoop]
      split
      · split
        · exact .inl rfl
        · exact then_same (hk _) fun x => ih _ _ _ _
      · exact ih _ _ _ _

theorem sameOrError_table {ex1 ex2 : Str → ExpM Str} (h : ∀ s, SameOrError (ex1 s) (ex2 s)) (rows : List (List TableCol)) (caption : Str) :
    SameOrError (expandTable ex1 rows caption) (expandTable ex2 rows caption) := by
  refine then_same (sameOrError_mapM (fun row => ?_) rows) fun _ => then_same (h caption) fun _ => .inl rfl
  refine then_same (sameOrError_mapM (fun col => ?_) row) fun _ => .inl rfl
  exact then_same (h _) fun _ => .inl rfl

mutual
theorem sameOrError_list {ex1 ex2 : Str → ExpM Str} (h : ∀ s, SameOrError (ex1 s) (ex2 s)) :
    (l : ListTok) → SameOrError (expandList ex1 l) (expandList ex2 l)
  | .mk kind items => by
    rw [expandList, expandList]
    exact then_same (sameOrError_items h items) fun _ => .inl rfl
theorem sameOrError_items {ex1 ex2 : Str → ExpM Str} (h : ∀ s, SameOrError (ex1 s) (ex2 s)) :
    (l : List ItemTok) → SameOrError (expandItems ex1 l) (expandItems ex2 l)
  | [] => by rw [expandItems, expandItems]; exact .inl rfl
  | item :: rest => by
    rw [expandItems, expandItems]
    exact then_same (sameOrError_item h item) fun _ => then_same (sameOrError_items h rest) fun _ => .inl rfl
theorem sameOrError_item {ex1 ex2 : Str → ExpM Str} (h : ∀ s, SameOrError (ex1 s) (ex2 s)) :
    (l : ItemTok) → SameOrError (expandItem ex1 l) (expandItem ex2 l)
  | .mk type content subLists => by
    rw [expandItem, expandItem]
    exact then_same (h content) fun _ => then_same (sameOrError_subLists h subLists) fun _ => .inl rfl
theorem sameOrError_subLists {ex1 ex2 : Str → ExpM Str} (h : ∀ s, SameOrError (ex1 s) (ex2 s)) :
    (l : List ListTok) → SameOrError (expandSubLists ex1 l) (expandSubLists ex2 l)
  | [] => by rw [expandSubLists, expandSubLists]; exact .inl rfl
  | l :: rest => by
    rw [expandSubLists, expandSubLists]
    exact then_same (sameOrError_list h l) fun _ => then_same (sameOrError_subLists h rest) fun _ => .inl rfl
end

/-- Each formula is rendered by the first one as by the second one, or its rendering fails. -/
def MathMayFail (html1 html2 : HtmlEnv) : Prop :=
  html1.conf = html2.conf ∧ ∀ formula, html1.math formula = html2.math formula ∨ html1.math formula = .err

/-- Each request for a template has the same answer as with the second one, or fails. -/
def TemplatesMayFail (templates1 templates2 : TemplateEnv) : Prop :=
  templates1.hash = templates2.hash ∧
    ∀ text key, templates1.evaluate text key = templates2.evaluate text key ∨ templates1.evaluate text key = .err

theorem sameOrError_token {html1 html2 : HtmlEnv} (hm : MathMayFail html1 html2) {ex1 ex2 : Str → ExpM Str}
    (h : ∀ s, SameOrError (ex1 s) (ex2 s)) (token : Token) : SameOrError (expandToken html1 ex1 token) (expandToken html2 ex2 token) := by
  have hi : ∀ filename, imageSource html1 filename = imageSource html2 filename := fun filename => by
    rw [imageSource, imageSource, hm.1]
  cases token with
  | heading content depth => exact then_same (h _) fun _ => .inl rfl
  | inlineImage filename x y => simp only [expandToken, hi]; exact .inl rfl
  | image filename caption x y =>
    simp only [expandToken, hi]
    exact then_same (h _) fun _ => .inl rfl
  | externalLink url text => exact then_same (h _) fun _ => .inl rfl
  | internalLink a text => exact h _
  | list l => exact sameOrError_list h l
  | table rows caption => exact sameOrError_table h rows caption
  | math content =>
    simp only [expandToken]
    rcases hm.2 content with e | e
    · rw [e]; exact .inl rfl
    · rw [e]; exact .inr rfl
  | refDefinition index content => exact then_same (h _) fun _ => .inl rfl
  | refUsage index => exact .inl rfl
  | nowiki content => exact .inl rfl
  | string s => exact .inl rfl

theorem sameOrError_expandString {html1 html2 : HtmlEnv} (hm : MathMayFail html1 html2) (tokens : List (Str × Token)) (fuel : Nat)
    (content : Str) : SameOrError (expandString html1 tokens fuel content) (expandString html2 tokens fuel content) := by
  induction fuel generalizing content with
  | zero => exact .inl rfl
  | succ fuel ih =>
    rw [expandString, expandString]
    split
    · refine sameOrError_expandLoop _ (fun key => ?_) _ _ _ _ _ _
      unfold expandKey
      split
      · exact .inl rfl
      · exact sameOrError_token hm ih _
    · exact .inl rfl

theorem sameOrError_placeholders {t1 t2 : TemplateEnv} (ht : TemplatesMayFail t1 t2) (fuel : Nat) (content : Str) (i : Nat)
    (st : TemplateState) : SameOrError (placeholderLoop t1 fuel content i st) (placeholderLoop t2 fuel content i st) := by
  induction fuel generalizing content i st with
  | zero => exact .inl rfl
  | succ fuel ih =>
    rw [placeholderLoop, placeholderLoop]
    split
    · split
      · split
        · exact .inl rfl
        · rename_i endIndex _
          have hi : SameOrError
              (if contains (((content.take (endIndex + 2)).drop i).drop 2) b!"{{" then
                placeholderLoop t1 fuel (((content.take (endIndex + 2)).drop i).drop 2) 0 st
              else some (.ok (((content.take (endIndex + 2)).drop i).drop 2, st)))
              (if contains (((content.take (endIndex + 2)).drop i).drop 2) b!"{{" then
                placeholderLoop t2 fuel (((content.take (endIndex + 2)).drop i).drop 2) 0 st
              else some (.ok (((content.take (endIndex + 2)).drop i).drop 2, st))) := by
            split
            · exact ih _ _ _
            · exact .inl rfl
          rcases hi with e | e
          · simp only [e]
            split
            · exact .inl rfl
            · rename_i inner st' _
              rw [ht.1]
              rcases ht.2 (b!"{{" ++ inner) (t2.hash (b!"{{" ++ inner)) with e2 | e2
              · rw [e2]
                split
                · exact ih _ _ _
                · exact .inl rfl
                · exact .inl rfl
                · exact .inl rfl
              · rw [e2]; exact .inr rfl
            · exact .inl rfl
            · exact .inl rfl
            · exact .inl rfl
          · simp only [e]
            exact .inr rfl
      · exact ih _ _ _
    · exact .inl rfl

theorem sameOrError_evaluate {t1 t2 : TemplateEnv} (ht : TemplatesMayFail t1 t2)
    (iterate : Nat → List (Str × Str) → List (Str × Str)) (fuel : Nat) (content : Str) :
    SameOrError (evaluateTemplates t1 iterate fuel content) (evaluateTemplates t2 iterate fuel content) := by
  unfold evaluateTemplates
  rcases sameOrError_placeholders ht fuel content 0 ⟨[], []⟩ with e | e
  · rw [e]; exact .inl rfl
  · rw [e]; exact .inr rfl

theorem sameOrError_tokenize (env : ParserEnv) {t1 t2 : TemplateEnv} (ht : TemplatesMayFail t1 t2)
    (iterate : Nat → List (Str × Str) → List (Str × Str)) (fuel : Nat) (content : Str) :
    SameOrError (tokenizeArticle env t1 iterate fuel content) (tokenizeArticle env t2 iterate fuel content) := by
  unfold tokenizeArticle
  split
  · rename_i c _
    rcases sameOrError_evaluate ht iterate fuel c with e | e
    · rw [e]; exact .inl rfl
    · rw [e]; exact .inr rfl
  all_goals exact .inl rfl

/-- Whatever is in an article: if requests for templates fail or formulas cannot be rendered, then the result is the same as
without these failures, or an error. There is never another page. -/
theorem C76_failures_give_no_other_page (env : ParserEnv) (templates1 templates2 : TemplateEnv)
    (iterate : Nat → List (Str × Str) → List (Str × Str)) (html1 html2 : HtmlEnv) (ht : TemplatesMayFail templates1 templates2)
    (hm : MathMayFail html1 html2) (fuel : Nat) (style title content : Str) :
    articleHtml env templates1 iterate html1 fuel style title content =
        articleHtml env templates2 iterate html2 fuel style title content ∨
      articleHtml env templates1 iterate html1 fuel style title content = some .err := by
  unfold articleHtml
  rcases sameOrError_tokenize env ht iterate fuel content with e | e
  · rw [e]
    split
    · rename_i text s _
      exact then_same (sameOrError_expandString hm s.tokenMap fuel text) fun _ => .inl rfl
    all_goals exact .inl rfl
  · rw [e]; exact .inr rfl

/-- If the page depends on the answer to a request, in any way, then there is an error when this request fails. -/
theorem C76_needed_requests_have_to_succeed (env : ParserEnv) (templates templatesA templatesB : TemplateEnv)
    (iterate : Nat → List (Str × Str) → List (Str × Str)) (html htmlA htmlB : HtmlEnv)
    (hta : TemplatesMayFail templates templatesA) (htb : TemplatesMayFail templates templatesB)
    (hma : MathMayFail html htmlA) (hmb : MathMayFail html htmlB) (fuel : Nat) (style title content : Str)
    (hne : articleHtml env templatesA iterate htmlA fuel style title content ≠
      articleHtml env templatesB iterate htmlB fuel style title content) :
    articleHtml env templates iterate html fuel style title content = some .err := by
  rcases C76_failures_give_no_other_page env templates templatesA iterate html htmlA hta hma fuel style title content with h | h
  · rcases C76_failures_give_no_other_page env templates templatesB iterate html htmlB htb hmb fuel style title content with h' | h'
    · exact absurd (h.symm.trans h') hne
    · exact h'
  · exact h

/-- An article with a formula that cannot be rendered: there is an error and no page without the formula. -/
theorem C76_failed_formula_is_an_error (env : ParserEnv) (hp : PlainPrefixes env) (templates : TemplateEnv)
    (iterate : Nat → List (Str × Str) → List (Str × Str)) (html : HtmlEnv) (style title before attributes formula after : Str)
    (h : RichLineOk env [⟨none, [.text before, .math attributes formula, .text after]⟩])
    (hr : html.math formula = .err) :
    ∃ steps, ∀ fuel, steps ≤ fuel →
      articleHtml env templates iterate html fuel style title
          (before ++ b!"<math" ++ attributes ++ b!">" ++ formula ++ b!"</math>" ++ after) = some .err := by
  have other : ∀ width : Str, ∃ html2 : HtmlEnv, MathMayFail html html2 ∧ html2.math formula = .ok (b!"a", width, b!"", b!"") := by
    intro width
    refine ⟨⟨html.conf, fun f => if f = formula then .ok (b!"a", width, b!"", b!"") else html.math f⟩, ⟨rfl, fun f => ?_⟩, if_pos rfl⟩
    by_cases e : f = formula
    · subst e; exact .inr hr
    · left; exact (if_neg e).symm
  obtain ⟨htmlA, hma, ha⟩ := other b!"1"
  obtain ⟨htmlB, hmb, hb⟩ := other b!"2"
  obtain ⟨n, hn⟩ := C63_formulas_are_rendered_as_written_partial env hp templates iterate htmlA style title before attributes formula
    after h _ _ _ _ ha
  obtain ⟨m, hm⟩ := C63_formulas_are_rendered_as_written_partial env hp templates iterate htmlB style title before attributes formula
    after h _ _ _ _ hb
  have ht : TemplatesMayFail templates templates := ⟨rfl, fun _ _ => .inl rfl⟩
  refine ⟨n + m, fun fuel hf => ?_⟩
  refine C76_needed_requests_have_to_succeed env templates templates templates iterate html htmlA htmlB ht ht hma hmb fuel style title _ ?_
  rw [hn fuel (by omega), hm fuel (by omega)]
  intro e
  simp [formulaHtml] at e

/-! ### Examples -/

/-- A renderer without network: it knows one formula. -/
def offlineMath : HtmlEnv := { echoEnv with math := fun formula => if formula = b!"x" then echoEnv.math formula else .err }

/-- The hypotheses of **C76** hold for a renderer that knows one formula, and for the answers of templates when no request succeeds. -/
example : MathMayFail offlineMath echoEnv ∧ offlineMath.math b!"x" = echoEnv.math b!"x" ∧ offlineMath.math b!"y" = .err ∧
    TemplatesMayFail { sampleTemplates with evaluate := fun _ _ => .err } sampleTemplates := by
  refine ⟨⟨rfl, fun formula => ?_⟩, rfl, rfl, rfl, fun _ _ => .inr rfl⟩
  by_cases h : formula = b!"x"
  · exact .inl (if_pos h)
  · exact .inr (if_neg h)

/-- Both cases of **C76** occur: with the known formula the page is the same, with the unknown one there is an error. -/
example : articleBody exampleEnv offlineMath 400 b!"a <math>x</math>" = articleBody exampleEnv echoEnv 400 b!"a <math>x</math>" ∧
    articleBody exampleEnv offlineMath 400 b!"* a\n* <math>y</math>" = some .err ∧
    articleBody exampleEnv echoEnv 400 b!"* a\n* <math>y</math>" ≠ some .err := by
  decide +kernel

/-- The hypotheses of `C76_failed_formula_is_an_error` hold for a text with a formula that is not known. -/
example : RichLineOk exampleEnv [⟨none, [.text b!"It is ", .math b!"" b!"y^2", .text b!" here."]⟩] ∧ offlineMath.math b!"y^2" = .err := by
  refine ⟨rich_of ?_ (by simp [RunsSeparated]) (by decide +kernel), rfl⟩
  simp only [forall_eq, Run.WellFormed, List.mem_cons, List.not_mem_nil, or_false, forall_eq_or_imp]
  exact ⟨by simp, ⟨text_of (by decide +kernel), ⟨by decide, by decide, by decide +kernel⟩, text_of (by decide +kernel)⟩, by simp⟩

end Verif.Props
