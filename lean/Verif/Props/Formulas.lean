import Verif.Props.Document

/-!
# Formulas

What the renderer gets for the formulas of an article.
-/

namespace Verif.Props
open Verif.Go Verif.Model Verif.Spec Verif.Lemmas
open scoped List

/-- The renderer gets a formula in a text exactly as it is written between the tags, whatever the attributes of the tag are, and
the book shows what the renderer delivers between the same texts. -/
theorem C63_formulas_are_rendered_as_written_partial (env : ParserEnv) (hp : PlainPrefixes env) (templates : TemplateEnv)
    (iterate : Nat → List (Str × Str) → List (Str × Str)) (html : HtmlEnv) (style title before attributes formula after : Str)
    (h : RichLineOk env [⟨none, [.text before, .math attributes formula, .text after]⟩])
    (path width height css : Str) (hr : html.math formula = .ok (path, width, height, css)) :
    ∃ steps, ∀ fuel, steps ≤ fuel →
      articleHtml env templates iterate html fuel style title
          (before ++ b!"<math" ++ attributes ++ b!">" ++ formula ++ b!"</math>" ++ after) =
        some (.ok (htmlHeader style ++ b!"\n<h1>" ++ title ++ b!"</h1>\n" ++
          (before ++ formulaHtml (escapePathComponents path) width height css ++ after) ++ htmlFooter)) := by
  have hb : Inline.WellFormed env (.text before) := (h.runs _ (List.mem_singleton.mpr rfl)).2.1 _ (by simp)
  have hq : ¬ (b!"'''" <+: lineSource [⟨none, [.text before, .math attributes formula, .text after]⟩] ∧
      b!"'''" <:+ lineSource [⟨none, [.text before, .math attributes formula, .text after]⟩]) := by
    rintro ⟨h1, _⟩
    obtain ⟨c, r, e⟩ := List.exists_cons_of_ne_nil hb.1
    have hc := hb.2.first
    rw [e] at hc
    simp [lineSource, Run.source, Inline.source, e, List.cons_prefix_cons] at h1 hc
    exact hc h1.1.symm
  have hd : DocOk env [(0, .paragraph [[⟨none, [.text before, .math attributes formula, .text after]⟩]])] := by
    refine ⟨by simp, ?_, by simp [BlocksFollow], trivial, by simp [DocBlock.texts, NoReferences, lineRefs], by simp⟩
    simp only [List.mem_singleton, forall_eq]
    exact ⟨by simp, fun l hl => by rw [List.mem_singleton.mp hl]; exact ⟨h, rfl, hq⟩⟩
  have hm : ∀ b ∈ [((0 : Nat), DocBlock.paragraph [[⟨none, [.text before, .math attributes formula, .text after]⟩]])], b.2.AllLines (Rendered html) := by
    simp only [List.mem_singleton, forall_eq]
    intro l hl r hr' p hp a f e
    rw [List.mem_singleton.mp hl, List.mem_singleton] at hr'
    subst hr'
    subst e
    simp at hp
    rw [hp.2]
    exact ⟨_, hr⟩
  have := C59_articles_become_html_partial env hp templates iterate html style title _ hd hm
  simpa [documentSource, DocBlock.source, lineSource, Run.source, Inline.source, documentHtml, DocBlock.html, lineHtml, Run.html, Inline.html,
    formulaPicture, hr, join] using this

/-! ### Examples -/

/-- A renderer that shows what it gets. -/
def echoEnv : HtmlEnv := { htmlEnv with math := fun formula => .ok (b!"m.png", formula, b!"2ex", b!"") }

/-- The hypotheses of **C63** hold for a formula with braces, an apostrophe, an equals sign and an asterisk. -/
example : RichLineOk exampleEnv [⟨none, [.text b!"It is ", .math b!" display=\"block\"" b!"f'(x)={x_1}*\\sqrt{2}", .text b!" here."]⟩] ∧
    echoEnv.math b!"f'(x)={x_1}*\\sqrt{2}" = .ok (b!"m.png", b!"f'(x)={x_1}*\\sqrt{2}", b!"2ex", b!"") := by
  refine ⟨rich_of ?_ (by simp [RunsSeparated]) (by decide +kernel), rfl⟩
  simp only [forall_eq, Run.WellFormed, List.mem_cons, List.not_mem_nil, or_false, forall_eq_or_imp]
  exact ⟨by simp, ⟨text_of (by decide +kernel), ⟨by decide, by decide, by decide +kernel⟩, text_of (by decide +kernel)⟩, by simp⟩

/-- The body of the page for a text with a renderer that shows what it gets. -/
def echoBody (content : Str) : Option (Res Str) := articleBody exampleEnv echoEnv 400 content

/-- **C63** is false for second derivatives: two of them are taken for italic text, and the renderer gets internal markers. -/
theorem C63_derivatives_are_taken_for_italic_text :
    echoBody b!"a <math>f''(x)=g''(x)</math>" =
      some (.ok (b!"a " ++ formulaHtml b!"m.png" b!"f$$MARKER_ITALIC_OPEN$$(x)=g$$MARKER_ITALIC_CLOSE$$(x)" b!"2ex" b!"")) := by
  decide +kernel

/-- **C63** is false for doubled square brackets: they are taken for a link, and the renderer gets an internal key. -/
theorem C63_brackets_are_taken_for_links :
    echoBody b!"a <math>[[x,y],z]]</math>" = some (.ok (b!"a " ++ formulaHtml b!"m.png" b!"$$TOKEN_INTERNAL_LINK_0$$" b!"2ex" b!"")) ∧
    echoBody b!"a <math>x[[1]]</math>" = some (.ok (b!"a " ++ formulaHtml b!"m.png" b!"x$$TOKEN_INTERNAL_LINK_0$$" b!"2ex" b!"")) := by
  decide +kernel

/-- **C63** is false behind an empty tag: the text up to the next formula is taken for a formula. -/
theorem C63_empty_tag_swallows_text :
    echoBody b!"a <math/> b <math>c</math>" = some (.ok (b!"a " ++ formulaHtml b!"m.png" b!" b <math>c" b!"2ex" b!"")) := by
  decide +kernel

end Verif.Props
