import Verif.Lemmas.DocClean
import Verif.Props.PlainText
import Verif.Props.Lists

/-!
# Whole articles

The text of an article from the wikitext to the HTML file: cleaning, templates, the tokenizer with all its steps, and the
generator.
-/

namespace Verif.Props
open Verif.Go Verif.Model Verif.Spec Verif.Lemmas
open scoped List

/-- The HTML of an article that is exactly the given one when it has been cleaned. -/
theorem article_of_clean (env : ParserEnv) (hp : PlainPrefixes env) (templates : TemplateEnv)
    (iterate : Nat → List (Str × Str) → List (Str × Str)) (html : HtmlEnv) (style title : Str)
    (doc : List (Nat × DocBlock)) (h : DocOk env doc) (hm : ∀ b ∈ doc, b.2.AllLines (Rendered html)) (source : Str) (k : Nat)
    (hs : ∀ fuel, k ≤ fuel → cleanText env fuel source = some (.ok (join b!"\n" (documentSource doc)))) :
    ∃ steps, ∀ fuel, steps ≤ fuel →
      articleHtml env templates iterate html fuel style title source =
        some (.ok (htmlHeader style ++ b!"\n<h1>" ++ title ++ b!"</h1>\n" ++
          join b!"\n" (documentHtml ⟨ArticleImage.html env (imageSource html), formulaPicture html⟩ false doc) ++ htmlFooter)) := by
  obtain ⟨text, s, ⟨k1, ht⟩, k2, hx⟩ := tokenize_document env html hp doc h hm TokState.initial (by simp [KeysCreated, TokState.initial])
  have hc := cleanSource_document h.blocks
  have hclean := clean_document env doc h
  generalize join b!"\n" (documentSource doc) = content at *
  have hnt : ¬ b!"{{" <:+: content := hc.pairs 0x7B (by decide)
  have hnp : contains content templatePlaceholderPrefix = false := by
    rw [contains_eq_false_iff]
    exact fun hi => hc.pairs 0x24 (by decide) (List.IsInfix.trans ⟨[], b!"TEMPLATE_PLACEHOLDER_", rfl⟩ hi)
  have htemp : ∀ fuel, content.length < fuel → evaluateTemplates templates iterate fuel content = some (.ok (content, [])) := by
    intro fuel hf
    obtain ⟨f, rfl⟩ := Nat.exists_eq_add_of_le' (show 1 ≤ fuel by omega)
    rw [evaluateTemplates, placeholderLoop_done templates content hnt _ (f + 1) 0 (by omega) (by omega)]
    simp only [resolvePlaceholders, hnp, Bool.false_eq_true, if_false, Option.map_some]
  refine ⟨content.length + k + k1 + k2 + 1, fun fuel hf => ?_⟩
  have htk : tokenizeArticle env templates iterate fuel source = some (.ok (text, s)) := by
    rw [tokenizeArticle, hs fuel (by omega)]
    simp only [htemp fuel (by omega), hclean fuel (by omega), ht fuel (by omega)]
  rw [articleHtml, htk]
  simp only
  rw [generateHtml, hx fuel (by omega)]
  rfl

/-- An article with headings, paragraphs, (nested) lists, tables, images and lists of references, with bold and italic text, with
links, formulas, images and references everywhere in it, becomes exactly the corresponding HTML. -/
theorem C59_articles_become_html_partial (env : ParserEnv) (hp : PlainPrefixes env) (templates : TemplateEnv)
    (iterate : Nat → List (Str × Str) → List (Str × Str)) (html : HtmlEnv) (style title : Str)
    (doc : List (Nat × DocBlock)) (h : DocOk env doc) (hm : ∀ b ∈ doc, b.2.AllLines (Rendered html)) :
    ∃ steps, ∀ fuel, steps ≤ fuel →
      articleHtml env templates iterate html fuel style title (join b!"\n" (documentSource doc)) =
        some (.ok (htmlHeader style ++ b!"\n<h1>" ++ title ++ b!"</h1>\n" ++
          join b!"\n" (documentHtml ⟨ArticleImage.html env (imageSource html), formulaPicture html⟩ false doc) ++ htmlFooter)) :=
  article_of_clean env hp templates iterate html style title doc h hm _ ((join b!"\n" (documentSource doc)).length + 1)
    fun fuel hf => clean_document env doc h fuel (by omega)

/-! ### Examples -/

/-- An image with a caption. -/
def exampleFigure : ArticleImage :=
  ⟨b!"File", b!"A b.jpg", [.frame b!"thumb" [], .size (some 200) none],
    some [⟨none, [.text b!"The "]⟩, ⟨some .italic, [.link ⟨b!"b", none, none⟩]⟩, ⟨none, [.text b!" of Berlin"]⟩]⟩

/-- An image in a line. -/
def exampleIcon : ArticleImage := ⟨b!"Image", b!"i.png", [.size none (some 20)], none⟩

/-- The text of a reference. -/
def exampleNoteText : NoteText :=
  [⟨some .italic, [.text b!"Berlin"]⟩, ⟨none, [.text b!" is ", .web b!"https://a.b/c_d" b!"web page", .link ⟨b!"b", none, none⟩]⟩]

/-- A reference with a name. -/
def exampleNote : ArticleRef := ⟨0, [⟨b!"name", b!"a", true⟩], 0, .define exampleNoteText⟩

/-- A reference without a name. -/
def exampleNote2 : ArticleRef := ⟨1, [], 0, .define [⟨none, [.text b!"x"]⟩]⟩

/-- The first reference once more. -/
def exampleNote3 : ArticleRef := ⟨0, [⟨b!"name", b!"a", true⟩], 1, .mention⟩

/-- A table with a caption and headings. -/
def exampleDocTable : DocTable RichLine where
  attributes := b!" class=\"wikitable\""
  caption := some (1, [⟨some .italic, [.text b!"end"]⟩])
  rows := [
    { lines := [{ heading := true, first := { before := 1, text := some [⟨none, [.text b!"x"]⟩], after := 1 }, others := [{ text := some [⟨none, [.text b!"z"]⟩] }] }] },
    { separator := some []
      lines := [
        { heading := false
          first := { before := 1, text := some [⟨none, [.text b!"A ", .link ⟨b!"b", none, none⟩]⟩], after := 1 }
          others := [{ before := 1
                       attributes := some ({ written := b!"rowspan=2 ", lead := [], attrs := [(.span true b!"2" false, [])] }, 0)
                       text := some [⟨some .bold, [.image exampleIcon]⟩] }] },
        { heading := false, first := {} }] }]

/-- An article with everything in it. -/
def exampleArticle : List (Nat × DocBlock) :=
  [(0, .paragraph [
      [⟨some .bold, [.text b!"Berlin"]⟩, ⟨none, [.text b!" is the capital of ", .link ⟨b!"Germany", none, none⟩, .text b!".", .ref exampleNote]⟩],
      [⟨none, [.text b!"See C_1<sup>2</sup>: "]⟩, ⟨some .both, [.link ⟨b!":Category:Squares", some b!"History", some b!"the square"⟩, .ref exampleNote2]⟩]]),
   (2, .paragraph [[⟨none, [.web b!"https://a.b/c_d" b!"web page", .text b!"!", .image exampleIcon,
      .math b!" display=\"block\"" b!"f'(x)=\\sqrt{x_1}"]⟩]]),
   (0, .image exampleFigure),
   (1, .heading 2 1 1 [⟨none, [.text b!"A "]⟩, ⟨some .italic, [.link ⟨b!"b", none, none⟩, .text b!" c"]⟩]),
   (0, .heading 3 0 0 [⟨none, [.link ⟨b!"b", none, none⟩]⟩]),
   (1, .list (.mk .star [
      .mk .star (1, [⟨none, [.link ⟨b!"b", none, none⟩]⟩]) [.mk .hash [.mk .hash (0, [⟨some .bold, [.image exampleIcon, .text b!"z"]⟩]) []]],
      .mk .star (1, [⟨none, [.text b!"x", .ref exampleNote3]⟩]) []])),
   (0, .table exampleDocTable),
   (0, .paragraph [[⟨none, [.text b!"end"]⟩]]),
   (1, .heading 2 1 1 [⟨none, [.text b!"References"]⟩]),
   (0, .references [] 1 [(0, exampleNoteText), (1, [⟨none, [.text b!"x"]⟩])]),
   (1, .gap)]

example : join b!"\n" (documentSource exampleArticle) = b!"'''Berlin''' is the capital of [[Germany]].<ref name=\"a\">''Berlin'' is [https://a.b/c_d web page][[b]]</ref>
See C_1<sup>2</sup>: '''''[[:Category:Squares#History|the square]]<ref>x</ref>'''''


[https://a.b/c_d web page]![[Image:i.png|x20px]]<math display=\"block\">f'(x)=\\sqrt{x_1}</math>
[[File:A b.jpg|thumb|200px|The ''[[b]]'' of Berlin]]

== A ''[[b]] c'' ==
===[[b]]===

* [[b]]
*#'''[[Image:i.png|x20px]]z'''
* x<ref name=\"a\" />
{| class=\"wikitable\"
|+ ''end''
! x !!z
|-
| A [[b]] || rowspan=2 |'''[[Image:i.png|x20px]]'''
|
|}
end

== References ==
<references />
" := by decide +kernel

example : join b!"\n" (documentHtml ⟨ArticleImage.html exampleEnv (imageSource htmlEnv), formulaPicture htmlEnv⟩ false exampleArticle) = b!"<b>Berlin</b> is the capital of Germany.[1]
See C_1<sup>2</sup>: <i><b>the square[2]</b></i>
<br><br>
<a href=\"https://a.b/c_d\">web page</a>!<img alt=\"image\" class=\"inline\" src=\"./images/i.png\" style=\"vertical-align: middle; width: auto; height: 20px;\"><img alt=\"image\" src=\"./m.png\" style=\"width: 1ex; height: 2ex; \">
<div class=\"figure\">
<img alt=\"image\" src=\"./images/A_b.jpg\" style=\"vertical-align: middle; width: 200px; height: auto;\">
<div class=\"caption\">
The <i>b</i> of Berlin
</div>
</div>
<h2>A <i>b c</i></h2>
<h3>b</h3>
<ul>
<li>
 b
<ol>
<li>
<b><img alt=\"image\" class=\"inline\" src=\"./images/i.png\" style=\"vertical-align: middle; width: auto; height: 20px;\">z</b>
</li>
</ol>
</li>
<li>
 x[1]
</li>
</ul>
<div class=\"figure\">
<table>
<tr>
<th>
x
</th>

<th>
z
</th>

</tr>
<tr>
<td>
A b
</td>
<td rowspan=2>
<b><img alt=\"image\" class=\"inline\" src=\"./images/i.png\" style=\"vertical-align: middle; width: auto; height: 20px;\"></b>
</td>
<td>

</td>
</tr>
</table>
<div class=\"caption\">
<i>end</i>
</div>
</div>
end
<h2>References</h2>
[1] <i>Berlin</i> is <a href=\"https://a.b/c_d\">web page</a>b<br>
[2] x<br>" := by decide +kernel

theorem words_of {t : Str} (h : (∀ c ∈ t, c ∉ b!"\n[]{<") ∧ (∀ c ∈ b!"'$_", ¬ [c, c] <:+: t) ∧ t.head? ≠ some 0x27 ∧
    (∀ c ∈ b!"'$_", t.getLast? ≠ some c) ∧ (∀ sp ∈ spaceChars, t <+: sp → t = [] ∨ t = sp)) : Words t := ⟨h.1, h.2.1, h.2.2.1, h.2.2.2.1, h.2.2.2.2⟩

theorem keptLink_of {env : ParserEnv} {inner : Str} (h : isUnwantedLink env inner = false ∧ 0x3A ∉ linkLabel inner) : KeptLink env inner := by
  refine ⟨?_, h.2⟩
  rw [← isUnwantedLink_iff env inner fun hm => absurd hm h.2, h.1]
  simp

theorem label_of {t : Str} (h : Words t) (ht : t ≠ [] ∧ trimSpace t = t ∧ ∀ c ∈ t.take 1, c ∉ b!"*#;:=") : LabelText t :=
  ⟨h, ht.1, ht.2.1, fun c hc => ht.2.2 c (by cases t with | nil => cases hc | cons x t => cases hc; simp)⟩

theorem rich_of {env : ParserEnv} {l : RichLine} (hr : ∀ r ∈ l, r.WellFormed env) (hs : RunsSeparated l)
    (h : lineSource l ≠ [] ∧ trimSpace (lineSource l) = lineSource l ∧ ∀ c ∈ (lineSource l).take 1, c ∉ b!"*#;:=") : RichLineOk env l :=
  ⟨fun e => h.1 (by rw [e]; rfl), hr, hs, h.2.1, fun c hc => h.2.2 c (by
    generalize lineSource l = t at *
    cases t with | nil => cases hc | cons x t => cases hc; simp)⟩

/-- What can be decided about a text. -/
abbrev TextTest (t : Str) : Prop :=
  t ≠ [] ∧ (∀ c ∈ t, c ∉ b!"\n[]{") ∧ (∀ c ∈ b!"'$_", ¬ [c, c] <:+: t) ∧ t.head? ≠ some 0x27 ∧ (∀ c ∈ b!"'$_<", t.getLast? ≠ some c) ∧
    (∀ sp ∈ spaceChars, t <+: sp → t = [] ∨ t = sp) ∧ (∀ c ∈ b!"!mMnNrRgGiI", ¬ [0x3C, c] <:+: t ∧ ¬ [0x3C, 0x2F, c] <:+: t) ∧
    ¬ b!"</" <:+ t ∧ ¬ b!"<l" <+: t ∧
    (0x5F ∉ t ∨ t.any (fun c => decide (¬ (65 ≤ c ∧ c ≤ 90) ∧ ¬ (48 ≤ c ∧ c ≤ 57) ∧ c ∉ b!"_$")) = true)

theorem textWords_of {t : Str} (h : TextTest t) : TextWords t :=
  ⟨h.2.1, h.2.2.1, h.2.2.2.1, h.2.2.2.2.1, h.2.2.2.2.2.1, ⟨fun c hc => (h.2.2.2.2.2.2.1 c hc).1, fun c hc => (h.2.2.2.2.2.2.1 c hc).2⟩,
    h.2.2.2.2.2.2.2.1, h.2.2.2.2.2.2.2.2.1, fun hu => by
      rcases h.2.2.2.2.2.2.2.2.2 with hn | hn
      · exact absurd hu hn
      · obtain ⟨c, hc, hx⟩ := List.any_eq_true.mp hn
        exact ⟨c, hc, of_decide_eq_true hx⟩⟩

theorem text_of {env : ParserEnv} {t : Str} (h : TextTest t) : (Inline.text t).WellFormed env := ⟨h.1, textWords_of h⟩

theorem note_of {env : ParserEnv} {c : NoteText} (hr : ∀ r ∈ c, r.parts ≠ [] ∧ ∀ p ∈ r.parts, p.WellFormed env) (hs : RunsSeparated (c.map NoteRun.run))
    (h : noteSource c ≠ [] ∧ trimSpace (noteSource c) = noteSource c ∧ ∀ x ∈ (noteSource c).take 1, x ∉ b!"*#;:=") : NoteOk env c :=
  ⟨fun e => h.1 (by rw [e]; rfl), hr, hs, h.2.1, fun c hc => h.2.2 c (by
    generalize noteSource _ = t at *
    cases t with | nil => cases hc | cons x t => cases hc; simp)⟩

theorem exampleAttrs_ok : RefAttrs.WellFormed [⟨b!"name", b!"a", true⟩] := by
  refine ⟨?_, by decide, by decide +kernel⟩
  simp only [List.mem_singleton, forall_eq]
  exact ⟨by decide, by decide, by decide, by decide, by simp⟩

theorem exampleDocTable_of {p : Bool → RichLine → Prop} (h1 : p false [⟨some .italic, [.text b!"end"]⟩]) (h2 : p false [⟨none, [.text b!"x"]⟩])
    (h3 : p true [⟨none, [.text b!"z"]⟩]) (h4 : p false [⟨none, [.text b!"A ", .link ⟨b!"b", none, none⟩]⟩])
    (h5 : p false [⟨some .bold, [.image exampleIcon]⟩]) : exampleDocTable.WellFormed p := by
  have hattrs : CellAttributes { written := b!"rowspan=2 ", lead := [], attrs := [(.span true b!"2" false, [])] } := by
    refine ⟨⟨by decide +kernel, by unfold OtherAttributes; decide +kernel, ?_⟩, by unfold PlainAttributes; decide +kernel, ⟨_, _, rfl, by decide, by decide⟩⟩
    simp only [List.mem_cons, List.not_mem_nil, or_false, forall_eq]
    exact ⟨by unfold OtherAttributes; decide +kernel, by simp, by decide, by simp⟩
  refine ⟨by unfold PlainAttributes; decide +kernel, ?_, ?_, by simp [exampleDocTable]⟩
  · intro x hx
    cases hx
    exact h1
  · simp [exampleDocTable, DocRow.WellFormed, DocCells.WellFormed, DocCells.cells, DocCell.WellFormed, h2, h3, h4, h5, hattrs, PlainAttributes]

/-- The hypotheses of **C59** hold for the article above. -/
theorem exampleArticle_ok : PlainPrefixes exampleEnv ∧ DocOk exampleEnv exampleArticle ∧ ∀ b ∈ exampleArticle, b.2.AllLines (Rendered htmlEnv) := by
  have hl : exampleEnv.config.list .filePrefixes = [b!"file", b!"image", b!"media"] := by decide +kernel
  refine ⟨exampleEnv_plain, ⟨by simp [exampleArticle], ?_, ?_, ?_, ?_, by simp [exampleArticle]⟩, ?_⟩
  · have hlink : ∀ l ∈ [(⟨b!"Germany", none, none⟩ : WikiLink), ⟨b!":Category:Squares", some b!"History", some b!"the square"⟩, ⟨b!"b", none, none⟩],
        (Inline.link l).WellFormed exampleEnv := by
      intro l h
      simp only [List.mem_cons, List.not_mem_nil, or_false] at h
      rcases h with rfl | rfl | rfl
      all_goals
        refine ⟨⟨by decide, ?_, ?_, by decide +kernel, ?_⟩, words_of (by decide +kernel), keptLink_of (by decide +kernel), label_of (words_of (by decide +kernel)) (by decide +kernel)⟩
        · intro s hs
          cases hs <;> decide
        · intro s hs
          cases hs <;> decide
        · rw [NoFile, hl]; decide +kernel
    have hweb : (Inline.web b!"https://a.b/c_d" b!"web page").WellFormed exampleEnv := by
      refine ⟨⟨by decide, by decide, by decide +kernel, by decide, ?_⟩, words_of (by decide +kernel), label_of (words_of (by decide +kernel)) (by decide +kernel)⟩
      rw [NoFile, hl]; decide +kernel
    have htext : ∀ t ∈ [b!"Berlin", b!" is the capital of ", b!".", b!"See C_1<sup>2</sup>: ", b!"!", b!"A ", b!" c", b!"z", b!"x", b!"end", b!" is ", b!"References"],
        (Inline.text t).WellFormed exampleEnv := by
      intro t h
      exact text_of ((by decide +kernel : ∀ t ∈ [b!"Berlin", b!" is the capital of ", b!".", b!"See C_1<sup>2</sup>: ", b!"!", b!"A ", b!" c", b!"z", b!"x", b!"end", b!" is ", b!"References"], TextTest t) t h)
    have hnoteText : ∀ t ∈ [b!"Berlin", b!" is ", b!"x"], (NotePart.text t).WellFormed exampleEnv := by
      intro t h
      have := htext t (by revert h; simp only [List.mem_cons, List.not_mem_nil, or_false]; tauto)
      exact ⟨this.1, this.2, (by decide : ∀ t ∈ [b!"Berlin", b!" is ", b!"x"], (0x3C : Byte) ∉ t) t h⟩
    have hmath : (Inline.math b!" display=\"block\"" b!"f'(x)=\\sqrt{x_1}").WellFormed exampleEnv := ⟨by decide, by decide, by decide +kernel⟩
    have hread : ReadsImages exampleEnv := ⟨by decide +kernel, by decide +kernel, fun s c _ h => h⟩
    have hicon : (Inline.image exampleIcon).WellFormed exampleEnv := by
      refine ⟨hread, ⟨by decide, by decide +kernel, by unfold FreeText; decide +kernel, ?_, ?_⟩, by decide +kernel, by decide +kernel, words_of (by decide +kernel),
        by decide +kernel, by simp [exampleIcon], by simp [exampleIcon]⟩
      · simp only [exampleIcon, ArticleImage.written, List.mem_cons, List.not_mem_nil, or_false, forall_eq, ImageOption.WellFormed]
        decide +kernel
      · simp [exampleIcon, ArticleImage.written, ImageOption.isOther]
    have hplain : exampleIcon.caption = none := rfl
    have hnote : (Inline.ref exampleNote).WellFormed exampleEnv := by
      refine ⟨exampleAttrs_ok, by decide, by decide +kernel, by simp [exampleNote], fun c hc => ?_, by simp [exampleNote]⟩
      cases hc
      refine note_of ?_ (by simp [exampleNoteText, RunsSeparated, NoteRun.run]) (by decide +kernel)
      simp only [exampleNoteText, List.mem_cons, List.not_mem_nil, or_false, forall_eq_or_imp, forall_eq]
      exact ⟨⟨by simp, hnoteText _ (by simp)⟩, by simp, hnoteText _ (by simp), hweb, hlink _ (by simp)⟩
    have hnote2 : (Inline.ref exampleNote2).WellFormed exampleEnv := by
      refine ⟨⟨by simp [exampleNote2], by decide, by decide +kernel⟩, by decide, by decide +kernel, by simp [exampleNote2], fun c hc => ?_, by simp [exampleNote2]⟩
      cases hc
      refine note_of ?_ (by simp [RunsSeparated, NoteRun.run]) (by decide +kernel)
      simp only [List.mem_cons, List.not_mem_nil, or_false, forall_eq]
      exact ⟨by simp, hnoteText _ (by simp)⟩
    have hnote3 : (Inline.ref exampleNote3).WellFormed exampleEnv :=
      ⟨exampleAttrs_ok, by decide, by decide +kernel, fun _ => by decide, by simp [exampleNote3], by simp [exampleNote3]⟩
    have hplain2 : ∀ c, exampleNote2.kind = .define c → ∀ r ∈ c, r.style = none := by simp [exampleNote2]
    have htable : (DocBlock.table exampleDocTable).WellFormed exampleEnv := by
      simp only [List.mem_cons, List.not_mem_nil, or_false, forall_eq_or_imp, forall_eq] at hlink htext
      refine ⟨exampleDocTable_of ⟨rich_of ?_ ?_ (by decide +kernel), by simp, by simp⟩ ⟨rich_of ?_ ?_ (by decide +kernel), by simp, by simp⟩
        ⟨rich_of ?_ ?_ (by decide +kernel), by simp, by simp [lineSource, Run.source, Inline.source]⟩
        ⟨rich_of ?_ ?_ (by decide +kernel), by simp, by simp⟩ ⟨rich_of ?_ ?_ (by decide +kernel), by simp, by simp⟩, by decide +kernel⟩
      all_goals first
        | (simp [RunsSeparated]; done)
        | (simp [Run.WellFormed, hlink, htext, hicon, hplain, Inline.unstyled]; done)
    have hfigure : exampleFigure.WellFormed exampleEnv := by
      refine ⟨hread, ⟨by decide, by decide +kernel, by unfold FreeText; decide +kernel, ?_, by simp [exampleFigure, ArticleImage.written]⟩,
        by decide +kernel, by decide +kernel, words_of (by decide +kernel), by decide +kernel, by simp [exampleFigure], ?_⟩
      · simp only [exampleFigure, ArticleImage.written, List.mem_cons, List.not_mem_nil, or_false, forall_eq, forall_eq_or_imp, ImageOption.WellFormed]
        decide +kernel
      · intro c hc
        simp only [exampleFigure, Option.some.injEq] at hc
        subst hc
        refine ⟨by simp, ?_, by simp [RunsSeparated, CaptionRun.run], by decide +kernel, by decide +kernel, by unfold FreeText; decide +kernel⟩
        simp only [List.mem_cons, List.not_mem_nil, or_false, forall_eq, forall_eq_or_imp, CaptionPart.WellFormed]
        exact ⟨⟨by simp, by simp, textWords_of (by decide +kernel), by decide, by decide⟩,
          ⟨by simp, hlink ⟨b!"b", none, none⟩ (by simp)⟩, by simp, by simp, textWords_of (by decide +kernel), by decide, by decide⟩
    simp only [exampleArticle, List.mem_cons, List.not_mem_nil, or_false, forall_eq_or_imp, forall_eq, DocBlock.WellFormed, TreeList.WellFormed,
      treeItemsWellFormed, treesWellFormed]
    simp only [List.mem_cons, List.not_mem_nil, or_false, forall_eq_or_imp, forall_eq] at hlink htext
    refine ⟨⟨by simp, ⟨rich_of ?_ ?_ (by decide +kernel), by decide, by decide +kernel⟩, rich_of ?_ ?_ (by decide +kernel), by decide, by decide +kernel⟩,
      ⟨by simp, rich_of ?_ ?_ (by decide +kernel), by decide, by decide +kernel⟩, hfigure, ⟨by decide, by decide, rich_of ?_ ?_ (by decide +kernel), by decide +kernel, rfl⟩,
      ⟨by decide, by decide, rich_of ?_ ?_ (by decide +kernel), by decide +kernel, rfl⟩,
      ⟨by simp, by simp, ⟨rich_of ?_ ?_ (by decide +kernel), by simp⟩, ⟨⟨by simp, by simp, ⟨rich_of ?_ ?_ (by decide +kernel), by simp⟩, by simp⟩, by simp, trivial⟩,
        by decide, ⟨rich_of ?_ ?_ (by decide +kernel), by simp⟩, by simp⟩,
      htable, ⟨by simp, rich_of ?_ ?_ (by decide +kernel), by decide, by decide +kernel⟩,
      ⟨by decide, by decide, rich_of ?_ ?_ (by decide +kernel), by decide +kernel, rfl⟩,
      ⟨⟨by simp, by decide, by decide +kernel⟩, by decide, by decide +kernel, by simp, by simp, by simp⟩, trivial⟩
    all_goals first
      | (simp [RunsSeparated]; done)
      | (simp [Run.WellFormed, hlink, htext, hweb, hicon, hmath, hnote, hnote3, hplain, Inline.unstyled]; done)
      | (simp only [List.mem_cons, List.not_mem_nil, or_false, forall_eq_or_imp, forall_eq]
         simp [Run.WellFormed, hlink, htext, hnote2, Inline.unstyled]
         exact hplain2)
  · simp [exampleArticle, BlocksFollow, CanFollow]
  · refine ⟨?_, ?_, ?_, ?_, trivial⟩ <;> rfl
  · intro b hb hn l hl r hr entries
    have hall : (exampleArticle.all fun b => b.2.isReferences || b.2.texts.all fun l => (lineRefs l).all fun r =>
        match r.kind with | .list _ => false | _ => true) = true := by decide +kernel
    have := List.all_eq_true.mp hall b hb
    rw [hn, Bool.false_or] at this
    have := List.all_eq_true.mp (List.all_eq_true.mp this l hl) r hr
    intro e
    rw [e] at this
    cases this
  · have hr : ∀ l : RichLine, Rendered htmlEnv l := fun _ _ _ _ _ _ _ _ => ⟨_, rfl⟩
    simp [exampleArticle, DocBlock.AllLines, hr, TreeList.WellFormed, treeItemsWellFormed, treesWellFormed]
    exact ⟨by decide, exampleDocTable_of trivial trivial trivial trivial trivial⟩

/-- **C59** is false for a paragraph that is a link and nothing else: it is joined with the paragraphs around it. -/
theorem C59_link_paragraphs_are_joined :
    articleBody exampleEnv htmlEnv 300 b!"a\n\n[[b]]\n\nc" = some (.ok b!"a\nb\nc") ∧
    articleBody exampleEnv htmlEnv 300 b!"a\n\nb [[b]]\n\nc" = some (.ok b!"a\n<br><br>\nb b\n<br><br>\nc") := by
  decide +kernel

/-- **C59** is false for bold paragraphs: one in front of another one is taken for an empty section and removed. -/
theorem C59_bold_paragraph_is_lost :
    cleanText exampleEnv 60 b!"a\n\n'''b'''\n\n'''c'''" = some (.ok b!"a\n\n'''c'''") := by
  decide +kernel

end Verif.Props
