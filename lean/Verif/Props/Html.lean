import Verif.Lemmas.Html
import Verif.Props.Expand

/-! # The HTML of the elements of an article: C57 -/

namespace Verif.Props
open Verif.Go Verif.Model Verif.Spec
open scoped List

/-- **C57**: If a text with its tokens describes the document `parts` (`Spec/Html.lean`: headings with their level, lists with
their items and sub lists, tables with rows and cells, pictures with path, size and caption, links with their address, numbers
of footnotes, bold and italic sections, through any nesting of tokens), the expansion comes to an end and the HTML is this
document, up to white space between tags. What is missing: texts with doubled dollar signs (C29), links with an unknown protocol
(C28), and HTML tags in the wikitext that are not closed in the same piece of text or whose name begins with `l`. -/
theorem C57_elements_become_html_partial (env : HtmlEnv) (tokens : List (Str × Token)) (content : Str) (parts : List HtmlPart)
    (hm : ∀ s, ∃ r, env.math s = .ok r) (h : Describes (picturesOf env) tokens [] content parts) :
    ∃ steps, ∀ fuel, steps ≤ fuel → ∃ html, expandString env tokens fuel content = some (.ok html) ∧ Written parts html :=
  shows_written hm h

/-- **C57**: In this document all tags are closed and properly nested. -/
theorem C57_html_is_well_nested (pictures : Pictures) (tokens : List (Str × Token)) (content : Str) (parts : List HtmlPart)
    (h : Describes pictures tokens [] content parts) : WellNested [] parts :=
  shows_nested h

set_option maxRecDepth 8000 in
/-- **C57** for the whole file: the title is the heading of level 1 in front of the text. -/
theorem C57_document_partial (env : HtmlEnv) (tokens : List (Str × Token)) (style title content : Str) (titleParts parts : List HtmlPart)
    (hm : ∀ s, ∃ r, env.math s = .ok r) (ht : Leaf title titleParts) (h : Describes (picturesOf env) tokens [] content parts) :
    WellNested [] (documentParts style titleParts parts) ∧
    ∃ steps, ∀ fuel, steps ≤ fuel → ∃ html, generateHtml env tokens fuel style title content = some (.ok html) ∧
      Written (documentParts style titleParts parts) html := by
  constructor
  · refine .void (by decide) (wellNested_element (by decide) (wellNested_append (wellNested_element (by decide)
      (.void (by decide) (.void (by decide) .nil))) (wellNested_element (by decide) (wellNested_append
        (wellNested_element (by decide) ht.nested) (shows_nested h)))))
  · obtain ⟨N, hN⟩ := shows_written hm h
    refine ⟨N, fun fuel hf => ?_⟩
    obtain ⟨html, he, hw⟩ := hN fuel hf
    refine ⟨_, by rw [generateHtml, he]; rfl, ?_⟩
    have nl := written_white white_nl
    have h1 := written_element (name := b!"h1") attributes_nil ht.written
    have hb := written_element (name := b!"body") (attributes_one b!"xmlns:epub=\"http://www.idpf.org/2007/ops\"")
      (written_append (written_append (written_append (written_append nl nl) h1) nl) (written_append hw nl))
    have hmeta := Written.tag (name := b!"meta") (attributes_one b!"charset=\"utf-8\"") (written_append nl
      (Written.tag (name := b!"link") (attributes_space b!"rel=\"stylesheet\"" (attributes_one (b!"href=\"" ++ style ++ b!"\""))) Written.nil))
    have hh := written_element (name := b!"head") attributes_nil (written_lines hmeta)
    have ht := written_element (name := b!"html") (attributes_one b!"xmlns=\"http://www.w3.org/1999/xhtml\"")
      (written_append (written_append nl (written_append hh nl)) (written_append hb nl))
    have hx := Written.tag (name := b!"?xml") (attributes_space b!"version=\"1.0\"" (attributes_one b!"encoding=\"UTF-8\"?"))
      (written_append nl (written_append ht nl))
    simpa [documentParts, htmlHeader, htmlFooter] using hx

/-- **C57** fails for text in nowiki tags that looks like HTML: it is not escaped, so that a tag is opened and never closed. -/
theorem C57_tag_in_nowiki_is_not_escaped :
    articleBody tokenizerEnv htmlEnv 60 b!"write <nowiki><b></nowiki> for bold text" = some (.ok b!"write <b> for bold text") := by
  decide +kernel

/-- Text without tags is a leaf. -/
theorem leaf_text {t : Str} (h : (0x3C : Byte) ∉ t) : Leaf t [.text t] where
  written := by simpa using Written.text h .nil
  nested := .text .nil
  names := by simp

/-- A text with a heading, a tag, a bold section and a list that contains a list and a table. -/
def exampleHtmlText : Str :=
  tokenKey b!"HEADING" 0 ++ b!" H<sub>2</sub>O " ++ b!"$$MARKER_BOLD_OPEN$$" ++ b!"bold" ++ b!"$$MARKER_BOLD_CLOSE$$" ++
    b!" and " ++ tokenKey b!"UNORDERED_LIST" 2 ++ b!" end"

/-- What it describes. -/
def exampleHtml : List HtmlPart :=
  [.text b!""] ++ element b!"h2" [] [.text b!"On ", .text b!"money", .text b!""] ++
  ([.text b!" H", .tag b!"sub" [], .text b!"2", .close b!"sub", .text b!"O "] ++ [.tag b!"b" []] ++
  ([.text b!"bold"] ++ [.close b!"b"] ++
  ([.text b!" and "] ++ element b!"ul" []
    (element b!"li" [] ([.text b!"one"] ++ element b!"ol" [] (element b!"li" [] ([.text b!""] ++
      element b!"div" [b!"class=\"figure\""] (element b!"table" [] (element b!"tr" []
          (element b!"th" [] [.text b!"x"] ++ element b!"td" [] [.text b!"y"])) ++
        element b!"div" [b!"class=\"caption\""] [.text b!"caption"]) ++ [.text b!""])) ) ++
     element b!"li" [] [.text b!"two"]) ++ [.text b!" end"])))

-- the hypothesis of `C57_elements_become_html_partial` can be met
example : Describes (picturesOf htmlEnv) exampleTokens [] exampleHtmlText exampleHtml := by
  have un : ∀ {t : Str}, contains t b!"$$" = false → hasSuffix t b!"$" = false → hasPrefix t b!"M" = false →
    hasPrefix t b!"$M" = false → Unambiguous t := unambiguous_of
  have ni : ∀ {t : Str}, contains t b!"$$" = false → ¬ b!"$$" <:+: t := fun h => contains_eq_false_iff.mp h
  have k0 : lookupToken exampleTokens (tokenKey b!"HEADING" 0) = some (.heading (b!"On " ++ tokenKey b!"INTERNAL_LINK" 1) 2) := by
    rw [show tokenKey b!"HEADING" 0 = b!"$$TOKEN_HEADING_0$$" by decide +kernel]; rfl
  have k1 : lookupToken exampleTokens (tokenKey b!"INTERNAL_LINK" 1) = some (.internalLink b!"Money" b!"money") := by
    rw [show tokenKey b!"INTERNAL_LINK" 1 = b!"$$TOKEN_INTERNAL_LINK_1$$" by decide +kernel]; rfl
  have k2 : lookupToken exampleTokens (tokenKey b!"UNORDERED_LIST" 2) = some (.list (.mk .unordered
      [.mk .normal b!"one" [.mk .ordered [.mk .normal (tokenKey b!"TABLE" 3) []]], .mk .normal b!"two" []])) := by
    rw [show tokenKey b!"UNORDERED_LIST" 2 = b!"$$TOKEN_UNORDERED_LIST_2$$" by decide +kernel]; rfl
  have k3 : lookupToken exampleTokens (tokenKey b!"TABLE" 3) =
      some (.table [[⟨[], b!"x", true⟩, ⟨[], b!"y", false⟩]] b!"caption") := by
    rw [show tokenKey b!"TABLE" 3 = b!"$$TOKEN_TABLE_3$$" by decide +kernel]; rfl
  have plain : ∀ {t : Str}, contains t b!"$$" = false → (0x3C : Byte) ∉ t → Describes (picturesOf htmlEnv) exampleTokens [] t [.text t] :=
    fun h1 h2 => .last (ni h1) (leaf_text h2)
  have hd : Describes (picturesOf htmlEnv) exampleTokens [] (b!"On " ++ tokenKey b!"INTERNAL_LINK" 1 ++ b!"")
      ([.text b!"On "] ++ tokenParts (picturesOf htmlEnv) (fun t => [.text t]) (.internalLink b!"Money" b!"money") ++ [.text b!""]) :=
    .token (un (by decide) (by decide) (by decide) (by decide)) (leaf_text (by decide)) (by decide) k1 (by simp) (by simp) _
      (by intro t ht; simp only [tokenTexts, List.mem_singleton] at ht; subst ht; exact plain (by decide) (by decide))
      (plain (by decide) (by decide))
  have tb : Describes (picturesOf htmlEnv) exampleTokens [] (b!"" ++ tokenKey b!"TABLE" 3 ++ b!"")
      ([.text b!""] ++ tokenParts (picturesOf htmlEnv) (fun t => [.text t]) (.table [[⟨[], b!"x", true⟩, ⟨[], b!"y", false⟩]] b!"caption") ++
        [.text b!""]) :=
    .token (un (by decide) (by decide) (by decide) (by decide)) (leaf_text (by decide)) (by decide) k3 (by simp) (by simp) _
      (by
        intro t ht
        have : t ∈ [b!"x", b!"y", b!"caption"] := by simpa [tokenTexts] using ht
        simp only [List.mem_cons, List.not_mem_nil, or_false] at this
        rcases this with rfl | rfl | rfl <;> exact plain (by decide) (by decide))
      (plain (by decide) (by decide))
  have sub : Leaf b!" H<sub>2</sub>O " [.text b!" H", .tag b!"sub" [], .text b!"2", .close b!"sub", .text b!"O "] := by
    refine ⟨?_, .text (.opening (by decide) (.text (.closing (.text .nil)))), ?_⟩
    · exact Written.text (t := b!" H") (by decide) (Written.tag (name := b!"sub") attributes_nil (Written.text (t := b!"2") (by decide)
        (Written.close (name := b!"sub") (Written.text (t := b!"O ") (by decide) .nil))))
    · intro name attributes h
      simp only [List.mem_cons, List.not_mem_nil, or_false, reduceCtorEq, false_or, HtmlPart.tag.injEq] at h
      rw [h.1]
      exact ⟨_, _, rfl, by decide⟩
  have l2 := Describes.token (pictures := picturesOf htmlEnv) (stack := []) (text := b!" and ") (content := b!" end") (type := b!"UNORDERED_LIST")
    (un (by decide) (by decide) (by decide) (by decide)) (leaf_text (by decide)) (by decide) k2 (by simp) (by simp)
    (fun t => if t = tokenKey b!"TABLE" 3 then ([.text b!""] ++ tokenParts (picturesOf htmlEnv) (fun t => [.text t]) (.table [[⟨[], b!"x", true⟩, ⟨[], b!"y", false⟩]] b!"caption") ++
        [.text b!""]) else [.text t])
    (by
      intro t ht
      have : t ∈ [b!"one", tokenKey b!"TABLE" 3, b!"two"] := by simpa [tokenTexts, listTexts, itemsTexts, itemTexts, listsTexts] using ht
      simp only [List.mem_cons, List.not_mem_nil, or_false] at this
      rcases this with rfl | rfl | rfl
      · rw [if_neg (by decide +kernel)]; exact plain (by decide) (by decide)
      · rw [if_pos rfl]; simpa using tb
      · rw [if_neg (by decide +kernel)]; exact plain (by decide) (by decide))
    (plain (t := b!" end") (by decide) (by decide))
  have e1 : b!"one" ≠ tokenKey b!"TABLE" 3 := by decide +kernel
  have e2 : b!"two" ≠ tokenKey b!"TABLE" 3 := by decide +kernel
  simp only [tokenParts, listParts, itemsParts, itemParts, subListsParts, if_neg e1, if_neg e2, if_true] at l2
  have bc := Describes.marker (pictures := picturesOf htmlEnv) (text := b!"bold") .boldClose (un (by decide) (by decide) (by decide) (by decide))
    (leaf_text (by decide)) (.boldClose []) l2
  have bo := Describes.marker (pictures := picturesOf htmlEnv) (text := b!" H<sub>2</sub>O ") .boldOpen (un (by decide) (by decide) (by decide) (by decide))
    sub (.boldOpen []) bc
  have all := Describes.token (pictures := picturesOf htmlEnv) (text := []) (un (by decide) (by decide) (by decide) (by decide)) (leaf_text (by decide))
    (by decide) k0 (by simp) (by simp) (fun _ => [.text b!"On ", .text b!"money", .text b!""])
    (by intro t ht
        have : t = b!"On " ++ tokenKey b!"INTERNAL_LINK" 1 := by simpa [tokenTexts] using ht
        subst this
        simpa [tokenParts] using hd) bo
  have d : decimal 2 = b!"2" := by decide +kernel
  simpa [exampleHtmlText, exampleHtml, tokenParts, Marker.name, Marker.parts, d, cellParts] using all

-- and the HTML
example : (expandString htmlEnv exampleTokens 4 exampleHtmlText).run = some (.ok
    b!"<h2>On money</h2> H<sub>2</sub>O <b>bold</b> and <ul>\n<li>\none\n<ol>\n<li>\n<div class=\"figure\">\n<table>\n<tr>\n<th>\nx\n</th>\n\n<td>\ny\n</td>\n</tr>\n</table>\n<div class=\"caption\">\ncaption\n</div>\n</div>\n</li>\n</ol>\n</li>\n<li>\ntwo\n</li>\n</ul> end") := by
  decide +kernel

end Verif.Props
