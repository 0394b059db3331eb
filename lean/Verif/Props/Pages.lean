import Verif.Lemmas.Follows
import Verif.Lemmas.HaltArticle
import Verif.Spec.Pages
import Verif.Props.Termination
import Verif.Props.Expand

/-!
# C62: what the parser has read becomes a page
-/

namespace Verif.Props
open Verif.Go Verif.Model Verif.Spec Verif.Lemmas
open scoped List

/-- Cleaning has nothing to do with types of images. -/
theorem cleanText_withAllImages (env : ParserEnv) (fuel : Nat) (t : Str) : cleanText (withAllImages env) fuel t = cleanText env fuel t := by
  have h1 : ∀ s skip, linkLoop (withAllImages env) s skip = linkLoop env s skip := by
    have h : ∀ s, isUnwantedLink (withAllImages env) s = isUnwantedLink env s := fun _ => rfl
    intro s
    induction s with
    | nil => intro skip; cases skip <;> rfl
    | cons c s ih =>
      intro skip
      cases skip with
      | zero => simp only [linkLoop, h, ih]
      | succ skip => simp only [linkLoop, ih]
  have h2 : ∀ n content i found, templateLoop (withAllImages env) n content i found = templateLoop env n content i found := by
    have h : ∀ s, templateName (withAllImages env) s = templateName env s := fun _ => rfl
    have h' : ∀ s, removesTemplate (withAllImages env) s = removesTemplate env s := fun _ => rfl
    have h'' : ((withAllImages env).config.list .trailingTemplates).map (withAllImages env).lower = (env.config.list .trailingTemplates).map env.lower := rfl
    intro n
    induction n with
    | zero => intro _ _ _; rfl
    | succ n ih => intro content i found; simp only [templateLoop, h, h', h'', ih]
  unfold cleanText removeUnwantedInternalLinks handleUnwantedAndTrailingTemplates
  simp only [h1, h2]

/-- Without templates and placeholders there is nothing to evaluate. -/
theorem evaluateTemplates_plain {templates : TemplateEnv} {iterate : Nat → List (Str × Str) → List (Str × Str)} {fuel : Nat} {content evaluated : Str}
    {calls : List (Str × Str)} (h : evaluateTemplates templates iterate fuel content = some (.ok (evaluated, calls))) (hb : (0x7B : Byte) ∉ content)
    (hd : (0x24 : Byte) ∉ content) : evaluated = content := by
  have hn : ¬ b!"{{" <:+: content := fun h => hb (h.subset (by simp))
  have hp : contains content templatePlaceholderPrefix = false := by
    rw [contains_eq_false_iff]
    exact fun h => hd (h.subset (by decide))
  have key : ∀ n i st r, placeholderLoop templates n content i st = some r → r = .ok (content, st) := by
    intro n
    induction n with
    | zero => intro i st r h; cases h
    | succ n ih =>
      intro i st r h
      rw [placeholderLoop] at h
      split at h
      · rw [if_neg] at h
        · exact ih _ _ _ h
        · intro he
          apply hn
          rw [← he]
          exact (List.take_prefix _ _).isInfix.trans (List.drop_suffix _ _).isInfix
      · cases h; rfl
  unfold evaluateTemplates at h
  cases hl : placeholderLoop templates fuel content 0 ⟨[], []⟩ with
  | none => rw [hl] at h; cases h
  | some r =>
    rw [hl, key _ _ _ _ hl] at h
    simp only at h
    cases fuel with
    | zero => cases hl
    | succ fuel =>
      rw [resolvePlaceholders, hp] at h
      cases h
      rfl

theorem keyByte_eq_wordByte (c : Byte) : keyByte c = wordByte c := by
  have : ∀ n : Fin 256, keyByte (UInt8.ofNat n.val) = wordByte (UInt8.ofNat n.val) := by decide +kernel
  have h := this ⟨c.toNat, c.toNat_lt⟩
  simpa using h

/-- A text that cannot be confused with markers consists of harmless words and other characters. -/
theorem whole_of_words {m : List (Str × Token)} (X : Alphabet) (content : Str)
    (h : ∀ w ∈ words content, X.missing ∈ w ∨ 0x24 ∈ w → HarmlessWord w) : Whole X m content := by
  have one : ∀ w t : Str, (∀ c ∈ w, wordByte c = true) → (X.missing ∈ w ∨ 0x24 ∈ w → HarmlessWord w) → Whole X m t → Whole X m (w ++ t) := by
    intro w t hw hh ht
    by_cases hx : X.missing ∈ w ∨ 0x24 ∈ w
    · have := hh hx
      exact .word ⟨by rintro rfl; simp at hx, fun c hc => by rw [keyByte_eq_wordByte]; exact hw c hc, this.dollars, this.last, this.name⟩ ht
    · rw [not_or] at hx
      exact (Whole.plain fun c hc => ⟨fun e => hx.2 (e ▸ hc), fun e => hx.1 (e ▸ hc)⟩).append ht
  suffices ∀ t : Str, ∃ w ws rest, words t = w :: ws ∧ t = w ++ rest ∧ (∀ c ∈ w, wordByte c = true) ∧
      ((∀ v ∈ ws, X.missing ∈ v ∨ 0x24 ∈ v → HarmlessWord v) → Whole X m rest) by
    obtain ⟨w, ws, rest, e, rfl, hw, hr⟩ := this content
    rw [e] at h
    exact one w rest hw (h w (by simp)) (hr fun v hv => h v (by simp [hv]))
  intro t
  induction t with
  | nil => exact ⟨[], [], [], rfl, rfl, by simp, fun _ => .nil⟩
  | cons c t ih =>
    obtain ⟨w, ws, rest, e, rfl, hw, hr⟩ := ih
    by_cases hc : wordByte c = true
    · refine ⟨c :: w, ws, rest, by rw [words, if_pos hc, e]; rfl, rfl, ?_, hr⟩
      intro d hd
      rcases List.mem_cons.mp hd with rfl | hd
      · exact hc
      · exact hw d hd
    · refine ⟨[], w :: ws, c :: (w ++ rest), by rw [words, if_neg hc, e], rfl, by simp, fun hh => ?_⟩
      refine .byte ⟨?_, ?_⟩ (one w rest hw (hh w (by simp)) (hr fun v hv => hh v (by simp [hv])))
      · rintro rfl; exact hc (by decide)
      · intro e
        have : ∀ c ∈ b!"MAKER_", wordByte c = true := by decide
        exact hc (e ▸ this _ X.letter)

/-- C62, for articles without images: If the parser comes to an end without a crash, then the generator makes a page of its result:
every key in the text and in the tokens is found, and there is no endless recursion. The markup may be as broken as it may be
(unclosed tables in lists in references in headings …). What is missing: articles with images (see
`C62_text_behind_an_image_breaks_the_page`) and texts that can be confused with keys (see C53): there are no two dollar signs in a
row, none at the end of a word, and no words that are parts of markers. -/
theorem C62_text_becomes_page_partial (env : ParserEnv) (html : HtmlEnv) (hm : ∀ formula, ∃ r, html.math formula = .ok r) (content : Str)
    (hu : Unmistakable content) (fuel : Nat) (text : Str) (s : TokState)
    (h : tokenizeContent (withAllImages env) fuel content TokState.initial = some (.ok (text, s))) (hi : s.images = []) :
    tokenizeContent env fuel content TokState.initial = some (.ok (text, s)) ∧
    ∃ page, ∀ steps, s.tokenMap.length < steps → (expandString html s.tokenMap steps text).run = some (.ok page) := by
  obtain ⟨c, hc, hn⟩ := hu
  let X : Alphabet := ⟨c, hc⟩
  have hX : (withAllImages env).config.list .ignoredMediaTypes = [] := by simp [withAllImages]
  have hw : Whole X TokState.initial.tokenMap content := whole_of_words X content hn
  obtain ⟨hb, -, ht⟩ := tokenizeContent_good (withAllImages env) hX fuel _ content hw _ _ _ h hi List.suffix_rfl trivial
  obtain ⟨page, hp⟩ := Whole.html hm (C27_no_token_is_replaced _ _ _ _ _ h).1 hb s.tokenMap.length s.tokenMap (Nat.le_refl _) List.suffix_rfl text ht
  exact ⟨(tokenizeContent_follows (env := env) hX (fun _ => rfl) fuel content).run _ _ _ h hi, page, hp⟩

theorem mem_of_mem_words {w t : Str} {c : Byte} (h : w ∈ words t) (hc : c ∈ w) : c ∈ t := by
  induction t generalizing w with
  | nil => simp only [words, List.mem_singleton] at h; subst h; exact hc
  | cons d t ih =>
    rw [words] at h
    cases e : words t with
    | nil => 
      rw [e] at h
      split at h
      · simp only [List.headD_nil, List.tail_nil, List.mem_singleton] at h
        subst h
        simp only [List.mem_singleton] at hc
        simp [hc]
      · simp only [List.mem_singleton] at h; subst h; cases hc
    | cons v vs =>
      rw [e] at h ih
      split at h
      · rcases List.mem_cons.mp h with rfl | h
        · rcases List.mem_cons.mp hc with rfl | hc
          · simp
          · exact List.mem_cons_of_mem _ (ih (by simp) hc)
        · exact List.mem_cons_of_mem _ (ih (List.mem_cons_of_mem _ h) hc)
      · rcases List.mem_cons.mp h with rfl | h
        · cases hc
        · exact List.mem_cons_of_mem _ (ih h hc)

/-- A text without dollar signs and without one of the characters cannot be confused with markers. -/
theorem unmistakable_of_missing {content : Str} (hd : (0x24 : Byte) ∉ content) (hl : ∃ c ∈ b!"MAKER_", c ∉ content) : Unmistakable content := by
  obtain ⟨c, hc, hn⟩ := hl
  refine ⟨c, hc, fun w hw h => ?_⟩
  rcases h with h | h
  · exact absurd (mem_of_mem_words hw h) hn
  · exact absurd (mem_of_mem_words hw h) hd

/-- The whole way: if the parser, and cleaning before it, do not crash on an article without images, templates and dollar signs, the
article becomes a page. What cleaning leaves of the article must not be confused with markers. What is missing: see
`C62_text_becomes_page_partial`; and articles with templates. -/
theorem C62_article_becomes_page_partial (env : ParserEnv) (hu : CreatesNoMarkup env.upperFirst) (templates : TemplateEnv)
    (iterate : Nat → List (Str × Str) → List (Str × Str)) (html : HtmlEnv) (hm : ∀ formula, ∃ r, html.math formula = .ok r)
    (style title content : Str) (hb : (0x7B : Byte) ∉ content) (hd : (0x24 : Byte) ∉ content)
    (hl : ∀ fuel cleaned final, cleanText env fuel content = some (.ok cleaned) → cleanText env fuel cleaned = some (.ok final) → Unmistakable final) :
    ∃ N page, ∀ fuel, N ≤ fuel → ∀ text s, tokenizeArticle (withAllImages env) templates iterate fuel content = some (.ok (text, s)) →
      s.images = [] → articleHtml env templates iterate html fuel style title content = some (.ok page) := by
  -- the parser reads a text without dollar signs and the letter
  have inner : ∀ fuel text s, tokenizeArticle (withAllImages env) templates iterate fuel content = some (.ok (text, s)) →
      ∃ cleaned, Unmistakable cleaned ∧
        tokenizeContent (withAllImages env) fuel cleaned TokState.initial = some (.ok (text, s)) ∧
        tokenizeArticle env templates iterate fuel content = tokenizeContent env fuel cleaned TokState.initial := by
    intro fuel text s h
    simp only [tokenizeArticle, cleanText_withAllImages] at h ⊢
    cases h1 : cleanText env fuel content with
    | none => rw [h1] at h; cases h
    | some r1 =>
      cases r1 with
      | err => rw [h1] at h; cases h
      | panic => rw [h1] at h; cases h
      | fatal => rw [h1] at h; cases h
      | ok cleaned =>
        rw [h1] at h
        simp only at h ⊢
        have hb1 := cleanText_new h1 hb (by decide) hb
        have hd1 := cleanText_new h1 hb (by decide) hd
        cases h2 : evaluateTemplates templates iterate fuel cleaned with
        | none => rw [h2] at h; cases h
        | some r2 =>
          cases r2 with
          | err => rw [h2] at h; cases h
          | panic => rw [h2] at h; cases h
          | fatal => rw [h2] at h; cases h
          | ok p =>
            obtain ⟨evaluated, calls⟩ := p
            rw [h2] at h
            simp only at h ⊢
            have he : evaluated = cleaned := evaluateTemplates_plain h2 hb1 hd1
            subst he
            cases h3 : cleanText env fuel evaluated with
            | none => rw [h3] at h; cases h
            | some r3 =>
              cases r3 with
              | err => rw [h3] at h; cases h
              | panic => rw [h3] at h; cases h
              | fatal => rw [h3] at h; cases h
              | ok final =>
                rw [h3] at h
                exact ⟨final, hl _ _ _ h1 h3, h, rfl⟩
  obtain ⟨N, r, hr⟩ := C61_article_without_templates_ends (withAllImages env) hu templates iterate content hb hd
  cases r with
  | err => exact ⟨N, [], fun fuel hf text s h => by have := hr fuel hf; simp only [h] at this; cases this⟩
  | panic => exact ⟨N, [], fun fuel hf text s h => by have := hr fuel hf; simp only [h] at this; cases this⟩
  | fatal => exact ⟨N, [], fun fuel hf text s h => by have := hr fuel hf; simp only [h] at this; cases this⟩
  | ok p =>
    obtain ⟨text0, s0⟩ := p
    by_cases hi : s0.images = []
    · obtain ⟨cl, hl0, ht0, -⟩ := inner N text0 s0 (hr N (Nat.le_refl _))
      obtain ⟨-, body, hbody⟩ := C62_text_becomes_page_partial env html hm cl hl0 N text0 s0 ht0 hi
      refine ⟨max N (s0.tokenMap.length + 1), htmlHeader style ++ b!"\n<h1>" ++ title ++ b!"</h1>\n" ++ body ++ htmlFooter, fun fuel hf text s h _ => ?_⟩
      have e := hr fuel (by omega)
      simp only [h] at e
      cases e
      obtain ⟨cl', hl', ht', ha'⟩ := inner fuel text0 s0 h
      have hsame := (C62_text_becomes_page_partial env html hm cl' hl' fuel text0 s0 ht' hi).1
      simp only [articleHtml, ha', hsame]
      have hb := hbody fuel (by omega)
      have hb' : expandString html s0.tokenMap fuel text0 = (pure body : ExpM Str) := hb
      unfold generateHtml
      rw [hb']
      rfl
    · refine ⟨N, [], fun fuel hf text s h hs => ?_⟩
      have e := hr fuel hf
      simp only [h] at e
      cases e
      exact absurd hs hi

/-- In particular: an article without images, templates, dollar signs and underscores (or without another one of the characters that
all internal names of markers have). -/
theorem C62_article_without_underscores_becomes_page_partial (env : ParserEnv) (hu : CreatesNoMarkup env.upperFirst) (templates : TemplateEnv)
    (iterate : Nat → List (Str × Str) → List (Str × Str)) (html : HtmlEnv) (hm : ∀ formula, ∃ r, html.math formula = .ok r)
    (style title content : Str) (hb : (0x7B : Byte) ∉ content) (hd : (0x24 : Byte) ∉ content) (hl : ∃ c ∈ b!"MAKER_", c ∉ content) :
    ∃ N page, ∀ fuel, N ≤ fuel → ∀ text s, tokenizeArticle (withAllImages env) templates iterate fuel content = some (.ok (text, s)) →
      s.images = [] → articleHtml env templates iterate html fuel style title content = some (.ok page) := by
  refine C62_article_becomes_page_partial env hu templates iterate html hm style title content hb hd fun fuel cleaned final h1 h3 => ?_
  obtain ⟨c, hc, hn⟩ := hl
  have hne : c ∉ b!"->\n" := by
    have : ∀ c ∈ b!"MAKER_", c ∉ b!"->\n" := by decide
    exact this c hc
  have hb1 := cleanText_new h1 hb (by decide) hb
  exact unmistakable_of_missing (cleanText_new h3 hb1 (by decide) (cleanText_new h1 hb (by decide) hd))
    ⟨c, hc, cleanText_new h3 hb1 hne (cleanText_new h1 hb hne hn)⟩

/-- C62 in general is wrong: a bracket in the caption of an image (here the one of a half-open interval) makes the parser remove the
first character behind the image, which is part of the key of the reference there. The parser does not notice it, and the generator
crashes. -/
theorem C62_text_behind_an_image_breaks_the_page :
    (match tokenizeContent tokenizerEnv 100 b!"[[File:a.jpg|mini|interval [0,1)]]<ref>b</ref> c" TokState.initial with
      | some (.ok (text, _)) => text == b!"$$TOKEN_IMAGE_1$$$TOKEN_REF_USAGE_0$$ c"
      | _ => false) = true ∧
    articleBody tokenizerEnv htmlEnv 100 b!"[[File:a.jpg|mini|interval [0,1)]]<ref>b</ref> c" = some .panic ∧
    -- with a space in between it is only the space that is lost, and the bracket too many is shown in the caption
    articleBody tokenizerEnv htmlEnv 100 b!"[[File:a.jpg|mini|interval [0,1)]] <ref>b</ref> c" = some (.ok (
      b!"<div class=\"figure\">\n<img alt=\"image\" src=\"./images/a.jpg\" >\n<div class=\"caption\">\ninterval [0,1)]\n</div>\n</div>" ++
      b!"[1] c")) := by
  decide +kernel

/-! ### Examples -/

/-- Which words are harmless. -/
example : (∀ w ∈ [b!"$5", b!"foo_bar", b!"MARKER_BOLD", b!"_", b!"5$", b!"$$5", b!"MARKER_BOLD_TEXT"],
    (decide (HarmlessWord w) ↔ w ∈ [b!"$5", b!"foo_bar", b!"MARKER_BOLD_TEXT"])) ∧
    words b!"a $5, foo_bar" = [b!"a", b!"$5", b!"", b!"foo_bar"] := by
  decide +kernel

/-- The hypotheses for an article with broken markup: an unclosed table with a list and an unclosed link in a cell, a heading with
emphasis that is not closed, references. It has all characters of the names of markers and dollar signs. -/
example :
    let content := b!"= [[MAKER|b]] ''x =\n{|\n|$5<ref>[http://a.b/FOO_BAR A]</ref>\n* e\n|}\n\n'''c\n* d"
    (Unmistakable content ∧ (0x7B : Byte) ∈ content ∧ ∀ c ∈ b!"MAKER_$", c ∈ content) ∧
    (match tokenizeContent (withAllImages tokenizerEnv) 100 content TokState.initial with
      | some (.ok (_, s)) => s.images.isEmpty && s.tokenMap.length == 7
      | _ => false) = true := by
  decide +kernel

/-- What cleaning leaves of an article with underscores. -/
example :
    let content := b!"__NOTOC__\n= [[MAKER|b]] ''x =<!-- f -->\nb<ref>[http://a.b/FOO_BAR A]</ref>\n* e\n\n'''c\n* d"
    (match cleanText tokenizerEnv 100 content with
      | some (.ok cleaned) => match cleanText tokenizerEnv 100 cleaned with
        | some (.ok final) => decide (Unmistakable final ∧ ∀ c ∈ b!"MAKER_", c ∈ final)
        | _ => false
      | _ => false) = true := by
  decide +kernel

/-- And for the whole way, with a comment and with the rendered page. -/
example :
    let content := b!"= [[a|b]] ''x =<!-- f -->\nb<ref>d</ref>\n* e\n\n'''c\n* d"
    ((0x24 : Byte) ∉ content ∧ (0x7B : Byte) ∉ content ∧ ∃ c ∈ b!"MAKER_", c ∉ content) ∧
    (match tokenizeArticle (withAllImages tokenizerEnv) ⟨fun t => t, fun _ _ => .err⟩ (fun _ l => l) 100 content with
      | some (.ok (_, s)) => s.images.isEmpty
      | _ => false) = true ∧
    articleHtml tokenizerEnv ⟨fun t => t, fun _ _ => .err⟩ (fun _ l => l) htmlEnv 100 b!"style.css" b!"T" content =
      some (.ok (htmlHeader b!"style.css" ++ b!"\n<h1>T</h1>\n<h1>b ''x</h1>\nb[1]\n<ul>\n<li>\n e\n</li>\n</ul>\n'''c\n<ul>\n<li>\n d\n</li>\n</ul>" ++ htmlFooter)) := by
  decide +kernel

end Verif.Props
