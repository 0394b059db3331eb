import Verif.Spec.Xml
import Verif.Props.Html
import Verif.Model.ArticleText

/-!
# C85: pages as XML documents
-/

namespace Verif.Props
open Verif.Go Verif.Model Verif.Spec
open scoped List

theorem xmlRead_append (state : XmlState) (a b : Str) : xmlRead state (a ++ b) = (xmlRead state a).bind fun s => xmlRead s b := by
  have hn : ∀ t : Str, t.foldl xmlStep none = none := by
    intro t
    induction t with
    | nil => rfl
    | cons c t ih => exact ih
  unfold xmlRead
  rw [List.foldl_append]
  cases h : a.foldl xmlStep (some state) with
  | none => rw [hn]; rfl
  | some s => rfl

theorem xmlRead_inside (stack : List Str) : ∀ (t tag : Str), (∀ c ∈ t, c ≠ 0x3C ∧ c ≠ 0x3E) →
    xmlRead (some tag, stack) t = some (some (tag ++ t), stack)
  | [], tag, _ => by simp [xmlRead]
  | c :: t, tag, h => by
    have := xmlRead_inside stack t (tag ++ [c]) fun x hx => h x (by simp [hx])
    have hc := h c (by simp)
    show t.foldl xmlStep (xmlStep (some (some tag, stack)) c) = _
    rw [xmlStep, if_neg hc.2, if_neg hc.1]
    rw [xmlRead] at this
    rw [this]
    simp

theorem xmlRead_outside (stack : List Str) : ∀ t : Str, (0x3C : Byte) ∉ t → xmlRead (none, stack) t = some (none, stack)
  | [], _ => rfl
  | c :: t, h => by
    show t.foldl xmlStep (xmlStep (some (none, stack)) c) = _
    rw [xmlStep, if_neg fun e => h (by simp [e])]
    exact xmlRead_outside stack t fun hm => h (by simp [hm])

theorem xmlRead_tag (stack : List Str) (t : Str) (h : ∀ c ∈ t, c ≠ 0x3C ∧ c ≠ 0x3E) :
    xmlRead (none, stack) (b!"<" ++ t ++ b!">") = (xmlTag t stack).map fun s => (none, s) := by
  rw [xmlRead_append, xmlRead_append]
  show (Option.bind (xmlRead (some [], stack) t) fun s => xmlRead s b!">") = _
  rw [xmlRead_inside stack t [] h]
  simp [xmlRead, xmlStep]

set_option maxRecDepth 8000 in
/-- **C85** is false of the code, for every page of every article: its first line is an XML declaration, but the elements `meta` and `link`
of its head are never closed, so that no reader of XML accepts it. -/
theorem C85_no_page_is_xml (env : ParserEnv) (templates : TemplateEnv) (iterate : Nat → List (Str × Str) → List (Str × Str)) (html : HtmlEnv)
    (fuel : Nat) (style title content page : Str) (hs : ∀ c ∈ style, c ≠ 0x3C ∧ c ≠ 0x3E)
    (h : articleHtml env templates iterate html fuel style title content = some (.ok page)) :
    b!"<?xml version=\"1.0\"" <+: page ∧ ¬ XmlBalanced page := by
  obtain ⟨rest, rfl⟩ : ∃ rest, page = htmlHeader style ++ rest := by
    rw [articleHtml] at h
    split at h
    · next text s _ =>
      rw [generateHtml] at h
      cases hb : expandString html s.tokenMap fuel text with
      | none => rw [hb] at h; cases h
      | some r =>
        rw [hb] at h
        cases r with
        | ok body =>
          have := Res.ok.inj (Option.some.inj h)
          exact ⟨b!"\n<h1>" ++ title ++ b!"</h1>\n" ++ body ++ htmlFooter, by rw [← this]; simp⟩
        | err => cases h
        | panic => cases h
        | fatal => cases h
    all_goals cases h
  refine ⟨⟨_, by rw [htmlHeader]; rfl⟩, ?_⟩
  have hl : xmlRead (none, [b!"meta", b!"head", b!"html"]) (b!"<" ++ (b!"link rel=\"stylesheet\" href=\"" ++ style ++ b!"\"") ++ b!">") =
      some (none, [b!"link", b!"meta", b!"head", b!"html"]) := by
    rw [xmlRead_tag]
    · have h1 : (b!"link rel=\"stylesheet\" href=\"" ++ style ++ b!"\"").getLast? = some 0x22 := by
        rw [List.getLast?_append]
        rfl
      have h2 : xmlName (b!"link rel=\"stylesheet\" href=\"" ++ style ++ b!"\"") = b!"link" := by
        simp [xmlName]
      rw [xmlTag, h1, h2]
      rfl
    · intro c hc
      simp only [List.mem_append] at hc
      rcases hc with (hc | hc) | hc
      · revert c; decide
      · exact hs c hc
      · revert c; decide
  have e : htmlHeader style ++ rest =
      b!"<?xml version=\"1.0\" encoding=\"UTF-8\"?>\n<html xmlns=\"http://www.w3.org/1999/xhtml\">\n<head>\n<meta charset=\"utf-8\">\n" ++
        ((b!"<" ++ (b!"link rel=\"stylesheet\" href=\"" ++ style ++ b!"\"") ++ b!">") ++
          (b!"\n</head>" ++ (b!"\n<body xmlns:epub=\"http://www.idpf.org/2007/ops\">\n" ++ rest))) := by
    simp only [htmlHeader, List.append_assoc]
    rfl
  unfold XmlBalanced
  rw [e, xmlRead_append, show xmlRead (none, []) b!"<?xml version=\"1.0\" encoding=\"UTF-8\"?>\n<html xmlns=\"http://www.w3.org/1999/xhtml\">\n<head>\n<meta charset=\"utf-8\">\n" =
    some (none, [b!"meta", b!"head", b!"html"]) by decide +kernel]
  show xmlRead _ _ ≠ _
  rw [xmlRead_append, hl]
  show xmlRead _ _ ≠ _
  rw [xmlRead_append, show xmlRead (none, [b!"link", b!"meta", b!"head", b!"html"]) b!"\n</head>" = none by decide +kernel]
  simp

theorem attributes_text {attributes : List Str} {a : Str} (h : Attributes attributes a) (ha : ∀ x ∈ attributes, (∀ c ∈ x, c ∉ b!"<>") ∧ x.getLast? ≠ some 0x2F) :
    (∀ c ∈ a, c ≠ 0x3C ∧ c ≠ 0x3E) ∧ a.getLast? ≠ some 0x2F ∧ (a = [] ∨ ∃ c r, a = c :: r ∧ White c) := by
  have hwhite : ∀ c, White c → c ≠ 0x3C ∧ c ≠ 0x3E ∧ c ≠ 0x2F := by
    rintro c (rfl | rfl | rfl) <;> decide
  induction h with
  | nil hw =>
    refine ⟨fun c hc => ⟨(hwhite c (hw c hc)).1, (hwhite c (hw c hc)).2.1⟩, fun hl => ?_, ?_⟩
    · exact (hwhite _ (hw _ (List.mem_of_getLast? hl))).2.2 rfl
    · rename_i w
      cases w with
      | nil => exact Or.inl rfl
      | cons c r => exact Or.inr ⟨c, r, rfl, hw c (by simp)⟩
  | cons hw hne h ih =>
    rename_i w x s xs
    obtain ⟨h1, h2, h3⟩ := ih fun y hy => ha y (by simp [hy])
    have hx := ha x (by simp)
    refine ⟨fun c hc => ?_, ?_, ?_⟩
    · simp only [List.mem_append] at hc
      rcases hc with (hc | hc) | hc
      · exact ⟨(hwhite c (hw c hc)).1, (hwhite c (hw c hc)).2.1⟩
      · have := hx.1 c hc
        exact ⟨fun e => this (by simp [e]), fun e => this (by simp [e])⟩
      · exact h1 c hc
    · intro hl
      rw [List.getLast?_append, List.getLast?_append] at hl
      cases hs : s.getLast? with
      | some y => rw [hs] at hl; exact h2 (by rw [hs]; exact hl)
      | none =>
        rw [hs] at hl
        cases hx' : x.getLast? with
        | some y => rw [hx'] at hl; exact hx.2 (by rw [hx']; exact hl)
        | none =>
          rw [hx'] at hl
          have hl : w.getLast? = some 0x2F := hl
          exact (hwhite _ (hw _ (List.mem_of_getLast? hl))).2.2 rfl
    · cases w with
      | nil => exact absurd rfl hne
      | cons c r => exact Or.inr ⟨c, r ++ x ++ s, rfl, hw c (by simp)⟩

theorem xmlName_eq {name a : Str} (hn : ∀ c ∈ name, ¬ White c) (ha : a = [] ∨ ∃ c r, a = c :: r ∧ White c) : xmlName (name ++ a) = name := by
  unfold xmlName
  have h1 : ∀ c ∈ name, (decide (c ≠ 0x20 ∧ c ≠ 0x0A ∧ c ≠ 0x09)) = true := by
    intro c hc
    have := hn c hc
    simp only [White, not_or] at this
    simpa using this
  rw [List.takeWhile_append_of_pos h1]
  rcases ha with rfl | ⟨c, r, rfl, hc⟩
  · simp
  · rw [List.takeWhile_cons_of_neg]
    · simp
    · rcases hc with rfl | rfl | rfl <;> decide

theorem xmlRead_written {es : List HtmlPart} {s : Str} (h : Written es s) : ∀ stack, WellNested stack es → (∀ e ∈ es, XmlPart e) →
    xmlRead (none, stack) s = some (none, []) := by
  induction h with
  | nil =>
    intro stack hn _
    cases hn
    rfl
  | space hc h ih =>
    intro stack hn hx
    rename_i c es s
    have : c ≠ 0x3C := by rcases hc with rfl | rfl | rfl <;> decide
    show List.foldl xmlStep (xmlStep (some (none, stack)) c) s = _
    rw [xmlStep, if_neg this]
    exact ih stack hn hx
  | text ht h ih =>
    intro stack hn hx
    cases hn with
    | text hn =>
      rw [xmlRead_append, xmlRead_outside stack _ ht]
      exact ih stack hn fun e he => hx e (by simp [he])
  | tag ha h ih =>
    intro stack hn hx
    rename_i name a attributes es s
    obtain ⟨hv, hne, hname, hat⟩ := hx (.tag name attributes) (by simp)
    obtain ⟨a1, a2, a3⟩ := attributes_text ha hat
    cases hn with
    | void hv' _ => exact absurd hv' hv
    | opening _ hn =>
      have ht : xmlTag (name ++ a) stack = some (name :: stack) := by
        obtain ⟨c, r, rfl⟩ := List.exists_cons_of_ne_nil hne
        have hc := (hname c (by simp)).2
        unfold xmlTag
        rw [xmlName_eq (fun c hc => (hname c hc).1) a3, if_neg (by rintro (e | e) <;> (obtain rfl := Option.some.inj e; exact hc (by decide))),
          if_neg (by intro e; obtain rfl := Option.some.inj e; exact hc (by decide)), if_neg]
        intro e
        rw [List.getLast?_append] at e
        cases hl : a.getLast? with
        | some y => rw [hl] at e; exact a2 (by rw [hl]; exact e)
        | none =>
          rw [hl] at e
          have e : (c :: r).getLast? = some 0x2F := e
          exact (hname _ (List.mem_of_getLast? e)).2 (by decide)
      rw [xmlRead_append, show b!"<" ++ name ++ a ++ b!">" = b!"<" ++ (name ++ a) ++ b!">" by simp, xmlRead_tag stack _ (by
        intro c hc
        rcases List.mem_append.mp hc with hc | hc
        · have := (hname c hc).2
          exact ⟨fun e => this (by simp [e]), fun e => this (by simp [e])⟩
        · exact a1 c hc), ht]
      exact ih _ hn fun e he => hx e (by simp [he])
  | close h ih =>
    intro stack hn hx
    rename_i name es s
    have hname := hx (.close name) (by simp)
    cases hn with
    | closing hn =>
      rename_i stack
      have ht : xmlTag (0x2F :: name) (name :: stack) = some stack := by
        have := xmlName_eq (name := name) (a := []) (fun c hc => (hname c hc).1) (Or.inl rfl)
        rw [List.append_nil] at this
        unfold xmlTag
        rw [if_neg (by simp), if_pos (show (0x2F :: name).head? = some 0x2F from rfl)]
        simp [this]
      rw [xmlRead_append, show b!"</" ++ name ++ b!">" = b!"<" ++ (0x2F :: name) ++ b!">" by simp, xmlRead_tag _ _ (by
        intro c hc
        rcases List.mem_cons.mp hc with rfl | hc
        · decide
        · have := (hname c hc).2
          exact ⟨fun e => this (by simp [e]), fun e => this (by simp [e])⟩), ht]
      exact ih _ hn fun e he => hx e (by simp [he])

/-- **C85** for the text of an article: all elements are closed in the right order, through any nesting of tokens, if the text has no pictures,
line breaks and other elements without closing tag (`XmlPart`); those are written as in HTML. What is missing: these elements and the head of
the page, for which it is false of the code. -/
theorem C85_text_is_balanced_partial (env : HtmlEnv) (tokens : List (Str × Token)) (content : Str) (parts : List HtmlPart)
    (hm : ∀ s, ∃ r, env.math s = .ok r) (h : Describes (picturesOf env) tokens [] content parts) (hx : ∀ e ∈ parts, XmlPart e) :
    ∃ steps, ∀ fuel, steps ≤ fuel → ∃ html, expandString env tokens fuel content = some (.ok html) ∧ XmlBalanced html := by
  obtain ⟨steps, hsteps⟩ := C57_elements_become_html_partial env tokens content parts hm h
  refine ⟨steps, fun fuel hf => ?_⟩
  obtain ⟨html, he, hw⟩ := hsteps fuel hf
  exact ⟨html, he, xmlRead_written hw [] (C57_html_is_well_nested _ tokens content parts h) hx⟩

-- there are such pages
example : articleHtml tokenizerEnv ⟨id, fun _ _ => .err⟩ (fun _ l => l) htmlEnv 60 b!"style.css" b!"T" b!"Some ''text''." = some (.ok
    b!"<?xml version=\"1.0\" encoding=\"UTF-8\"?>\n<html xmlns=\"http://www.w3.org/1999/xhtml\">\n<head>\n<meta charset=\"utf-8\">\n<link rel=\"stylesheet\" href=\"style.css\">\n</head>\n<body xmlns:epub=\"http://www.idpf.org/2007/ops\">\n\n<h1>T</h1>\nSome <i>text</i>.\n</body>\n</html>\n") := by
  decide +kernel

instance : DecidablePred XmlPart := fun e => by
  cases e <;> unfold XmlPart <;> try unfold White
  all_goals infer_instance

-- the last hypothesis can be met: the text of the example of C57 with a heading, a list in a list, a table and bold text
example : ∀ e ∈ exampleHtml, XmlPart e := by decide +kernel

-- the reader accepts documents with closed elements only
example : XmlBalanced b!"<?xml version=\"1.0\"?>\n<p class=\"a\">b<br/><i>c</i></p >" ∧ ¬ XmlBalanced b!"<p>b<br></p>" ∧ ¬ XmlBalanced b!"<p><b></p></b>" ∧
    ¬ XmlBalanced b!"<p>" := by
  unfold XmlBalanced
  decide +kernel

end Verif.Props
