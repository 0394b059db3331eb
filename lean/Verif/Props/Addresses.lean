import Verif.Spec.Addresses
import Verif.Props.Document

/-!
# C86: addresses of web links
-/

namespace Verif.Props
open Verif.Go Verif.Model Verif.Spec
open scoped List

theorem utf8_length (n : Nat) : (utf8 n).length ≤ 4 := by
  unfold utf8
  split
  · simp
  · split
    · simp
    · split <;> simp

/-- A reference is longer than what it stands for. -/
theorem reference_longer {name char : Str} (h : CharacterReference name char) : char.length < name.length + 2 := by
  cases h with
  | named h =>
    simp only [List.mem_cons, Prod.mk.injEq, List.not_mem_nil, or_false] at h
    rcases h with ⟨rfl, rfl⟩ | ⟨rfl, rfl⟩ | ⟨rfl, rfl⟩ | ⟨rfl, rfl⟩ | ⟨rfl, rfl⟩ <;> decide
  | @decimal digits hne hd =>
    match digits, hne with
    | [c], _ =>
      have hc := (hd c (by simp)).2
      have : decimalNumber [c] < 0x80 := by
        have : c.toNat ≤ 57 := hc
        simp only [decimalNumber, List.foldl_cons, List.foldl_nil]
        omega
      rw [utf8, if_pos this]
      simp
    | c :: d :: r, _ =>
      have := utf8_length (decimalNumber (c :: d :: r))
      simp only [List.length_append, List.length_cons]
      omega
  | @hex digits hne hd =>
    match digits, hne with
    | c :: r, _ =>
      have := utf8_length (hexNumber (c :: r))
      simp only [List.length_append, List.length_cons]
      omega

theorem attributeValue_length {raw value : Str} (h : AttributeValue raw value) :
    value.length ≤ raw.length ∧ (value.length = raw.length → ∀ c ∈ value, c ∉ b!"\"&<") := by
  induction h with
  | nil => simp
  | char hc _ ih =>
    refine ⟨by simpa using ih.1, fun e c hm => ?_⟩
    rcases List.mem_cons.mp hm with rfl | hm
    · exact hc
    · exact ih.2 (by simpa using e) c hm
  | reference hr _ ih =>
    have := reference_longer hr
    simp only [List.length_append, List.length_cons, List.length_nil]
    exact ⟨by omega, fun e => by omega⟩

theorem reference_no_quote {name char : Str} (h : CharacterReference name char) : (0x22 : Byte) ∉ name := by
  cases h with
  | named h =>
    simp only [List.mem_cons, Prod.mk.injEq, List.not_mem_nil, or_false] at h
    rcases h with ⟨rfl, _⟩ | ⟨rfl, _⟩ | ⟨rfl, _⟩ | ⟨rfl, _⟩ | ⟨rfl, _⟩ <;> decide
  | decimal hne hd =>
    intro hm
    rcases List.mem_append.mp hm with hm | hm
    · revert hm; decide
    · exact absurd (hd _ hm).1 (by decide)
  | hex hne hd =>
    intro hm
    rcases List.mem_append.mp hm with hm | hm
    · revert hm; decide
    · rcases hd _ hm with h | h | h <;> exact absurd h.1 (by decide)

theorem attributeValue_no_quote {raw value : Str} (h : AttributeValue raw value) : (0x22 : Byte) ∉ raw := by
  induction h with
  | nil => simp
  | char hc _ ih =>
    intro hm
    rcases List.mem_cons.mp hm with rfl | hm
    · exact hc (by decide)
    · exact ih hm
  | reference hr _ ih =>
    intro hm
    simp only [List.mem_append] at hm
    rcases hm with ((hm | hm) | hm) | hm
    · revert hm; decide
    · exact reference_no_quote hr hm
    · revert hm; decide
    · exact ih hm

theorem attributeValue_plain : ∀ {url : Str}, (∀ c ∈ url, c ∉ b!"\"&<") → AttributeValue url url
  | [], _ => .nil
  | _ :: _, h => .char (h _ (by simp)) (attributeValue_plain fun c hc => h c (by simp [hc]))

/-- A reader of the tag of a link reads the address exactly if there is no quotation mark, no `&` and no `<` in it. -/
theorem leadsTo_iff (url after : Str) : LeadsTo (b!"<a href=\"" ++ url ++ b!"\"" ++ after) url ↔ ∀ c ∈ url, c ∉ b!"\"&<" := by
  constructor
  · rintro ⟨raw, rest, e, hv⟩
    simp only [List.append_assoc] at e
    have e := List.append_cancel_left e
    obtain ⟨hle, heq⟩ := attributeValue_length hv
    refine heq (Nat.le_antisymm hle ?_)
    refine Nat.le_of_not_lt fun hlt => ?_
    have h1 : (url ++ (b!"\"" ++ after))[url.length]? = some 0x22 := by simp
    rw [e, List.getElem?_append_left hlt] at h1
    exact attributeValue_no_quote hv (List.mem_of_getElem? h1)
  · intro h
    exact ⟨url, after, rfl, attributeValue_plain h⟩

theorem infix_flatMap {α : Type} {l : List α} {x : α} (hx : x ∈ l) (f : α → Str) : f x <:+: l.flatMap f := by
  obtain ⟨a, b, rfl⟩ := List.append_of_mem hx
  exact ⟨a.flatMap f, b.flatMap f, by simp⟩

theorem infix_join_of_mem {lines : List Str} {x : Str} (hx : x ∈ lines) : x <:+: join b!"\n" lines := by
  induction lines with
  | nil => cases hx
  | cons y ys ih =>
    cases ys with
    | nil =>
      obtain rfl : x = y := by simpa using hx
      exact ⟨[], [], by simp [join]⟩
    | cons z zs =>
      rw [join]
      rcases List.mem_cons.mp hx with rfl | hm
      · exact ⟨[], _, by simp; rfl⟩
      · exact (ih hm).trans ⟨y ++ b!"\n", [], by simp⟩

theorem infix_line (pic : ArticlePictures) {l : RichLine} {r : Spec.Run} {url label : Str} (hr : r ∈ l) (hp : Inline.web url label ∈ r.parts) :
    Inline.html pic (.web url label) <:+: lineHtml pic l := by
  refine List.IsInfix.trans ?_ (infix_flatMap hr (Spec.Run.html pic))
  unfold Spec.Run.html
  split
  · exact infix_flatMap hp _
  · exact (infix_flatMap hp (Inline.html pic)).trans ⟨_, _, rfl⟩

theorem infix_document (pic : ArticlePictures) {doc : List (Nat × DocBlock)} {b : Nat × DocBlock} {x : Str} (hb : b ∈ doc)
    (hx : ∃ line ∈ b.2.html pic, x <:+: line) : ∀ after, x <:+: join b!"\n" (documentHtml pic after doc) := by
  obtain ⟨line, hl, hx⟩ := hx
  have : ∀ after, line ∈ documentHtml pic after doc := by
    clear hx
    induction doc with
    | nil => cases hb
    | cons d ds ih =>
      intro after
      rw [documentHtml]
      rcases List.mem_cons.mp hb with rfl | hm
      · simp [hl]
      · exact List.mem_append_right _ (ih hm _)
  exact fun after => hx.trans (infix_join_of_mem (this after))

mutual
theorem infix_treeList {α : Type} (h : α → Str) : ∀ (l : TreeList α), ∀ x ∈ l.texts, h x <:+: l.html h
  | .mk m items, x, hx => by
    rw [TreeList.texts] at hx
    obtain ⟨line, hl, hi⟩ := infix_treeItems h items x hx
    exact (hi.trans (infix_join_of_mem hl)).trans ⟨m.listOpen ++ b!"\n", b!"\n" ++ m.listClose, by simp [TreeList.html]⟩
theorem infix_treeItems {α : Type} (h : α → Str) : ∀ (items : List (TreeItem α)), ∀ x ∈ treeItemsTexts items, ∃ line ∈ treeItemsHtml h items, h x <:+: line
  | [], x, hx => by cases hx
  | .mk c text subLists :: rest, x, hx => by
    rw [treeItemsTexts] at hx
    rw [treeItemsHtml]
    simp only [List.mem_cons, List.mem_append] at hx
    have wrap : ∀ t : Str, t ∈ h text :: treesHtml h subLists → t <:+: c.itemOpen ++ b!"\n" ++ join b!"\n" (h text :: treesHtml h subLists) ++ b!"\n" ++ c.itemClose :=
      fun t ht => (infix_join_of_mem ht).trans ⟨c.itemOpen ++ b!"\n", b!"\n" ++ c.itemClose, by simp⟩
    rcases hx with rfl | hx | hx
    · exact ⟨_, .head _, wrap _ (.head _)⟩
    · obtain ⟨line, hl, hi⟩ := infix_trees h subLists x hx
      exact ⟨_, .head _, hi.trans (wrap _ (.tail _ hl))⟩
    · obtain ⟨line, hl, hi⟩ := infix_treeItems h rest x hx
      exact ⟨line, .tail _ hl, hi⟩
theorem infix_trees {α : Type} (h : α → Str) : ∀ (lists : List (TreeList α)), ∀ x ∈ treesTexts lists, ∃ line ∈ treesHtml h lists, h x <:+: line
  | [], x, hx => by cases hx
  | l :: rest, x, hx => by
    rw [treesTexts] at hx
    rw [treesHtml]
    rcases List.mem_append.mp hx with hx | hx
    · exact ⟨_, .head _, infix_treeList h l x hx⟩
    · obtain ⟨line, hl, hi⟩ := infix_trees h rest x hx
      exact ⟨line, .tail _ hl, hi⟩
end

theorem infix_table {α : Type} (h : α → Str) (t : DocTable α) (x : α) (hx : x ∈ t.texts) : h x <:+: t.html h := by
  unfold DocTable.texts at hx
  unfold DocTable.html
  rcases List.mem_append.mp hx with hx | hx
  · cases hc : t.caption with
    | none => rw [hc] at hx; cases hx
    | some c =>
      rw [hc] at hx
      obtain rfl : x = c.2 := by simpa using hx
      exact ⟨_, _, rfl⟩
  · simp only [List.mem_flatMap, List.mem_filterMap] at hx
    obtain ⟨r, hr, l, hl, c, hc, hx⟩ := hx
    have h1 : h x <:+: DocCell.html h l.heading c := by
      unfold DocCell.html
      rw [hx]
      exact ⟨_, _, rfl⟩
    have h2 : DocCell.html h l.heading c <:+: DocRow.html h r := by
      unfold DocRow.html
      exact (infix_join_of_mem (List.mem_flatMap.mpr ⟨l, hl, List.mem_map_of_mem hc⟩)).trans ⟨_, _, rfl⟩
    have h3 : DocRow.html h r <:+: join b!"\n" (t.rows.map (DocRow.html h)) := infix_join_of_mem (List.mem_map_of_mem hr)
    exact ((h1.trans h2).trans h3).trans ((List.suffix_append _ _).isInfix.trans ((List.prefix_append _ _).isInfix.trans
      ((List.prefix_append _ _).isInfix.trans (List.prefix_append _ _).isInfix)))

theorem infix_block (pic : ArticlePictures) (b : DocBlock) (l : RichLine) (hl : l ∈ b.texts) {r : Spec.Run} {url label : Str} (hr : r ∈ l)
    (hp : Inline.web url label ∈ r.parts) : ∃ line ∈ b.html pic, lineHtml pic l <:+: line := by
  cases b with
  | references attrs space entries =>
    obtain rfl : l = referencesLine attrs space entries := by simpa [DocBlock.texts] using hl
    simp only [referencesLine, List.mem_singleton] at hr
    subst hr
    simp at hp
  | heading level x y title =>
    obtain rfl : l = title := by simpa [DocBlock.texts] using hl
    exact ⟨_, List.mem_singleton.mpr rfl, ⟨b!"<h" ++ decimal level ++ b!">", b!"</h" ++ decimal level ++ b!">", by simp⟩⟩
  | paragraph lines => exact ⟨_, List.mem_map_of_mem hl, List.infix_refl _⟩
  | list t =>
    obtain ⟨x, hx, rfl⟩ := List.mem_map.mp hl
    refine ⟨_, List.mem_singleton.mpr rfl, List.IsInfix.trans ?_ (infix_treeList _ t x hx)⟩
    exact ⟨spaces x.1, [], by simp⟩
  | table t => exact ⟨_, List.mem_singleton.mpr rfl, infix_table _ t l hl⟩
  | _ => cases hl

/-- **C86**, for links in paragraphs, headings, lists, tables and lists of references of articles as in C59: the link with its text is in the
page, and a reader finds the address that is written in the article if and only if the address has no quotation mark, no `&` and no `<`. -/
theorem C86_addresses_of_links_partial (env : ParserEnv) (hp : PlainPrefixes env) (templates : TemplateEnv)
    (iterate : Nat → List (Str × Str) → List (Str × Str)) (html : HtmlEnv) (style title : Str)
    (doc : List (Nat × DocBlock)) (h : DocOk env doc) (hm : ∀ b ∈ doc, b.2.AllLines (Rendered html))
    (url label : Str) (b : Nat × DocBlock) (hb : b ∈ doc) (hw : b.2.HasWebLink url label) :
    ∃ steps before link after, (∀ fuel, steps ≤ fuel →
        articleHtml env templates iterate html fuel style title (join b!"\n" (documentSource doc)) = some (.ok (before ++ link ++ after))) ∧
      (∃ tag, link = tag ++ b!">" ++ label ++ b!"</a>") ∧
      (LeadsTo link url ↔ ∀ c ∈ url, c ∉ b!"\"&<") := by
  obtain ⟨steps, hs⟩ := C59_articles_become_html_partial env hp templates iterate html style title doc h hm
  generalize (⟨ArticleImage.html env (imageSource html), formulaPicture html⟩ : ArticlePictures) = pic at hs
  have hi : Inline.html pic (.web url label) <:+: join b!"\n" (documentHtml pic false doc) := by
    refine infix_document pic hb ?_ false
    rcases hw with ⟨l, hl, r, hr, hp⟩ | ⟨attributes, space, entries, hb', e, he, r, hr, hp⟩
    · obtain ⟨line, h1, h2⟩ := infix_block pic b.2 l hl hr hp
      exact ⟨line, h1, (infix_line pic hr hp).trans h2⟩
    · rw [hb']
      refine ⟨_, List.mem_map_of_mem he, ?_⟩
      have : NotePart.html (.web url label) <:+: noteHtml e.2 := by
        refine List.IsInfix.trans ?_ (infix_flatMap hr NoteRun.html)
        unfold NoteRun.html
        split
        · exact infix_flatMap hp _
        · exact (infix_flatMap hp NotePart.html).trans ⟨_, _, rfl⟩
      refine List.IsInfix.trans this ?_
      unfold entryHtml
      exact ⟨_, _, rfl⟩
  obtain ⟨x, y, e⟩ := hi
  refine ⟨steps, htmlHeader style ++ b!"\n<h1>" ++ title ++ b!"</h1>\n" ++ x, Inline.html pic (.web url label), y ++ htmlFooter, fun fuel hf => ?_,
    ⟨b!"<a href=\"" ++ url ++ b!"\"", by simp [Inline.html]⟩, ?_⟩
  · rw [hs fuel hf, ← e]
    simp only [List.append_assoc]
  · have := leadsTo_iff url (b!">" ++ label ++ b!"</a>")
    simpa [Inline.html] using this

example : ∃ b ∈ exampleArticle, b.2.HasWebLink b!"https://a.b/c_d" b!"web page" := by
  refine ⟨exampleArticle[1], List.getElem_mem _, ?_⟩
  exact .inl ⟨_, .head _, _, .head _, .head _⟩

/-- **C86** is false of the code: with two parameters in the address, the page contains a bare `&`, and no reader of XML finds the
address. -/
theorem C86_ampersands_are_not_escaped :
    articleBody tokenizerEnv htmlEnv 60 b!"see [https://a.b/?x=1&y=2 this page]" = some (.ok b!"see <a href=\"https://a.b/?x=1&y=2\">this page</a>") ∧
      ∀ after, ¬ LeadsTo (b!"<a href=\"https://a.b/?x=1&y=2\"" ++ after) b!"https://a.b/?x=1&y=2" := by
  refine ⟨by decide +kernel, fun after h => ?_⟩
  have := (leadsTo_iff b!"https://a.b/?x=1&y=2" after).mp h 0x26 (by decide)
  exact this (by decide)

/-- **C86** is false of the code, for readers of HTML as well: a quotation mark in an address ends the attribute. -/
theorem C86_quotation_mark_ends_the_address :
    articleBody tokenizerEnv htmlEnv 60 b!"see [https://a.b/\"c\" this page]" = some (.ok b!"see <a href=\"https://a.b/\"c\"\">this page</a>") ∧
      LeadsTo b!"<a href=\"https://a.b/\"c\"\">this page</a>" b!"https://a.b/" := by
  refine ⟨by decide +kernel, b!"https://a.b/", b!"c\"\">this page</a>", rfl, attributeValue_plain (by decide)⟩

end Verif.Props
