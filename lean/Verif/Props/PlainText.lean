import Verif.Lemmas.PlainText
import Verif.Props.EvaluateTemplates

/-!
# C47: text without markup passes unchanged
-/

namespace Verif.Props
open Verif.Go Verif.Model Verif.Spec Verif.Lemmas
open scoped List

theorem not_tokenLine {l : Str} (h : ¬ b!"$$" <:+: l) : isTokenLine l = false := by
  rw [← Bool.not_eq_true]
  intro ht
  refine h (matchToken_dd ?_).isInfix
  have : matchToken l = some [] := by simpa [isTokenLine] using ht
  rw [this]; rfl

/-- The paragraphs as blocks. -/
def asBlocks (doc : List (Nat × List Str)) : List (Nat × TextBlock) := doc.map fun p => (p.1, .paragraph p.2)

theorem blockLines_asBlocks (doc : List (Nat × List Str)) : blockLines (asBlocks doc) = paragraphsLines doc := by
  induction doc with
  | nil => rfl
  | cons p doc ih =>
    show List.replicate p.1 [] ++ p.2 ++ blockLines (asBlocks doc) = _
    rw [ih]
    simp [paragraphsLines]

theorem separated_asBlocks (doc : List (Nat × List Str)) : ∀ after, (∀ p ∈ doc, 0 < p.1) → SeparatedFrom after (asBlocks doc) := by
  induction doc with
  | nil => intros; trivial
  | cons p doc ih =>
    intro after h
    exact ⟨fun _ => h p (by simp), ih _ (fun q hq => h q (by simp [hq]))⟩

theorem markedLines_asBlocks (doc : List (Nat × List Str)) :
    markedLines true (asBlocks doc) = doc.flatMap fun p => markerParagraph :: p.2 := by
  induction doc with
  | nil => rfl
  | cons p doc ih =>
    show [markerParagraph] ++ p.2 ++ markedLines true (asBlocks doc) = _
    rw [ih]
    simp

theorem join_paragraphs (br : Str) (first : List Str) (rest : List (List Str)) (hf : first ≠ []) (hr : ∀ p ∈ rest, p ≠ []) :
    join b!"\n" (first ++ rest.flatMap fun p => br :: p) = join (b!"\n" ++ br ++ b!"\n") (join b!"\n" first :: rest.map (join b!"\n")) := by
  induction rest generalizing first with
  | nil => simp [join]
  | cons p rest ih =>
    have ih := ih p (hr p (by simp)) (fun q hq => hr q (by simp [hq]))
    rw [List.map_cons, join_cons_of_ne_nil (p := join b!"\n" first) (l := join b!"\n" p :: rest.map (join b!"\n")) (by simp), ← ih,
      List.flatMap_cons, join_append hf (by simp), List.cons_append, join_cons_of_ne_nil (p := br) (by simp [hr p])]
    simp

theorem paragraphLines_calm (ls : List Str) (h : ∀ l ∈ ls, l ≠ [] ∧ isTokenLine l = false) : ∀ before ignore, paragraphLines ls before ignore false = ls := by
  induction ls with
  | nil => intros; rfl
  | cons l ls ih =>
    intro before ignore
    obtain ⟨h1, h2⟩ := h l (by simp)
    have ih := ih (fun x hx => h x (by simp [hx]))
    rw [paragraphLines]
    cases ignore <;> simp [h1, h2, ih]

theorem expandMarker_join (ls : List Str) : expandMarker (join b!"\n" ls) = join b!"\n" (ls.map expandMarker) := by
  unfold expandMarker
  simp only
  have : ∀ (old new : Str), old ≠ [] → (0x0A : Byte) ∉ old → ∀ ls : List Str, replaceAll (join b!"\n" ls) old new =
      join b!"\n" (ls.map fun l => replaceAll l old new) := fun old new h0 hc ls => replaceAll_join new h0 hc ls
  rw [this _ _ (by decide) (by decide), this _ _ (by decide) (by decide), this _ _ (by decide) (by decide), this _ _ (by decide) (by decide),
    this _ _ (by decide) (by decide)]
  simp only [List.map_map, Function.comp_def]

theorem expandMarker_calm {l : Str} (h : ¬ b!"$$" <:+: l) : expandMarker l = l := by
  have : ∀ (old new : Str), b!"$$" <:+: old → replaceAll l old new = l := fun old new ho => replaceAll_of_not_infix (fun hi => h (ho.trans hi))
  unfold expandMarker
  simp only
  rw [this markerBoldOpen _ ⟨[], _, rfl⟩, this markerBoldClose _ ⟨[], _, rfl⟩, this markerItalicOpen _ ⟨[], _, rfl⟩,
    this markerItalicClose _ ⟨[], _, rfl⟩, this markerParagraph _ ⟨[], _, rfl⟩]

theorem placeholderLoop_done (env : TemplateEnv) (content : Str) (h : ¬ b!"{{" <:+: content) (st : TemplateState) : ∀ (fuel i : Nat),
    content.length < fuel + i → 0 < fuel → placeholderLoop env fuel content i st = some (.ok (content, st)) := by
  intro fuel
  induction fuel with
  | zero => intro i _ h; omega
  | succ fuel ih =>
    intro i hf _
    rw [placeholderLoop]
    split
    · rw [if_neg, ih (i + 1) (by omega) (by omega)]
      intro he
      apply h
      rw [← he]
      exact (List.take_prefix _ _).isInfix.trans (List.drop_suffix _ _).isInfix
    · rfl

/-- C47: A text of any number of paragraphs, with any number of empty lines between them, whose lines have no markup, is
shown in the HTML file with the same lines in the same order, with two line breaks between paragraphs. This is the whole way from the wikitext to the file, for all configurations, all services (also ones that
always fail), all titles and style files. -/
theorem C47_text_without_markup_is_unchanged (env : ParserEnv) (templates : TemplateEnv)
    (iterate : Nat → List (Str × Str) → List (Str × Str)) (html : HtmlEnv) (style title : Str)
    (doc : List (Nat × List Str)) (last : Nat) (h : OrdinaryText doc) :
    ∃ steps, ∀ fuel, steps ≤ fuel →
      articleHtml env templates iterate html fuel style title (join b!"\n" (paragraphsLines doc ++ List.replicate last [])) =
        some (.ok (htmlHeader style ++ b!"\n<h1>" ++ title ++ b!"</h1>\n" ++
          join b!"\n<br><br>\n" (doc.map fun p => join b!"\n" p.2) ++ htmlFooter)) := by
  obtain ⟨hne, hp, hsep⟩ := h
  obtain ⟨p, rest, rfl⟩ := List.exists_cons_of_ne_nil hne
  let ls := paragraphsLines (p :: rest) ++ List.replicate last []
  let content := join b!"\n" ls
  let marked := p.2 ++ rest.flatMap fun p => markerParagraph :: p.2
  let text := join b!"\n" marked
  have hord : ∀ l ∈ ls, l = [] ∨ OrdinaryLine l := by
    intro l hl
    rcases List.mem_append.mp hl with hl | hl
    · rw [paragraphsLines, List.mem_flatMap] at hl
      obtain ⟨q, hq, hl⟩ := hl
      rcases List.mem_append.mp hl with hl | hl
      · exact Or.inl (List.eq_of_mem_replicate hl)
      · exact Or.inr ((hp q hq).2 l hl)
    · exact Or.inl (List.eq_of_mem_replicate hl)
  have hmark : ∀ l ∈ marked, l = markerParagraph ∨ OrdinaryLine l := by
    intro l hl
    rcases List.mem_append.mp hl with hl | hl
    · exact Or.inr ((hp p (by simp)).2 l hl)
    · rw [List.mem_flatMap] at hl
      obtain ⟨q, hq, hl⟩ := hl
      rcases List.mem_cons.mp hl with hl | hl
      · exact Or.inl hl
      · exact Or.inr ((hp q (by simp [hq])).2 l hl)
  have hcalm : ∀ l ∈ ls, CalmLine l := by
    intro l hl
    rcases hord l hl with rfl | h
    · exact calm_nil
    · exact OrdinaryLine.calm h
  have hcalm' : ∀ l ∈ marked, CalmLine l := by
    intro l hl
    rcases hmark l hl with rfl | h
    · exact calm_marker
    · exact OrdinaryLine.calm h
  have hlne : ls ≠ [] := by
    intro he
    have := (List.append_eq_nil_iff.mp he).1
    simp [paragraphsLines, (hp p (by simp)).1] at this
  have hmne : marked ≠ [] := by simp [marked, (hp p (by simp)).1]
  -- cleaning
  have hclean : ∀ fuel, content.length < fuel → cleanText env fuel content = some (.ok content) := fun fuel hf =>
    cleanText_calm env hlne hcalm (fun l hl => by
      rcases hord l hl with rfl | h
      · rfl
      · exact h.trimmed) (fun l hl => by
      rcases hord l hl with rfl | h
      · simp
      · exact h.noSwitch) fuel hf
  -- templates
  have hnt : ¬ b!"{{" <:+: content := not_infix_lines (by simp) (by decide) ls (fun l hl => (hcalm l hl).noTemplate)
  have hnp : contains content templatePlaceholderPrefix = false := by
    rw [contains_eq_false_iff]
    intro hi
    refine not_infix_lines (p := b!"$$") (by simp) (by decide) ls ?_ (List.IsInfix.trans ⟨[], b!"TEMPLATE_PLACEHOLDER_", rfl⟩ hi)
    intro l hl
    rcases hord l hl with rfl | h
    · simp
    · exact h.noInternal
  have htemp : ∀ fuel, content.length < fuel → evaluateTemplates templates iterate fuel content = some (.ok (content, [])) := by
    intro fuel hf
    obtain ⟨f, rfl⟩ := Nat.exists_eq_add_of_le' (show 1 ≤ fuel by omega)
    rw [evaluateTemplates, placeholderLoop_done templates content hnt _ (f + 1) 0 (by omega) (by omega)]
    simp only [resolvePlaceholders, hnp, Bool.false_eq_true, if_false, Option.map_some]
  -- paragraphs
  have hpar : parseParagraphs content = text := by
    have := C54_paragraphs (asBlocks (p :: rest)) last (by
      intro b hb
      obtain ⟨q, hq, rfl⟩ := List.mem_map.mp hb
      refine ⟨(hp q hq).1, fun l hl => ?_⟩
      have := (hp q hq).2 l hl
      exact ⟨this.notEmpty, (not_elementLine_iff _).mp (not_tokenLine this.noInternal), this.oneLine⟩) ⟨by simp, separated_asBlocks rest _ hsep⟩ (by
      rw [blockLines_asBlocks]; exact hlne)
    rw [blockLines_asBlocks] at this
    refine this.trans ?_
    show join b!"\n" ([] ++ p.2 ++ markedLines true (asBlocks rest)) = _
    rw [markedLines_asBlocks]
    rfl
  have hpar' : parseParagraphs text = text := by
    rw [parseParagraphs, split_join_singleton hmne (fun l hl => (hcalm' l hl).oneLine), paragraphLines_calm]
    intro l hl
    rcases hmark l hl with rfl | h
    · exact ⟨by decide, by decide +kernel⟩
    · exact ⟨h.notEmpty, not_tokenLine h.noInternal⟩
  have htok : ∀ fuel, content.length + text.length + 4 < fuel → tokenizeContent env fuel content TokState.initial = some (.ok (text, TokState.initial)) := by
    intro fuel hf
    obtain ⟨f, rfl⟩ := Nat.exists_eq_add_of_le' (show 2 ≤ fuel by omega)
    rw [tokenizeContent, tokenizePass_calm env _ hlne hcalm (f + 1) (by show content.length + 1 < _; omega), pure_bind, hpar]
    split
    · rfl
    · rw [tokenizeContent, tokenizePass_calm env _ hmne hcalm' f (by show text.length + 1 < _; omega), pure_bind, hpar', if_pos rfl]
      rfl
  -- HTML
  have hexp : expandMarker text = join b!"\n<br><br>\n" ((p :: rest).map fun p => join b!"\n" p.2) := by
    rw [expandMarker_join, List.map_append, List.map_flatMap]
    have hcon : ∀ q ∈ p :: rest, q.2.map expandMarker = q.2 := by
      intro q hq
      exact (List.map_congr_left (g := id) (fun l hl => expandMarker_calm ((hp q hq).2 l hl).noInternal)).trans (List.map_id _)
    have hflat : (rest.flatMap fun q => (markerParagraph :: q.2).map expandMarker) = (rest.map Prod.snd).flatMap fun q => b!"<br><br>" :: q := by
      rw [List.flatMap_map]
      refine List.flatMap_congr fun q hq => ?_
      rw [List.map_cons, hcon q (by simp [hq]), show expandMarker markerParagraph = b!"<br><br>" by decide +kernel]
    rw [hcon p (by simp), hflat, join_paragraphs _ _ _ (hp p (by simp)).1]
    · simp [Function.comp_def]
    · intro q hq
      obtain ⟨q', hq', rfl⟩ := List.mem_map.mp hq
      exact (hp q' (by simp [hq'])).1
  have hnotok : hasToken (expandMarker text) = false := by
    refine hasToken_of_not_dd ?_
    rw [expandMarker_join]
    refine not_infix_lines (by simp) (by decide) _ ?_
    intro l hl
    obtain ⟨l', hl', rfl⟩ := List.mem_map.mp hl
    rcases hmark l' hl' with rfl | h
    · rw [← contains_eq_false_iff]; decide +kernel
    · rw [expandMarker_calm h.noInternal]; exact h.noInternal
  refine ⟨content.length + text.length + 5, fun fuel hf => ?_⟩
  show articleHtml env templates iterate html fuel style title content = _
  have htk : tokenizeArticle env templates iterate fuel content = some (.ok (text, TokState.initial)) := by
    rw [tokenizeArticle, hclean fuel (by omega)]
    simp only [htemp fuel (by omega), hclean fuel (by omega), htok fuel (by omega)]
  rw [articleHtml, htk]
  simp only
  obtain ⟨f, rfl⟩ := Nat.exists_eq_add_of_le' (show 1 ≤ fuel by omega)
  rw [generateHtml, expandString, hnotok, if_neg (by simp), hexp]
  rfl

/-! ### Examples -/

theorem noTag_of {l : Str} (h : ∀ c ∈ b!"!mMnNrRgGiI", ¬ [0x3C, c] <:+: l ∧ ¬ [0x3C, 0x2F, c] <:+: l) : TagFree l :=
  ⟨fun c hc => (h c hc).1, fun c hc => (h c hc).2⟩

/-- The hypotheses of the theorem hold for a text with characters that are markup in other places. -/
example : OrdinaryText [(0, [b!"Costs: 5 < 7 & {a} = b's |x|", b!"- \"$1\"<br /> #2 * 3<sup>4</sup> -->", b!"=b}} ]]"]), (2, [b!"End."])] := by
  refine ⟨by simp, ?_, by simp⟩
  intro p hp
  simp only [List.mem_cons, List.not_mem_nil, or_false] at hp
  have hl : ∀ l ∈ [b!"Costs: 5 < 7 & {a} = b's |x|", b!"- \"$1\"<br /> #2 * 3<sup>4</sup> -->", b!"=b}} ]]", b!"End."], OrdinaryLine l := by
    intro l hl
    simp only [List.mem_cons, List.not_mem_nil, or_false] at hl
    rcases hl with rfl | rfl | rfl | rfl <;>
    · refine ⟨by decide, by decide, by decide +kernel, by simp, by decide +kernel, by decide, by decide, by decide +kernel, noTag_of ?_,
        by decide +kernel, by decide +kernel, by decide +kernel⟩
      decide +kernel
  rcases hp with rfl | rfl
  · exact ⟨by simp, fun l h => hl l (by simp only [List.mem_cons, List.not_mem_nil, or_false] at h ⊢; tauto)⟩
  · exact ⟨by simp, fun l h => hl l (by simp only [List.mem_cons, List.not_mem_nil, or_false] at h ⊢; tauto)⟩

end Verif.Props
