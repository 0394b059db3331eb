import Verif.Lemmas.Halts
import Verif.Lemmas.RefTags
import Verif.Lemmas.Formatting
import Verif.Model.Tokenize

/-!
# Termination of the tokenizer: the steps
-/

namespace Verif.Lemmas
open Verif.Go Verif.Model Verif.Spec
open scoped List

variable {rec : Nat → Rec} {M : Nat ×ₗ Nat}

theorem closeLoop_ge {ic : Bool} {o c : Str} (t : Str) : ∀ {skip i k j : Nat}, closeLoop ic o c t skip i k = some j → i ≤ j := by
  induction t with
  | nil => intro skip i k j h; rw [closeLoop] at h; cases h
  | cons x t ih =>
    intro skip i k j h
    cases skip with
    | succ skip => rw [closeLoop] at h; have := ih h; omega
    | zero =>
      rw [closeLoop] at h
      split at h
      · have := ih h; omega
      · split at h
        · split at h
          · cases h; omega
          · have := ih h; omega
        · have := ih h; omega

theorem findClose_ge {content o c : Str} {i j : Nat} (h : findClose content i o c = some j) : i ≤ j := closeLoop_ge _ h
theorem findCloseIgnoreCase_ge {content o c : Str} {i j : Nat} (h : findCloseIgnoreCase content i o c = some j) : i ≤ j := closeLoop_ge _ h

/-- A tag begins at the position. -/
theorem tag_at {content y : Str} {i n : Nat} (h : equalsIgnoreCase ((content.drop i).take (n + 1)) (0x3C :: y) = true) : content[i]? = some 0x3C := by
  unfold equalsIgnoreCase at h
  rw [beq_iff_eq] at h
  rw [← List.head?_drop]
  cases hd : content.drop i with
  | nil => rw [hd] at h; cases h
  | cons c t =>
    rw [hd, List.take_succ_cons, List.map_cons, List.map_cons, List.cons.injEq] at h
    rw [lower_eq_lt (h.1.trans (by decide))]
    rfl

theorem bare_nil : Bare [] := ⟨rfl, rfl⟩

/-! ### nowiki -/

theorem nowikiLoop_halts (k : Nat) : ∀ (content : Str), lts content = k → ∀ (d i : Nat), content.length - i = d →
    Halts (fun _ m => nowikiLoop m content i) (Step content) := by
  induction k using Nat.strongRecOn with
  | _ k ihk =>
    intro content hk d
    induction d with
    | zero =>
      intro i hd
      refine Halts.succ ?_
      simp only [nowikiLoop]
      exact Halts.ite (fun h => absurd h (by omega)) fun _ => Halts.pure (.refl _)
    | succ d ihd =>
      intro i hd
      refine Halts.succ ?_
      simp only [nowikiLoop]
      refine Halts.ite (fun _ => Halts.ite (fun ht => ?_) fun _ => ihd _ (by omega)) fun _ => Halts.pure (.refl _)
      cases hc : findCloseIgnoreCase content (i + 8) b!"<nowiki>" b!"</nowiki>" with
      | none => exact Halts.panic
      | some endIndex =>
        refine Halts.bind (Halts.getToken (by decide)) fun key hkey => ?_
        refine Halts.bind (Halts.setRawToken (P := fun _ => True) _ _ trivial) fun _ _ => ?_
        have hge := findCloseIgnoreCase_ge hc
        have hlt : lts (content.take i ++ key ++ content.drop (endIndex + 9)) < lts content := lts_replace hkey (by omega) (tag_at ht)
        refine (ihk _ (by omega) _ rfl _ _ rfl).mono fun r hr => ?_
        exact (Step.of_lts hlt).trans hr

theorem parseNowiki_halts (content : Str) : Halts (fun _ m => parseNowiki m content) (Step content) := nowikiLoop_halts _ content rfl _ 0 rfl

/-! ### Bold and italic text -/

/-- Each group of items has one for apostrophes. -/
def Anchored (items : List MarkItem) : Prop := items ≠ [] → ∃ x ∈ items, x.length ≠ 0

theorem anchored_append {a b : List MarkItem} (hb : ∃ x ∈ b, x.length ≠ 0) : Anchored (a ++ b) := by
  obtain ⟨x, hx, h⟩ := hb
  exact fun _ => ⟨x, List.mem_append_right _ hx, h⟩

theorem tokenize_anchored (content : Str) (repair : Bool) (steps : Nat) : ∀ (index : Nat) (stack : List MarkItem) (b i : Bool)
    (result : List MarkItem), Anchored stack → tokenizeBoldAndItalic content repair steps index stack b i = some result → Anchored result := by
  induction steps with
  | zero => intro _ _ _ _ _ _ h; simp [tokenizeBoldAndItalic] at h
  | succ steps ih =>
    intro index stack b i result hs h
    have hitalic : ∀ c, ∃ x ∈ italicItems index i c, x.length ≠ 0 := by
      intro c; cases c <;> simp [italicItems]
    have hbold : ∀ c, ∃ x ∈ boldItems index b c, x.length ≠ 0 := by
      intro c; cases c <;> simp [boldItems]
    rw [tokenizeBoldAndItalic] at h
    simp only at h
    split at h
    · split at h
      · rename_i r hr
        cases h
        split at hr
        · exact ih _ _ _ _ _ (anchored_append (hitalic _)) hr
        · cases hr
      · split at h
        · split at h
          · cases h
          · exact ih _ _ _ _ _ (anchored_append (hbold _)) h
        · split at h
          · cases h
          · split at h
            · cases h
            · split at h
              · cases h; exact hs
              · exact ih _ _ _ _ _ hs h
    · split at h
      · cases h; exact hs
      · cases h

theorem marker_bare (t : MarkType) : Bare t.marker := by cases t <;> decide

theorem rendered_le (parts : List FormatPart) : lts (renderedText parts) ≤ lts (originalText parts) ∧ wt (renderedText parts) ≤ wt (originalText parts) := by
  induction parts with
  | nil => exact ⟨Nat.le_refl _, Nat.le_refl _⟩
  | cons p ps ih =>
    have hr : renderedText (p :: ps) = p.rendered ++ renderedText ps := by simp [renderedText]
    rw [hr, originalText_cons]
    simp only [lts_append, wt_append]
    cases p with
    | text t => simp only [FormatPart.rendered, FormatPart.original]; omega
    | mark t src =>
      have := marker_bare t
      simp only [FormatPart.rendered, FormatPart.original, this.1, this.2]; omega

theorem rendered_lt (parts : List FormatPart) (hw : ∀ p ∈ parts, p.WellFormed) (h : ∃ t src, FormatPart.mark t src ∈ parts ∧ src ≠ []) :
    wt (renderedText parts) < wt (originalText parts) := by
  obtain ⟨t, src, hm, hn⟩ := h
  obtain ⟨a, b, rfl⟩ := List.append_of_mem hm
  have h1 := rendered_le a
  have h2 := rendered_le b
  have h3 : wt src ≠ 0 := by
    have := hw _ hm
    cases t <;> rcases this with rfl | rfl <;> first | decide | exact absurd rfl hn
  have e1 : renderedText (.mark t src :: b) = t.marker ++ renderedText b := by simp [renderedText, FormatPart.rendered]
  have e2 : originalText (.mark t src :: b) = src ++ originalText b := by simp [originalText, FormatPart.original]
  rw [renderedText_append, originalText_append, e1, e2]
  simp only [wt_append, (marker_bare t).2]
  omega

theorem mark_of_items (parts : List FormatPart) : ∀ index, (∃ x ∈ itemsOf index parts, x.length ≠ 0) → ∃ t src, FormatPart.mark t src ∈ parts ∧ src ≠ [] := by
  induction parts with
  | nil => rintro index ⟨x, hx, _⟩; cases hx
  | cons p ps ih =>
    rintro index ⟨x, hx, hl⟩
    cases p with
    | text t =>
      obtain ⟨t', src, hm, hn⟩ := ih _ ⟨x, hx, hl⟩
      exact ⟨t', src, List.mem_cons_of_mem _ hm, hn⟩
    | mark t src =>
      rw [itemsOf, List.mem_cons] at hx
      rcases hx with rfl | hx
      · exact ⟨t, src, by simp, fun h => hl (by simp [h])⟩
      · obtain ⟨t', src, hm, hn⟩ := ih _ ⟨x, hx, hl⟩
        exact ⟨t', src, List.mem_cons_of_mem _ hm, hn⟩

theorem items_ne_nil {parts : List FormatPart} (index : Nat) (h : parts ≠ []) (he : ∀ t, parts.getLast? ≠ some (.text t)) : itemsOf index parts ≠ [] := by
  obtain ⟨a, p, rfl⟩ : ∃ a p, parts = a ++ [p] := ⟨_, _, (List.dropLast_append_getLast h).symm⟩
  cases p with
  | text t => exact absurd (by simp) (he t)
  | mark t src => rw [itemsOf_append]; simp [itemsOf]

theorem boldItalicLoop_size (k : Nat) : ∀ (pre cur : Str), cur.length < k →
    ∃ r, (∀ fuel, cur.length < fuel → boldItalicLoop fuel (pre ++ cur) pre.length = some (pre ++ r)) ∧
      (r = cur ∨ (lts r ≤ lts cur ∧ wt r < wt cur)) := by
  induction k with
  | zero => intro _ _ h; omega
  | succ k ih =>
    intro pre cur hlen
    suffices hs : ∃ r, (∀ fuel, cur.length ≤ fuel → boldItalicLoop (fuel + 1) (pre ++ cur) pre.length = some (pre ++ r)) ∧
        (r = cur ∨ (lts r ≤ lts cur ∧ wt r < wt cur)) by
      obtain ⟨r, h1, h2⟩ := hs
      refine ⟨r, fun fuel hf => ?_, h2⟩
      obtain ⟨fuel, rfl⟩ : ∃ g, fuel = g + 1 := ⟨fuel - 1, by omega⟩
      exact h1 fuel (by omega)
    simp only [boldItalicLoop]
    obtain ⟨t, rest, e1, e2, e3, e4, e5, _⟩ := skipToMark_spec cur pre.length
    simp only [List.drop_left, e2]
    by_cases hr : rest.length ≤ 1
    · have hc : ¬ pre.length + t.length + 1 < (pre ++ cur).length := by rw [e1]; simp; omega
      simp only [if_neg hc]
      exact ⟨cur, fun _ _ => rfl, .inl rfl⟩
    · have hq : b!"''" <+: rest := e4.resolve_right hr
      have hc : pre.length + t.length + 1 < (pre ++ cur).length := by rw [e1]; simp; omega
      simp only [if_pos hc]
      have hdrop : (pre ++ cur).drop (pre.length + t.length) = rest := by
        rw [e1, ← List.append_assoc, ← List.length_append, List.drop_left]
      cases hstack : findMarks (pre ++ cur) (pre.length + t.length) with
      | some stack =>
        have : ∃ repair, tokenizeBoldAndItalic (pre ++ cur) repair ((pre ++ cur).length + 1 - (pre.length + t.length))
            (pre.length + t.length) [] false false = some stack := by
          rw [findMarks] at hstack
          split at hstack
          · rename_i h; exact ⟨false, by rw [h]; exact hstack⟩
          · exact ⟨true, hstack⟩
        obtain ⟨repair, hrep⟩ := this
        have hanch := tokenize_anchored _ _ _ _ _ _ _ _ (fun h => absurd rfl h) hrep
        obtain ⟨parts, hf, he, h2⟩ := tokenize_found _ _ _ _ _ _ _ _ _ MarkState.initial hrep
        rw [hdrop] at h2
        have h2 := h2 hq
        have hpre := hf.isPrefix
        rw [hdrop] at hpre
        obtain ⟨rest', hrest⟩ := hpre
        have happ := applyMarks_parts parts hf.wellFormed hf.ends (pre ++ t) rest' (pre.length + t.length) 0
          (pre.length + t.length) (by simp) (by simp)
        have econt : pre ++ cur = pre ++ t ++ originalText parts ++ rest' := by
          rw [e1, ← hrest]; simp
        rw [List.nil_append] at he
        have hne : parts ≠ [] := by rintro rfl; simp [originalText] at h2
        have hsmall := rendered_lt parts hf.wellFormed (mark_of_items parts _ (by
          rw [← he]; exact hanch (by rw [he]; exact items_ne_nil _ hne hf.ends)))
        simp only [he, econt, happ]
        have hl : cur.length = t.length + rest.length := by rw [e1]; simp
        have hl2 : rest.length = (originalText parts).length + rest'.length := by rw [← hrest]; simp
        obtain ⟨r, i1, i2⟩ := ih (pre ++ t ++ renderedText parts) rest' (by omega)
        refine ⟨t ++ renderedText parts ++ r, fun fuel hf => by rw [i1 fuel (by omega)]; simp, .inr ?_⟩
        have hle := (rendered_le parts).1
        rw [e1, ← hrest]
        simp only [lts_append, wt_append]
        rcases i2 with rfl | i2 <;> omega
      | none => exact ⟨cur, fun _ _ => rfl, .inl rfl⟩

theorem parseBoldAndItalic_halts (content : Str) : Halts (fun _ m => parseBoldAndItalic m content) (Step content) := by
  intro s
  obtain ⟨r, h1, h2⟩ := boldItalicLoop_size (content.length + 1) [] content (by omega)
  refine ⟨content.length + 1, .ok (r, s), fun n m _ hm => ?_, ?_⟩
  · have := h1 m (by omega)
    simp only [List.nil_append, List.length_nil] at this
    simp only [parseBoldAndItalic, this]
    rfl
  · intro a s' e
    cases e
    rcases h2 with rfl | h2
    · exact .inl rfl
    · exact .inr (size_lt.mpr (by omega))

/-! ### Headings -/

theorem replaceAll_sublist (s : Str) {old : Str} (h : old ≠ []) : replaceAll s old [] <+ s := by
  rw [← join_split [] s h]
  have : join [] (split s old) = (split s old).flatten := by
    generalize split s old = l
    match l with
    | [] => rfl
    | [p] => simp [join]
    | p :: q :: r =>
      have ih : join [] (q :: r) = (q :: r).flatten := by
        clear * -
        generalize hl : q :: r = l
        clear hl
        induction l with
        | nil => rfl
        | cons a l ih =>
          cases l with
          | nil => simp [join]
          | cons b l => rw [join, ih]; simp
      rw [join, ih]; simp
  rw [this]
  exact split_flatten s h

theorem headingText_size {d : Nat} {line : Str} (h : isHeadingOf (d + 1) line = true) :
    lts (headingText (d + 1) line) ≤ lts line ∧ wt (headingText (d + 1) line) < wt line := by
  unfold isHeadingOf at h
  rw [Bool.and_eq_true, hasPrefix_iff] at h
  obtain ⟨⟨rest, hr⟩, _⟩ := h
  have hold : repeatStr b!"=" (d + 1) ≠ [] := by simp [repeatStr]
  have hw : 0 < wt (repeatStr b!"=" (d + 1)) := by
    rw [repeatStr, wt_append]
    have : wt b!"=" = 1 := by decide
    omega
  have h1 := Fits.of_sublist (trimSpace_sublist line)
  have h2 := Fits.of_sublist (trimSpace_sublist (replaceAll (trimSpace line) (repeatStr b!"=" (d + 1)) []))
  have h3 : replaceAll (trimSpace line) (repeatStr b!"=" (d + 1)) [] = replaceAll rest (repeatStr b!"=" (d + 1)) [] := by
    rw [← hr, replaceAll_of_prefix hold]
    rfl
  have h4 := Fits.of_sublist (replaceAll_sublist rest hold)
  have h5 := congrArg lts hr
  have h6 := congrArg wt hr
  rw [lts_append] at h5
  rw [wt_append] at h6
  have := h1.1; have := h1.2; have := h2.1; have := h2.2; have := h4.1; have := h4.2
  rw [headingText]
  rw [h3] at *
  omega

theorem headingLine_halts (hrec : RecHalts rec M) (d : Nat) (line : Str) (hm : size line ≤ M) :
    Halts (fun n _ => headingLine (rec n) (d + 1) line) fun l => l = line ∨ (lts l ≤ lts line ∧ wt l < wt line) := by
  unfold headingLine
  refine Halts.ite (fun h => ?_) fun _ => Halts.pure (.inl rfl)
  obtain ⟨h1, h2⟩ := headingText_size h
  refine Halts.bind (Halts.getToken (by decide)) fun key hkey => ?_
  refine Halts.bind (hrec _ (lt_of_lt_of_le (size_lt.mpr (by omega)) hm)) fun _ _ => ?_
  refine Halts.bind (Halts.setRawToken (P := fun _ => True) _ _ trivial) fun _ _ => ?_
  refine Halts.pure (.inr ?_)
  rw [hkey.1, hkey.2]
  omega

/-- Lines are unchanged or smaller. -/
def LineStep (ls ls' : List Str) : Prop := ls' = ls ∨ size ls'.flatten < size ls.flatten

theorem LineStep.cons {l l' : Str} {ls ls' : List Str} (h : l' = l ∨ (lts l' ≤ lts l ∧ wt l' < wt l)) (h' : LineStep ls ls') :
    LineStep (l :: ls) (l' :: ls') := by
  rcases h with rfl | ⟨h1, h2⟩ <;> rcases h' with rfl | h'
  · exact .inl rfl
  · right; rw [size_lt] at h' ⊢; simp only [List.flatten_cons, lts_append, wt_append]; omega
  · right; rw [size_lt]; simp only [List.flatten_cons, lts_append, wt_append]; omega
  · right; rw [size_lt] at h' ⊢; simp only [List.flatten_cons, lts_append, wt_append]; omega

theorem LineStep.trans {a b c : List Str} (h : LineStep a b) (h' : LineStep b c) : LineStep a c := by
  rcases h with rfl | h
  · exact h'
  · rcases h' with rfl | h'
    · exact .inr h
    · exact .inr (h'.trans h)

theorem LineStep.size_le {a b : List Str} (h : LineStep a b) : size b.flatten ≤ size a.flatten := by
  rcases h with rfl | h
  · exact le_refl _
  · exact h.le

theorem LineStep.step {content : Str} {ls : List Str} (h : LineStep (split content b!"\n") ls) : Step content (join b!"\n" ls) := by
  rcases h with rfl | h
  · exact .inl (join_split_self _ (by decide))
  · right
    rw [size_lt] at h ⊢
    have := size_split content
    have := size_lines ls
    omega

theorem headingLines_halts (hrec : RecHalts rec M) (d : Nat) (ls : List Str) (hm : ∀ l ∈ ls, size l ≤ M) :
    Halts (fun n _ => headingLines (rec n) (d + 1) ls) fun ls' => LineStep ls ls' := by
  induction ls with
  | nil => exact Halts.pure (.inl rfl)
  | cons l ls ih =>
    simp only [headingLines]
    refine Halts.bind (headingLine_halts hrec d l (hm l (by simp))) fun l' hl => ?_
    refine Halts.bind (ih fun x hx => hm x (by simp [hx])) fun ls' hls => ?_
    exact Halts.pure (LineStep.cons hl hls)

theorem headingDepths_halts (hrec : RecHalts rec M) (d : Nat) : ∀ (ls : List Str), size ls.flatten ≤ M →
    Halts (fun n _ => headingDepths (rec n) d ls) fun ls' => LineStep ls ls' := by
  induction d with
  | zero => intro ls _; exact Halts.pure (.inl rfl)
  | succ d ih =>
    intro ls hm
    simp only [headingDepths]
    refine Halts.bind (headingLines_halts hrec d ls fun l hl => ((Fits.of_sublist (sublist_flatten hl)).size_le).trans hm) fun ls' hls => ?_
    exact (ih ls' (hls.size_le.trans hm)).mono fun _ h => hls.trans h

theorem size_flatten_split {content : Str} (h : size content ≤ M) : size (split content b!"\n").flatten ≤ M :=
  (Fits.of_sublist (split_flatten content (by decide))).size_le.trans h

theorem parseHeadings_halts (hrec : RecHalts rec M) (content : Str) (hm : size content ≤ M) :
    Halts (fun n _ => parseHeadings (rec n) content) (Step content) := by
  unfold parseHeadings
  refine Halts.bind (headingDepths_halts hrec 7 _ (size_flatten_split hm)) fun ls hls => ?_
  exact Halts.pure hls.step

/-! ### References -/

theorem refDefinitions_halts (contents : List ((Str × Nat) × Str)) (group : Str) (n k : Nat) :
    Halts (fun _ _ => refDefinitions contents group n k) Bare := by
  induction k with
  | zero => exact Halts.pure bare_nil
  | succ k ih =>
    simp only [refDefinitions]
    cases assoc contents (group, n - (k + 1)) with
    | none => exact ih
    | some c =>
      refine Halts.bind (Halts.getToken (by decide)) fun key hkey => ?_
      refine Halts.bind (Halts.setRawToken (P := fun _ => True) _ _ trivial) fun _ _ => ?_
      exact Halts.bind ih fun r hr => Halts.pure ((hkey.append (by decide)).append hr)

theorem refUsage_halts (within : Bool) (number : Nat) : Halts (fun _ _ => refUsage within number) Bare := by
  unfold refUsage
  refine Halts.ite (fun _ => Halts.pure bare_nil) fun _ => ?_
  refine Halts.bind (Halts.getToken (by decide)) fun key hkey => ?_
  exact Halts.bind (Halts.setRawToken (P := fun _ => True) _ _ trivial) fun _ _ => Halts.pure hkey

theorem trimNewlines_sublist (s : Str) : trimNewlines s <+ s := by
  unfold trimNewlines trimRightOf
  have := (List.dropWhile_sublist (l := s.reverse) fun c => decide (c = (0x0A : Byte))).reverse
  rwa [List.reverse_reverse] at this

theorem refTag_halts (hrec : RecHalts rec M) (content : Str) (hm : size content ≤ M) {i startEnd : Nat} (h : i < startEnd)
    (hc : content[i]? = some 0x3C) (st : RefState) :
    Halts (fun n _ => refTag (rec n) content i startEnd st) fun r => r.1 = content ∨ lts r.1 < lts content := by
  have hrest : lts (content.take i) + lts (content.drop (startEnd + 1)) < lts content := by
    have := lts_replace (j := startEnd + 1) bare_nil (by omega) hc
    simpa using this
  unfold refTag
  refine Halts.ite (fun _ => ?_) fun _ => Halts.ite (fun _ => ?_) fun _ => ?_
  · refine Halts.bind (Halts.lift (P := fun _ => True) fun _ _ => trivial) fun group _ => ?_
    refine Halts.bind (P := fun r => lts r.1 < lts content) ?_ fun r hr => Halts.pure (.inr hr)
    unfold refEndPlaceholder
    refine Halts.bind (refDefinitions_halts _ _ _ _) fun keys hk => Halts.pure ?_
    show lts (trimNewlines (trimNewlines (content.take i) ++ b!"\n" ++ keys) ++ content.drop (startEnd + 1)) < lts content
    have h1 := (Fits.of_sublist (trimNewlines_sublist (trimNewlines (content.take i) ++ b!"\n" ++ keys))).1
    have h2 := (Fits.of_sublist (trimNewlines_sublist (content.take i))).1
    have h3 : lts b!"\n" = 0 := by decide
    simp only [lts_append, hk.1] at h1 ⊢
    omega
  · refine Halts.bind (Halts.lift (P := fun _ => True) fun _ _ => trivial) fun group _ => Halts.pure (.inr ?_)
    show lts (content.take i ++ content.drop (startEnd + 1)) < lts content
    rw [lts_append]
    exact hrest
  · refine Halts.bind (Halts.lift (P := fun _ => True) fun _ _ => trivial) fun name _ => ?_
    refine Halts.bind (Halts.lift (P := fun _ => True) fun _ _ => trivial) fun group _ => ?_
    refine Halts.ite (fun _ => ?_) fun _ => ?_
    · unfold namedReferenceUsage
      refine Halts.ite (fun _ => ?_) fun _ => Halts.pure (.inl rfl)
      refine Halts.bind (refUsage_halts _ _) fun key hk => Halts.pure (.inr ?_)
      exact lts_replace hk (by omega) hc
    · cases hf : findCloseIgnoreCase content startEnd b!"<ref" b!"</ref>" with
      | none => exact Halts.panic
      | some refEnd =>
        have hge := findCloseIgnoreCase_ge hf
        unfold referenceDefinition
        refine Halts.bind (hrec _ (lt_of_lt_of_le (size_lt.mpr (.inl ?_)) hm)) fun text _ => ?_
        · have h1 : (content.take refEnd).drop (startEnd + 1) <+ content.drop (startEnd + 1) := (List.take_sublist _ _).drop _
          have := (Fits.of_sublist h1).1
          omega
        · refine Halts.bind (refUsage_halts _ _) fun key hk => Halts.pure (.inr ?_)
          exact lts_replace hk (by omega) hc

theorem refLoop_halts (hrec : RecHalts rec M) (k : Nat) : ∀ (content : Str), lts content = k → size content ≤ M → ∀ (d i : Nat) (st : RefState),
    content.length - i = d → Halts (fun n m => refLoop (rec n) m content i st) (Step content) := by
  induction k using Nat.strongRecOn with
  | _ k ihk =>
    intro content hk hm d
    induction d with
    | zero =>
      intro i st hd
      refine Halts.succ ?_
      simp only [refLoop]
      exact Halts.ite (fun h => absurd h (by omega)) fun _ => Halts.pure (.refl _)
    | succ d ihd =>
      intro i st hd
      refine Halts.succ ?_
      simp only [refLoop]
      refine Halts.ite (fun _ => Halts.ite (fun ht => ?_) fun _ => ihd _ _ (by omega)) fun _ => Halts.pure (.refl _)
      have htag : content[i]? = some 0x3C := by
        rcases Bool.or_eq_true_iff.mp ht with ht | ht
        · exact tag_at (y := b!"ref") ht
        · exact tag_at (y := b!"/re") ht
      cases hc : findCloseIgnoreCase content (i + 4) b!"<ref" b!">" with
      | none => exact Halts.panic
      | some startEnd =>
        have hge := findCloseIgnoreCase_ge hc
        refine Halts.bind (refTag_halts hrec content hm (by omega) htag st) fun r hr => ?_
        obtain ⟨content', st'⟩ := r
        rcases hr with rfl | hr
        · exact ihd _ _ (by omega)
        · have hs : Step content content' := .of_lts hr
          exact (ihk (lts content') (by have : lts content' < lts content := hr; omega) _ rfl (hs.size_le.trans hm) _ _ _ rfl).mono fun r h => hs.trans h

theorem parseReferences_halts (hrec : RecHalts rec M) (content : Str) (hm : size content ≤ M) :
    Halts (fun n m => parseReferences (rec n) m content) (Step content) := refLoop_halts hrec _ content rfl hm _ 0 _ rfl

end Verif.Lemmas
