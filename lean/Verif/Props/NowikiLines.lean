import Verif.Lemmas.NowikiLines

/-!
# C38 from the wikitext to the page
-/

namespace Verif.Props
open Verif.Go Verif.Model Verif.Spec Verif.Lemmas
open scoped List

/-! ### Lines -/

theorem outline_text {p : Str} {l : NowikiLine} (h : ¬ p <:+: l.outline) : (∀ q ∈ l.parts, ¬ p <:+: q.text) ∧ ¬ p <:+: l.last := by
  refine ⟨fun q hq hi => h ?_, fun hi => h (hi.trans (List.suffix_append _ _).isInfix)⟩
  obtain ⟨a, b, hab⟩ := List.append_of_mem hq
  have : l.outline = (a.flatMap fun p => p.text ++ b!"X") ++ q.text ++ (b!"X" ++ (b.flatMap fun p => p.text ++ b!"X") ++ l.last) := by
    simp [NowikiLine.outline, hab]
  rw [this]
  exact hi.trans ⟨_, _, rfl⟩

theorem not_infix_source {p : Str} {l : NowikiLine} (hw : l.WellFormed) (h : ¬ p <:+: l.outline) (hi : ∀ q ∈ l.parts, ¬ p <:+: q.inner)
    (h1 : ¬ lowered p <:+: b!"<nowiki>") (h2 : ¬ lowered p <:+: b!"</nowiki>") (h3 : (0x3C : Byte) ∉ p.tail) (h4 : (0x3E : Byte) ∉ p.dropLast) :
    ¬ p <:+: l.source := by
  rw [← render_source 0]
  obtain ⟨ht, hl⟩ := outline_text h
  refine not_infix_render srcOf _ (fun q hq => ?_) hl
  obtain ⟨hm, he⟩ := mem_numbered hq
  exact ⟨he ▸ ht _ hm, fenced_src (hw.parts _ hm).1 (hi _ hm) h1 h2 h3 h4⟩

theorem prefix_source {p : Str} {l : NowikiLine} (hw : l.WellFormed) (h1 : (0x3C : Byte) ∉ p) (h : p <+: l.source) : p <+: l.outline := by
  rw [← render_source 0] at h
  rw [← render_outline 0]
  refine prefix_render srcOf _ _ (fun q hq => ⟨0x3C, ?_, h1⟩) h
  have ho := lowered_head (t := b!"nowiki>") (hw.parts _ (mem_numbered hq).1).1.opening
  simp [srcOf, List.head?_append, ho]

theorem suffix_source {p : Str} {l : NowikiLine} (hw : l.WellFormed) (h1 : (0x3E : Byte) ∉ p) (h : p <:+ l.source) : p <:+ l.outline := by
  rw [← render_source 0] at h
  rw [← render_outline 0]
  refine suffix_render srcOf _ _ (fun q hq => ⟨0x3E, ?_, h1⟩) h
  have hc := lowered_last (t := b!"</nowiki") (hw.parts _ (mem_numbered hq).1).1.closing
  simp [srcOf, List.getLast?_append, hc]

/-- The line with keys. -/
def keyed (n : Nat) (l : NowikiLine) : Str := render keyOf (lineSegs n l)

theorem not_infix_keyed {p : Str} {l : NowikiLine} (h : ¬ p <:+: l.outline) (hc : ∃ c ∈ p, c ≠ 0x24 ∧ tokenChar c = false)
    (hd : (0x24 : Byte) ∉ p) (n : Nat) : ¬ p <:+: keyed n l := by
  obtain ⟨ht, hl⟩ := outline_text h
  refine not_infix_render keyOf _ (fun q hq => ?_) hl
  obtain ⟨hm, he⟩ := mem_numbered hq
  exact ⟨he ▸ ht _ hm, fenced_key _ hc hd⟩

theorem prefix_keyed {p : Str} {l : NowikiLine} {n : Nat} (h1 : (0x24 : Byte) ∉ p) (h : p <+: keyed n l) : p <+: l.outline := by
  rw [← render_outline n]
  exact prefix_render keyOf _ _ (fun q _ => ⟨0x24, (key_ends _).1, h1⟩) h

theorem suffix_keyed {p : Str} {l : NowikiLine} {n : Nat} (h1 : (0x24 : Byte) ∉ p) (h : p <:+ keyed n l) : p <:+ l.outline := by
  rw [← render_outline n]
  exact suffix_render keyOf _ _ (fun q _ => ⟨0x24, (key_ends _).2, h1⟩) h

theorem space_chars : ∀ c ∈ spaceChars, (0x24 : Byte) ∉ c ∧ (0x3C : Byte) ∉ c ∧ (0x3E : Byte) ∉ c := by decide

theorem keyed_trimmed {l : NowikiLine} (hw : l.WellFormed) (n : Nat) : trimSpace (keyed n l) = keyed n l := by
  obtain ⟨h1, h2⟩ := clean_of_trimSpace hw.outline.trimmed
  exact trimSpace_of_clean (fun c hc h => h1 c hc (prefix_keyed (space_chars c hc).1 h)) (fun c hc h => h2 c hc (suffix_keyed (space_chars c hc).1 h))

theorem source_trimmed {l : NowikiLine} (hw : l.WellFormed) : trimSpace l.source = l.source := by
  obtain ⟨h1, h2⟩ := clean_of_trimSpace hw.outline.trimmed
  exact trimSpace_of_clean (fun c hc h => h1 c hc (prefix_source hw (space_chars c hc).2.1 h))
    (fun c hc h => h2 c hc (suffix_source hw (space_chars c hc).2.2 h))

theorem head_prefix {c : Byte} {s : Str} (h : s.head? = some c) : [c] <+: s := by
  cases s with
  | nil => cases h
  | cons d s => obtain rfl := Option.some.inj h; exact ⟨s, rfl⟩

theorem prefix_head {c : Byte} {s : Str} (h : [c] <+: s) : s.head? = some c := by
  obtain ⟨t, rfl⟩ := h; rfl

theorem keyed_oneLine {l : NowikiLine} (hw : l.WellFormed) (n : Nat) : (0x0A : Byte) ∉ keyed n l := fun hm =>
  not_infix_keyed (p := [0x0A]) (fun hi => hw.outline.oneLine (hi.subset (by simp))) ⟨0x0A, by simp, by decide, by decide⟩ (by decide) n
    (by obtain ⟨a, b, e⟩ := List.append_of_mem hm; rw [e]; exact ⟨a, b, by simp⟩)

theorem keyed_calm {l : NowikiLine} (hw : l.WellFormed) (n : Nat) : CalmLine (keyed n l) := by
  have ho := hw.outline
  have ht := keyed_trimmed hw n
  refine ⟨keyed_oneLine hw n, ?_, ?_, ?_, ?_, ?_, ⟨?_, ?_⟩, ?_⟩
  · rw [ht]
    intro c hc hm
    by_cases hd : (0x24 : Byte) ∈ [c]
    · obtain rfl := List.mem_singleton.mp hd
      exact absurd hm (by decide)
    · exact ho.noList c (prefix_head (prefix_keyed hd (head_prefix hc))) hm
  · rw [ht]
    exact fun h => ho.noHeading ⟨prefix_keyed (by decide) h.1, suffix_keyed (by decide) h.2⟩
  · rw [ht]
    exact fun h => ho.noTable (prefix_keyed (by decide) h)
  · intro hm
    refine not_infix_keyed (p := [0x5B]) (fun hi => ho.noBracket (hi.subset (by simp))) ⟨0x5B, by simp, by decide, by decide⟩ (by decide) n ?_
    obtain ⟨a, b, e⟩ := List.append_of_mem hm
    rw [e]
    exact ⟨a, b, by simp⟩
  · exact not_infix_keyed ho.noTemplate ⟨0x7B, by simp, by decide, by decide⟩ (by decide) n
  · intro c hc
    refine not_infix_keyed (ho.noTag.start c hc) ⟨0x3C, by simp, by decide, by decide⟩ ?_ n
    rintro hd
    have : TagCharacter 0x24 := by
      simp only [List.mem_cons, List.not_mem_nil, or_false] at hd
      rcases hd with hd | hd
      · exact absurd hd (by decide)
      · exact hd ▸ hc
    exact absurd this (by unfold TagCharacter; decide)
  · intro c hc
    refine not_infix_keyed (ho.noTag.stop c hc) ⟨0x3C, by simp, by decide, by decide⟩ ?_ n
    rintro hd
    have : TagCharacter 0x24 := by
      simp only [List.mem_cons, List.not_mem_nil, or_false] at hd
      rcases hd with hd | hd | hd
      · exact absurd hd (by decide)
      · exact absurd hd (by decide)
      · exact hd ▸ hc
    exact absurd this (by unfold TagCharacter; decide)
  · exact not_infix_keyed ho.noEmphasis ⟨0x27, by simp, by decide, by decide⟩ (by decide) n

theorem keyed_ne {l : NowikiLine} (hw : l.WellFormed) (n : Nat) : keyed n l ≠ [] := by
  intro h
  obtain ⟨parts, last⟩ := l
  cases parts with
  | nil => exact hw.outline.notEmpty (by simpa [keyed, render, lineSegs, numbered, NowikiLine.outline] using h)
  | cons p ps =>
    have : keyOf (p, n) = [] := by
      have h : (p.text ++ keyOf (p, n)) ++ _ ++ _ = ([] : Str) := h
      simp only [List.append_eq_nil_iff] at h
      exact h.1.1.2
    exact absurd (congrArg List.head? this) (by rw [keyOf, (key_ends n).1]; simp)

theorem keyed_no_token {l : NowikiLine} (hw : l.WellFormed) (n : Nat) : isTokenLine (keyed n l) = false := by
  have ho := hw.outline
  obtain ⟨parts, last⟩ := l
  cases parts with
  | nil =>
    refine not_tokenLine ?_
    simpa [keyed, render, lineSegs, numbered, NowikiLine.outline] using ho.noInternal
  | cons p ps =>
    have e : keyed n ⟨p :: ps, last⟩ = p.text ++ (keyOf (p, n) ++ render keyOf (numbered (n + 1) ps, last)) := by
      simp [keyed, render, lineSegs, numbered]
    rw [e]
    have hu := (hw.parts p (by simp)).2.2
    rw [← Bool.not_eq_true]
    intro ht
    have hm : matchToken (p.text ++ (keyOf (p, n) ++ render keyOf (numbered (n + 1) ps, last))) = some [] := by simpa [isTokenLine] using ht
    by_cases h0 : p.text = []
    · rw [h0, List.nil_append, keyOf, matchToken_key _ _ ⟨by decide, by decide⟩] at hm
      have hr : render keyOf (numbered (n + 1) ps, last) = [] := Option.some.inj hm
      cases ps with
      | nil =>
        rcases hw.more p rfl with h | h
        · exact h h0
        · exact h (by simpa [render, numbered] using hr)
      | cons q qs =>
        have h : (q.text ++ keyOf (q, n + 1)) ++ _ ++ _ = ([] : Str) := hr
        simp only [List.append_eq_nil_iff] at h
        exact absurd (congrArg List.head? h.1.1.2) (by rw [keyOf, (key_ends _).1]; simp)
    · have hd := matchToken_dd (by rw [hm]; rfl)
      match hp : p.text, h0 with
      | [c], _ =>
        rw [hp] at hd
        obtain ⟨t, ht⟩ := hd
        have : c = 0x24 := (List.cons.inj ht).1.symm
        exact hu.2.1 (by rw [hp, this]; exact List.suffix_refl _)
      | c :: d :: t, _ =>
        rw [hp] at hd
        obtain ⟨r, hr⟩ := hd
        obtain ⟨h1, h2⟩ := List.cons.inj hr
        obtain ⟨h3, -⟩ := List.cons.inj h2
        refine hu.1 (by rw [hp, ← h1, ← h3]; exact ⟨[], t, rfl⟩)

/-! ### Cleaning -/

theorem cleanText_kept (env : ParserEnv) {ls : List Str} (hne : ls ≠ []) (h1 : ∀ l ∈ ls, (0x0A : Byte) ∉ l) (htr : ∀ l ∈ ls, trimSpace l = l)
    (hli : ∀ l ∈ ls, ∀ c, l.head? = some c → c ∉ b!"*#;:") (hh : ∀ l ∈ ls, headingDepth l = 0) (hn : ∀ l ∈ ls, ¬ b!"__NOTOC__" <:+: l)
    (ht : ∀ l ∈ ls, ¬ b!"{{" <:+: l) (hc : ∀ l ∈ ls, ¬ b!"<!--" <:+: l)
    (hk : removeUnwantedInternalLinks env (join b!"\n" ls) = .ok (join b!"\n" ls))
    (fuel : Nat) (hf : (join b!"\n" ls).length < fuel) : cleanText env fuel (join b!"\n" ls) = some (.ok (join b!"\n" ls)) := by
  have hs : split (join b!"\n" ls) b!"\n" = ls := split_join_singleton hne h1
  have hq : ¬ b!"{{" <:+: join b!"\n" ls := not_infix_lines (by simp) (by decide) ls ht
  have e0 : removeComments (join b!"\n" ls) = join b!"\n" ls := by
    rw [removeComments, commentSegments_calm, join_split_self _ (by simp)]
    intro p hp hi
    exact not_infix_lines (by simp) (by decide) ls hc (hi.trans (infix_of_mem_split (by simp) hp))
  have e1 : handleUnwantedAndTrailingTemplates env (join b!"\n" ls) = join b!"\n" ls := by
    rw [handleUnwantedAndTrailingTemplates, templateLoop_calm env hq]
    simp
  have e2 : removeUnwantedWikitext (join b!"\n" ls) = join b!"\n" ls :=
    replaceAll_of_not_infix (not_infix_lines (by simp) (by decide) ls hn)
  have e3 : removeEmptyListEntries (join b!"\n" ls) = join b!"\n" ls := by
    rw [removeEmptyListEntries, hs, List.map_congr_left (g := id) htr, List.map_id, List.filter_eq_self.mpr]
    intro l hl
    cases l with
    | nil => rfl
    | cons c l =>
      have := hli _ hl c rfl
      simp at this
      simp [keepListLine, isListBeginning, this]
  have e4 : removeEmptySections (join b!"\n" ls) = join b!"\n" ls := by
    rw [removeEmptySections, hs, sectionLoop_calm ls hh]
  rw [cleanText, e0, hk]
  simp only [e1, e2, e3, e4]
  exact railwayLoop_calm hq fuel 0 (by omega) (by omega)

theorem without_none {u : Str → Prop} [DecidablePred u] (d : LinkText) (h : d.AllLinks fun l => ¬ u l) : d.without u = d := by
  induction d with
  | nil => rfl
  | char c rest ih => rw [LinkText.without, ih h]
  | bracket inner rest ih1 ih2 => rw [LinkText.without, ih1 h.1, ih2 h.2]
  | link inner rest ih1 ih2 => rw [LinkText.without, if_neg h.1, ih1 h.2.1, ih2 h.2.2]

theorem allLinks_mono {p q : Str → Prop} (hpq : ∀ s, p s → q s) (d : LinkText) (h : d.AllLinks p) : d.AllLinks q := by
  induction d with
  | nil => trivial
  | char c rest ih => exact ih h
  | bracket inner rest ih1 ih2 => exact ⟨ih1 h.1, ih2 h.2⟩
  | link inner rest ih1 ih2 => exact ⟨hpq _ h.1, ih1 h.2.1, ih2 h.2.2⟩

theorem links_are_kept {env : ParserEnv} {text : Str} (h : LinksAreKept env text) : removeUnwantedInternalLinks env text = .ok text := by
  classical
  rcases h with h | ⟨d, rfl, hw, hl⟩
  · exact C41_text_without_links env text h
  · rw [C41_unwanted_links_removed_partial env d hw (allLinks_mono (fun s hs hm => absurd hm hs.2) d hl),
      without_none d (allLinks_mono (fun s hs => hs.1) d hl)]

/-- What cleaning needs to know about a line. -/
theorem source_clean {l : NowikiLine} (hw : l.WellFormed) : (0x0A : Byte) ∉ l.source ∧ (∀ c, l.source.head? = some c → c ∉ b!"*#;:") ∧
    headingDepth l.source = 0 ∧ ¬ b!"__NOTOC__" <:+: l.source ∧ ¬ b!"{{" <:+: l.source ∧ ¬ b!"<!--" <:+: l.source ∧
    ¬ b!"$$TEMPLATE_PLACEHOLDER_" <:+: l.source := by
  have ho := hw.outline
  refine ⟨fun hm => ?_, fun c hc hm => ?_, ?_, ?_, ?_, ?_, ?_⟩
  · refine not_infix_source (p := [0x0A]) hw (fun hi => ho.oneLine (hi.subset (by simp))) (fun q hq hi => (hw.parts q hq).2.1.oneLine (hi.subset (by simp)))
      ?_ ?_ (by decide) (by decide) ?_
    · rw [← contains_eq_false_iff]; decide
    · rw [← contains_eq_false_iff]; decide
    · obtain ⟨a, b, e⟩ := List.append_of_mem hm
      rw [e]
      exact ⟨a, b, by simp⟩
  · by_cases hd : (0x3C : Byte) ∈ [c]
    · obtain rfl := List.mem_singleton.mp hd
      exact absurd hm (by decide)
    · exact ho.noList c (prefix_head (prefix_source hw hd (head_prefix hc))) hm
  · rw [headingDepth, if_pos, if_neg]
    · rintro ⟨h1, _⟩
      rw [hasPrefix_iff] at h1
      exact ho.noEmphasis (List.IsInfix.trans ⟨[], b!"'", rfl⟩ (prefix_source hw (by decide) h1).isInfix)
    · rw [hasPrefix_iff, hasSuffix_iff]
      by_contra hc
      rw [not_or, not_not, not_not] at hc
      exact ho.noHeading ⟨prefix_source hw (by decide) hc.1, suffix_source hw (by decide) hc.2⟩
  · refine not_infix_source hw ho.noSwitch (fun q hq => (hw.parts q hq).2.1.noSwitch) ?_ ?_ (by decide) (by decide)
    · rw [← contains_eq_false_iff]; decide
    · rw [← contains_eq_false_iff]; decide
  · refine not_infix_source hw ho.noTemplate (fun q hq => (hw.parts q hq).2.1.noTemplate) ?_ ?_ (by decide) (by decide)
    · rw [← contains_eq_false_iff]; decide
    · rw [← contains_eq_false_iff]; decide
  · refine not_infix_source hw (fun hi => ho.noTag.start 0x21 (by unfold TagCharacter; decide) (List.IsInfix.trans ⟨[], b!"--", rfl⟩ hi))
      (fun q hq => (hw.parts q hq).2.1.noComment) ?_ ?_ (by decide) (by decide)
    · rw [← contains_eq_false_iff]; decide
    · rw [← contains_eq_false_iff]; decide
  · refine not_infix_source hw (fun hi => ho.noInternal (List.IsInfix.trans ⟨[], b!"TEMPLATE_PLACEHOLDER_", rfl⟩ hi))
      (fun q hq => (hw.parts q hq).2.1.noPlaceholder) ?_ ?_ (by decide) (by decide)
    · rw [← contains_eq_false_iff]; decide
    · rw [← contains_eq_false_iff]; decide

/-! ### Documents -/

/-- The lines of the text. -/
def nowikiLines (doc : List (Nat × List NowikiLine)) (last : Nat) : List NowikiLine :=
  (doc.flatMap fun p => List.replicate p.1 ⟨[], []⟩ ++ p.2) ++ List.replicate last ⟨[], []⟩

/-- The paragraphs with numbered elements. -/
def numberedDoc : Nat → List (Nat × List NowikiLine) → List (Nat × List KeySegs)
  | _, [] => []
  | n, p :: doc => (p.1, linesSegs n p.2) :: numberedDoc (n + (p.2.flatMap NowikiLine.parts).length) doc

theorem linesSegs_doc (doc : List (Nat × List NowikiLine)) (last n : Nat) : linesSegs n (nowikiLines doc last) =
    ((numberedDoc n doc).flatMap fun p => List.replicate p.1 ([], []) ++ p.2) ++ List.replicate last ([], []) := by
  induction doc generalizing n with
  | nil => exact linesSegs_empty last n
  | cons p doc ih =>
    have hl : ((List.replicate p.1 (⟨[], []⟩ : NowikiLine)).flatMap NowikiLine.parts) = [] := by
      rw [List.flatMap_eq_nil_iff]
      intro x hx
      rw [List.eq_of_mem_replicate hx]
    have e : nowikiLines (p :: doc) last = List.replicate p.1 ⟨[], []⟩ ++ (p.2 ++ nowikiLines doc last) := by simp [nowikiLines]
    rw [e, linesSegs_append, linesSegs_append, hl, linesSegs_empty, ih, numberedDoc]
    simp

theorem map_numberedDoc {f : NowikiPart × Nat → Str} {g : NowikiLine → Str} (h : ∀ n l, render f (lineSegs n l) = g l)
    (doc : List (Nat × List NowikiLine)) (n : Nat) :
    (numberedDoc n doc).map (fun p => (p.1, p.2.map (render f))) = doc.map fun p => (p.1, p.2.map g) := by
  induction doc generalizing n with
  | nil => rfl
  | cons p doc ih => rw [numberedDoc, List.map_cons, List.map_cons, ih, map_linesSegs h]

theorem mem_numberedDoc {doc : List (Nat × List NowikiLine)} {n : Nat} {p : Nat × List KeySegs} (h : p ∈ numberedDoc n doc) :
    ∃ p' ∈ doc, p.1 = p'.1 ∧ ∃ m, p.2 = linesSegs m p'.2 := by
  induction doc generalizing n with
  | nil => cases h
  | cons q doc ih =>
    rcases List.mem_cons.mp h with rfl | h
    · exact ⟨q, by simp, rfl, n, rfl⟩
    · obtain ⟨p', hp', h1, h2⟩ := ih h
      exact ⟨p', by simp [hp'], h1, h2⟩

/-- The same text with other elements. -/
def mapSegs {α β : Type} (g : α → β) (s : Segs α) : Segs β := (s.1.map fun q => (q.1, g q.2), s.2)

theorem render_mapSegs {α β : Type} (g : α → β) (f : β → Str) (s : Segs α) : render f (mapSegs g s) = render (fun a => f (g a)) s := by
  simp [render, mapSegs, List.flatMap_map]

/-- An element of the text that the generator gets, and its HTML. -/
abbrev ShownElement := Element × Str

def shownSection (q : NowikiPart × Nat) : ShownElement := (.token b!"HEADINNOWIKI" q.2, q.1.inner)

def paragraphLine : Segs ShownElement := ([([], (.marker .paragraph, b!"<br><br>"))], [])

theorem tok_run_ok {α β : Type} {m : TokM α} {f : α → TokM β} {a : α} {s s' : TokState} (h : m s = some (.ok (a, s'))) : (m >>= f) s = f a s' := by
  simp only [bind]
  rw [h]

theorem tokenizePass_nowiki (env : ParserEnv) (rec : Rec) (fuel : Nat) {content content' : Str} {s s' : TokState}
    (h : parseNowiki fuel content s = some (.ok (content', s'))) (h' : parseNowiki fuel content' = pure content') :
    tokenizePass env rec fuel content s = tokenizePass env rec fuel content' s' := by
  unfold tokenizePass
  rw [h', pure_bind, tok_run_ok h]

theorem tagFree_two {a b : Str} (ha : TagFree a) (hb : TagFree b) : TagFree (a ++ b!"\n" ++ b) := by
  have hn : ∀ c, TagCharacter c → (0x0A : Byte) ≠ c := by
    rintro c hc rfl
    exact absurd hc (by unfold TagCharacter; decide)
  have h0 : ∀ p : Str, b!"<" <+: p → ¬ p <:+: b!"\n" := by
    rintro p ⟨t, rfl⟩ hi
    have : (0x3C : Byte) ∈ b!"\n" := hi.subset (by simp)
    exact absurd this (by decide)
  constructor
  · intro c hc
    refine not_infix_two (not_infix_two (ha.start c hc) (h0 _ ⟨_, rfl⟩) (Or.inl ⟨0x0A, rfl, by simpa using hn c hc⟩)) (hb.start c hc)
      (Or.inr ⟨0x0A, by simp, by simp⟩)
  · intro c hc
    refine not_infix_two (not_infix_two (ha.stop c hc) (h0 _ ⟨_, rfl⟩) (Or.inl ⟨0x0A, rfl, by simpa using hn c hc⟩)) (hb.stop c hc)
      (Or.inr ⟨0x0A, by simp, by simp⟩)

theorem tagFree_no_nowiki {s : Str} (h : TagFree s) : ¬ b!"<nowiki>" <:+: lowered s := by
  intro hi
  have hc := h.onlyMath.calmTags
  obtain ⟨a, b, e⟩ := hi
  have hd : b!"<nowiki>" <+: lowered (s.drop a.length) := by
    rw [lowered, List.map_drop]
    show _ <+: List.drop a.length (lowered s)
    rw [← e, List.append_assoc, List.drop_left]
    exact List.prefix_append _ _
  have := (take_same_iff (s := s.drop a.length) (tag := b!"<nowiki>") (by decide)).mpr hd
  rw [(hc.drop a.length).nowiki] at this
  cases this

theorem dd_two {a b : Str} (ha : ¬ b!"$$" <:+: a) (hb : ¬ b!"$$" <:+: b) : ¬ b!"$$" <:+: a ++ b!"\n" ++ b := by
  refine not_infix_two (not_infix_two ha ?_ (Or.inl ⟨0x0A, rfl, by decide⟩)) hb (Or.inr ⟨0x0A, by simp, by decide⟩)
  rw [← contains_eq_false_iff]
  decide

/-- The end of an unambiguous text and that it is no marker. -/
def GoodEnd (t : Str) : Prop := ¬ b!"$" <:+ t ∧ ∀ m : Marker, t ≠ m.name ∧ t ≠ b!"$" ++ m.name

theorem goodEnd_two (a b : Str) (h : GoodEnd b) : GoodEnd (a ++ b!"\n" ++ b) := by
  refine ⟨fun hs => h.1 (suffix_of_suffix_sep (c := 0x0A) (by decide) hs), fun m => ?_⟩
  have hm : (0x0A : Byte) ∈ a ++ b!"\n" ++ b := by simp
  constructor
  · intro e
    rw [e] at hm
    revert hm
    cases m <;> decide
  · intro e
    rw [e] at hm
    revert hm
    cases m <;> decide

/-- **C38** from the wikitext to the page: in a text of any number of paragraphs with any number of elements in nowiki tags within their
lines, the page has exactly the content of each element at its place, whatever wiki syntax it contains (emphasis, lists, headings, references,
formulas, web links and links that are not removed), and the text around it as it is, for all configurations and services. (Characters with
a meaning in HTML are not escaped, see `C57_tag_in_nowiki_is_not_escaped`.) What is missing: line breaks, comments and templates within the tags (the steps in front of the parser change them, see
`C38_comment_in_nowiki_is_removed`), lines that are a single element, and other markup beside the elements. -/
theorem C38_elements_are_shown_as_written_partial (env : ParserEnv) (templates : TemplateEnv)
    (iterate : Nat → List (Str × Str) → List (Str × Str)) (html : HtmlEnv) (style title : Str)
    (doc : List (Nat × List NowikiLine)) (last : Nat) (h : NowikiParagraphs doc) (text : Str)
    (htext : text = join b!"\n" (paragraphsLines (doc.map fun p => (p.1, p.2.map NowikiLine.source)) ++ List.replicate last []))
    (hk : LinksAreKept env text) :
    ∃ steps, ∀ fuel, steps ≤ fuel →
      articleHtml env templates iterate html fuel style title text =
        some (.ok (htmlHeader style ++ b!"\n<h1>" ++ title ++ b!"</h1>\n" ++
          join b!"\n<br><br>\n" (doc.map fun p => join b!"\n" (p.2.map NowikiLine.shown)) ++ htmlFooter)) := by
  obtain ⟨hne, hp, hsep⟩ := h
  let segs := linesSegs 0 (nowikiLines doc last)
  let kdoc := numberedDoc 0 doc
  let doc' : List (Nat × List Str) := kdoc.map fun p => (p.1, p.2.map (render keyOf))
  have hsegs : segs = (kdoc.flatMap fun p => List.replicate p.1 ([], []) ++ p.2) ++ List.replicate last ([], []) := linesSegs_doc doc last 0
  have hlines : ∀ f : NowikiPart × Nat → Str, segs.map (render f) =
      paragraphsLines (kdoc.map fun p => (p.1, p.2.map (render f))) ++ List.replicate last [] := by
    intro f
    rw [hsegs]
    simp only [List.map_append, List.map_replicate, List.map_flatMap, paragraphsLines, List.flatMap_map]
    rfl
  have hdoc : ∀ {f : NowikiPart × Nat → Str} {g : NowikiLine → Str}, (∀ n l, render f (lineSegs n l) = g l) →
      kdoc.map (fun p => (p.1, p.2.map (render f))) = doc.map fun p => (p.1, p.2.map g) := fun h => map_numberedDoc h doc 0
  -- the lines
  have hseg : ∀ s ∈ segs, s = ([], []) ∨ ∃ l n, l.WellFormed ∧ s = lineSegs n l := by
    intro s hs
    rw [hsegs] at hs
    rcases List.mem_append.mp hs with hs | hs
    · obtain ⟨q, hq, hs⟩ := List.mem_flatMap.mp hs
      rcases List.mem_append.mp hs with hs | hs
      · exact Or.inl (List.eq_of_mem_replicate hs)
      · obtain ⟨q', hq', -, m, hm⟩ := mem_numberedDoc hq
        rw [hm] at hs
        obtain ⟨l, hl, n, rfl⟩ := mem_linesSegs hs
        exact Or.inr ⟨l, n, (hp q' hq').2 l hl, rfl⟩
    · exact Or.inl (List.eq_of_mem_replicate hs)
  have hkdoc : ∀ p ∈ kdoc, p.2 ≠ [] ∧ ∀ s ∈ p.2, ∃ l n, l.WellFormed ∧ s = lineSegs n l := by
    intro q hq
    obtain ⟨q', hq', -, m, hm⟩ := mem_numberedDoc hq
    rw [hm]
    refine ⟨fun h0 => (hp q' hq').1 ?_, fun s hs => ?_⟩
    · cases hl : q'.2 with
      | nil => rfl
      | cons l ls => rw [hl, linesSegs] at h0; cases h0
    · obtain ⟨l, hl, n, rfl⟩ := mem_linesSegs hs
      exact ⟨l, n, (hp q' hq').2 l hl, rfl⟩
  obtain ⟨kp, krest, hkd⟩ : ∃ kp krest, kdoc = kp :: krest := by
    obtain ⟨p, rest, rfl⟩ := List.exists_cons_of_ne_nil hne
    exact ⟨_, _, rfl⟩
  have hsepk : ∀ p ∈ krest, 0 < p.1 := by
    intro q hq
    have e := congrArg (List.map Prod.fst) (hdoc render_source)
    rw [List.map_map, List.map_map, hkd] at e
    obtain ⟨p, rest, rfl⟩ := List.exists_cons_of_ne_nil hne
    simp only [List.map_cons, Function.comp_def, List.cons.injEq] at e
    have : q.1 ∈ krest.map Prod.fst := List.mem_map_of_mem hq
    rw [show krest.map Prod.fst = krest.map (fun x => x.1) from rfl, e.2] at this
    obtain ⟨q', hq', he⟩ := List.mem_map.mp this
    rw [← he]
    exact hsep q' hq'
  have hsne : segs ≠ [] := by
    rw [hsegs, hkd]
    intro h0
    have := (hkdoc kp (by rw [hkd]; simp)).1
    simp [this] at h0
  -- the three texts
  have hsrc : text = join b!"\n" (segs.map (render srcOf)) := by rw [hlines, hdoc render_source, htext]
  let content' := join b!"\n" (segs.map (render keyOf))
  -- cleaning
  have hclean : ∀ fuel, text.length < fuel → cleanText env fuel text = some (.ok text) := by
    intro fuel hf
    have hl : ∀ l ∈ segs.map (render srcOf), l = [] ∨ ∃ l' : NowikiLine, l'.WellFormed ∧ l = l'.source := by
      intro l hl
      obtain ⟨s, hs, rfl⟩ := List.mem_map.mp hl
      rcases hseg s hs with rfl | ⟨l, n, hw, rfl⟩
      · exact Or.inl rfl
      · exact Or.inr ⟨l, hw, render_source n l⟩
    have := cleanText_kept env (ls := segs.map (render srcOf)) (by simpa using hsne) (by
        intro l h; rcases hl l h with rfl | ⟨l', hw, rfl⟩
        · simp
        · exact (source_clean hw).1) (by
        intro l h; rcases hl l h with rfl | ⟨l', hw, rfl⟩
        · rfl
        · exact source_trimmed hw) (by
        intro l h; rcases hl l h with rfl | ⟨l', hw, rfl⟩
        · simp
        · exact (source_clean hw).2.1) (by
        intro l h; rcases hl l h with rfl | ⟨l', hw, rfl⟩
        · rfl
        · exact (source_clean hw).2.2.1) (by
        intro l h; rcases hl l h with rfl | ⟨l', hw, rfl⟩
        · simp
        · exact (source_clean hw).2.2.2.1) (by
        intro l h; rcases hl l h with rfl | ⟨l', hw, rfl⟩
        · simp
        · exact (source_clean hw).2.2.2.2.1) (by
        intro l h; rcases hl l h with rfl | ⟨l', hw, rfl⟩
        · simp
        · exact (source_clean hw).2.2.2.2.2.1) (by rw [← hsrc]; exact links_are_kept hk) fuel (by rw [← hsrc]; exact hf)
    rw [← hsrc] at this
    exact this
  -- templates
  have htpl : ∀ p : Str, p ≠ [] → (0x0A : Byte) ∉ p → (∀ l : NowikiLine, l.WellFormed → ¬ p <:+: l.source) → ¬ p <:+: text := by
    intro p h1 h2 h3
    rw [hsrc]
    refine not_infix_lines h1 h2 _ fun l hl => ?_
    obtain ⟨s, hs, rfl⟩ := List.mem_map.mp hl
    rcases hseg s hs with rfl | ⟨l, n, hw, rfl⟩
    · simpa [render] using h1
    · rw [render_source]; exact h3 l hw
  have htemp : ∀ fuel, text.length < fuel → evaluateTemplates templates iterate fuel text = some (.ok (text, [])) := by
    intro fuel hf
    have hnt := htpl b!"{{" (by simp) (by decide) (fun l hw => (source_clean hw).2.2.2.2.1)
    have hnp : contains text templatePlaceholderPrefix = false := by
      rw [contains_eq_false_iff]
      exact htpl b!"$$TEMPLATE_PLACEHOLDER_" (by simp) (by decide) (fun l hw => (source_clean hw).2.2.2.2.2.2)
    obtain ⟨f, rfl⟩ := Nat.exists_eq_add_of_le' (show 1 ≤ fuel by omega)
    rw [evaluateTemplates, placeholderLoop_done templates text hnt _ (f + 1) 0 (by omega) (by omega)]
    simp only [resolvePlaceholders, hnp, Bool.false_eq_true, if_false, Option.map_some]
  -- the elements
  have hcons : Consecutive 0 ((flat segs).1.map Prod.snd) := by rw [elements_flat]; exact consecutive_lines _ 0
  have hfree : (∀ p ∈ (flat segs).1, True ∧ TagFree p.1) ∧ TagFree (flat segs).2 := by
    refine flat_texts (fun _ => True) (fun _ _ _ => trivial) TagFree (fun a b => tagFree_two) segs (fun s hs => ?_) hsne
    rcases hseg s hs with rfl | ⟨l, n, hw, rfl⟩
    · exact ⟨by simp, tagFree_of_no_lt (by simp)⟩
    · have ho := hw.outline.noTag
      refine ⟨fun q hq => ⟨trivial, ?_⟩, ⟨fun c hc => (outline_text (ho.start c hc)).2, fun c hc => (outline_text (ho.stop c hc)).2⟩⟩
      obtain ⟨hm, he⟩ := mem_numbered hq
      rw [he]
      exact ⟨fun c hc => (outline_text (ho.start c hc)).1 _ hm, fun c hc => (outline_text (ho.stop c hc)).1 _ hm⟩
  have helem : ∀ q ∈ (flat segs).1, q.2.1.WellFormed := by
    intro q hq
    have : q.2 ∈ (flat segs).1.map Prod.snd := List.mem_map_of_mem hq
    rw [elements_flat, List.mem_flatMap] at this
    obtain ⟨s, hs, hq⟩ := this
    rcases hseg s hs with rfl | ⟨l, n, hw, rfl⟩
    · simp at hq
    · obtain ⟨q', hq', he⟩ := List.mem_map.mp hq
      rw [← he]
      exact (hw.parts _ (mem_numbered hq').1).1
  let P := toParts (flat segs)
  have hP : ∀ p ∈ P, p.WellFormed := by
    intro p hp
    obtain ⟨q, hq, rfl⟩ := List.mem_map.mp hp
    have := helem q hq
    exact ⟨this.opening, this.closing, tagFree_no_nowiki (hfree.1 q hq).2, this.inner, this.inner'⟩
  obtain ⟨N, hN⟩ := nowiki_parts P (flat segs).2 hP (tagFree_no_nowiki hfree.2) [] TokState.initial
  let s1 : TokState := ⟨nowikiTokens 0 P ++ [], 0 + P.length, []⟩
  have hnow : ∀ fuel, N ≤ fuel → parseNowiki fuel text TokState.initial = some (.ok (content', s1)) := by
    intro fuel hf
    have h1 := hN fuel hf
    rw [nowikiOut_eq] at h1
    have h2 : nowikiFilled P (nowikiKeys 0 P) (flat segs).2 = content' := by
      rw [show nowikiKeys 0 P = (flat segs).1.map fun q => keyOf q.2 from toParts_keys _ (flat segs).2 0 hcons]
      exact (toParts_filled (flat segs).1 (flat segs).2).trans (render_flat keyOf segs)
    rw [show (TokState.initial.counter) = 0 from rfl, h2] at h1
    have h3 : nowikiText P (flat segs).2 = text := by rw [hsrc, ← render_flat]; exact toParts_text (flat segs)
    rw [h3] at h1
    exact h1
  have hlook : ∀ q ∈ (flat segs).1, lookupToken s1.tokenMap (keyOf q.2) = some (.nowiki q.2.1.inner) := by
    have hf := nowikiTokens_found P 0 []
    rw [show nowikiKeys 0 P = (flat segs).1.map fun q => keyOf q.2 from toParts_keys _ (flat segs).2 0 hcons] at hf
    show ∀ q ∈ (flat segs).1, lookupToken (nowikiTokens 0 P ++ []) (keyOf q.2) = _
    rw [show P = (flat segs).1.map fun q => { q.2.1 with text := q.1 } from rfl] at hf
    rw [List.forall₂_map_left_iff, List.forall₂_map_right_iff] at hf
    exact fun q hq => List.forall₂_same.mp hf q hq
  -- paragraphs
  let marked : List Str := kp.2.map (render keyOf) ++ krest.flatMap fun p => markerParagraph :: p.2.map (render keyOf)
  have hkline : ∀ l ∈ segs.map (render keyOf), l = [] ∨ ∃ l' n, l'.WellFormed ∧ l = keyed n l' := by
    intro l hl
    obtain ⟨s, hs, rfl⟩ := List.mem_map.mp hl
    rcases hseg s hs with rfl | ⟨l, n, hw, rfl⟩
    · exact Or.inl rfl
    · exact Or.inr ⟨l, n, hw, rfl⟩
  have hmark : ∀ l ∈ marked, l = markerParagraph ∨ ∃ l' n, l'.WellFormed ∧ l = keyed n l' := by
    have hin : ∀ q ∈ kdoc, ∀ l ∈ q.2.map (render keyOf), ∃ l' n, l'.WellFormed ∧ l = keyed n l' := by
      intro q hq l hl
      obtain ⟨s, hs, rfl⟩ := List.mem_map.mp hl
      obtain ⟨l, n, hw, rfl⟩ := (hkdoc q hq).2 s hs
      exact ⟨l, n, hw, rfl⟩
    intro l hl
    rcases List.mem_append.mp hl with hl | hl
    · exact Or.inr (hin kp (by rw [hkd]; simp) l hl)
    · obtain ⟨q, hq, hl⟩ := List.mem_flatMap.mp hl
      rcases List.mem_cons.mp hl with hl | hl
      · exact Or.inl hl
      · exact Or.inr (hin q (by rw [hkd]; simp [hq]) l hl)
  have hmne : marked ≠ [] := by
    have := (hkdoc kp (by rw [hkd]; simp)).1
    simp [marked, this]
  have hcalm : ∀ l ∈ segs.map (render keyOf), CalmLine l := by
    intro l hl
    rcases hkline l hl with rfl | ⟨l', n, hw, rfl⟩
    · exact calm_nil
    · exact keyed_calm hw n
  have hcalm' : ∀ l ∈ marked, CalmLine l := by
    intro l hl
    rcases hmark l hl with rfl | ⟨l', n, hw, rfl⟩
    · exact calm_marker
    · exact keyed_calm hw n
  let out := join b!"\n" marked
  have hdoc' : doc' = (kp.1, kp.2.map (render keyOf)) :: krest.map fun p => (p.1, p.2.map (render keyOf)) := by
    show kdoc.map _ = _
    rw [hkd]
    rfl
  have hpar : parseParagraphs content' = out := by
    have e : content' = join b!"\n" (blockLines (asBlocks doc') ++ List.replicate last []) := by
      rw [blockLines_asBlocks]
      exact congrArg _ (hlines keyOf)
    have := C54_paragraphs (asBlocks doc') last (by
      intro b hb
      obtain ⟨q, hq, rfl⟩ := List.mem_map.mp hb
      obtain ⟨q', hq', rfl⟩ := List.mem_map.mp hq
      refine ⟨by simpa using (hkdoc q' hq').1, fun l hl => ?_⟩
      obtain ⟨s, hs, rfl⟩ := List.mem_map.mp hl
      obtain ⟨l, n, hw, rfl⟩ := (hkdoc q' hq').2 s hs
      exact ⟨keyed_ne hw n, (not_elementLine_iff _).mp (keyed_no_token hw n), keyed_oneLine hw n⟩) (by
      rw [hdoc']
      refine ⟨by simp, separated_asBlocks _ _ fun q hq => ?_⟩
      obtain ⟨q', hq', rfl⟩ := List.mem_map.mp hq
      exact hsepk q' hq') (by
      rw [blockLines_asBlocks, ← hlines keyOf]
      simpa using hsne)
    rw [← e] at this
    refine this.trans ?_
    rw [hdoc']
    show join b!"\n" ([] ++ kp.2.map (render keyOf) ++ markedLines true (asBlocks (krest.map fun p => (p.1, p.2.map (render keyOf))))) = _
    rw [markedLines_asBlocks, List.flatMap_map]
    rfl
  have hpar' : parseParagraphs out = out := by
    show parseParagraphs (join b!"\n" marked) = join b!"\n" marked
    rw [parseParagraphs, split_join_singleton hmne (fun l hl => (hcalm' l hl).oneLine), paragraphLines_calm]
    intro l hl
    rcases hmark l hl with rfl | ⟨l', n, hw, rfl⟩
    · exact ⟨by decide, by decide +kernel⟩
    · exact ⟨keyed_ne hw n, keyed_no_token hw n⟩
  have htok : ∀ fuel, N + text.length + content'.length + out.length + 4 < fuel →
      tokenizeContent env fuel text TokState.initial = some (.ok (out, s1)) := by
    intro fuel hf
    obtain ⟨f, rfl⟩ := Nat.exists_eq_add_of_le' (show 2 ≤ fuel by omega)
    have hself : parseNowiki (f + 1) content' = pure content' :=
      nowikiLoop_calm (tagFree_lines hcalm).onlyMath.calmTags (f + 1) 0 (by show content'.length < _; omega) (by omega)
    have hpass : tokenizePass env (tokenizeContent env (f + 1)) (f + 1) text TokState.initial = some (.ok (out, s1)) := by
      rw [tokenizePass_nowiki env _ _ (hnow (f + 1) (by omega)) hself,
        tokenizePass_calm env _ (by simpa using hsne) hcalm (f + 1) (by show content'.length + 1 < _; omega)]
      show some (Res.ok (parseParagraphs content', s1)) = _
      rw [hpar]
    rw [tokenizeContent, tok_run_ok hpass]
    split
    · rfl
    · rw [tokenizeContent, tokenizePass_calm env _ hmne hcalm' f (by show out.length + 1 < _; omega), pure_bind, hpar', if_pos rfl]
      rfl
  -- HTML
  let shown : List (Segs ShownElement) := kp.2.map (mapSegs shownSection) ++ krest.flatMap fun p => paragraphLine :: p.2.map (mapSegs shownSection)
  have hcode : shown.map (render fun e => e.1.code) = marked := by
    have e : ∀ ls : List KeySegs, (ls.map (mapSegs shownSection)).map (render fun e => e.1.code) = ls.map (render keyOf) := by
      intro ls
      rw [List.map_map]
      exact List.map_congr_left fun s _ => render_mapSegs _ _ s
    show List.map _ (_ ++ _) = _
    rw [List.map_append, e, List.map_flatMap]
    congr 1
    refine List.flatMap_congr fun q _ => ?_
    rw [List.map_cons, e]
    rfl
  have hhtml : join b!"\n" (shown.map (render Prod.snd)) = join b!"\n<br><br>\n" (doc.map fun p => join b!"\n" (p.2.map NowikiLine.shown)) := by
    have e : ∀ ls : List KeySegs, (ls.map (mapSegs shownSection)).map (render Prod.snd) = ls.map (render innerOf) := by
      intro ls
      rw [List.map_map]
      exact List.map_congr_left fun s _ => render_mapSegs _ _ s
    have e2 : shown.map (render Prod.snd) = kp.2.map (render innerOf) ++ (krest.map fun p => p.2.map (render innerOf)).flatMap fun p => b!"<br><br>" :: p := by
      show List.map _ (_ ++ _) = _
      rw [List.map_append, e, List.map_flatMap, List.flatMap_map]
      congr 1
      refine List.flatMap_congr fun q _ => ?_
      rw [List.map_cons, e]
      rfl
    rw [e2, join_paragraphs _ _ _ (by simpa using (hkdoc kp (by rw [hkd]; simp)).1) (by
      intro p hp
      obtain ⟨q, hq, rfl⟩ := List.mem_map.mp hp
      simpa using (hkdoc q (by rw [hkd]; simp [hq])).1)]
    have e3 := congrArg (List.map fun p : Nat × List Str => join b!"\n" p.2) (hdoc render_shown)
    rw [List.map_map, List.map_map, hkd] at e3
    simp only [Function.comp_def, List.map_cons] at e3
    rw [← e3, List.map_map]
    rfl
  have hshne : shown ≠ [] := by
    have := (hkdoc kp (by rw [hkd]; simp)).1
    simp [shown, this]
  have hshline : ∀ s ∈ shown, s = paragraphLine ∨ ∃ s' ∈ segs, (∃ l n, l.WellFormed ∧ s' = lineSegs n l) ∧ s = mapSegs shownSection s' := by
    have hin : ∀ q ∈ kdoc, ∀ s ∈ q.2.map (mapSegs shownSection), ∃ s' ∈ segs, (∃ l n, l.WellFormed ∧ s' = lineSegs n l) ∧ s = mapSegs shownSection s' := by
      intro q hq s hs
      obtain ⟨s', hs', rfl⟩ := List.mem_map.mp hs
      refine ⟨s', ?_, (hkdoc q hq).2 s' hs', rfl⟩
      rw [hsegs]
      exact List.mem_append_left _ (List.mem_flatMap.mpr ⟨q, hq, List.mem_append_right _ hs'⟩)
    intro s hs
    rcases List.mem_append.mp hs with hs | hs
    · exact Or.inr (hin kp (by rw [hkd]; simp) s hs)
    · obtain ⟨q, hq, hs⟩ := List.mem_flatMap.mp hs
      rcases List.mem_cons.mp hs with hs | hs
      · exact Or.inl hs
      · exact Or.inr (hin q (by rw [hkd]; simp [hq]) s hs)
  have hends : (∀ p ∈ (flat shown).1, GoodEnd p.1 ∧ ¬ b!"$$" <:+: p.1) ∧ ¬ b!"$$" <:+: (flat shown).2 := by
    refine flat_texts GoodEnd goodEnd_two (fun t => ¬ b!"$$" <:+: t) (fun a b => dd_two) shown (fun s hs => ?_) hshne
    rcases hshline s hs with rfl | ⟨s', -, ⟨l, n, hw, rfl⟩, rfl⟩
    · refine ⟨fun q hq => ?_, by simp [paragraphLine]⟩
      obtain rfl := List.mem_singleton.mp hq
      exact ⟨⟨by simp, fun m => by cases m <;> decide⟩, by simp⟩
    · refine ⟨fun q hq => ?_, (outline_text hw.outline.noInternal).2⟩
      obtain ⟨q', hq', rfl⟩ := List.mem_map.mp hq
      obtain ⟨hm, he⟩ := mem_numbered hq'
      have hu := (hw.parts _ hm).2.2
      simp only [he]
      exact ⟨hu.2, hu.1⟩
  have hrep : ∀ q ∈ (flat shown).1, q.2 = (.marker .paragraph, b!"<br><br>") ∨
      ∃ n inner, q.2 = (.token b!"HEADINNOWIKI" n, inner) ∧ lookupToken s1.tokenMap (tokenKey b!"HEADINNOWIKI" n) = some (.nowiki inner) := by
    intro q hq
    have : q.2 ∈ (flat shown).1.map Prod.snd := List.mem_map_of_mem hq
    rw [elements_flat, List.mem_flatMap] at this
    obtain ⟨s, hs, hq⟩ := this
    rcases hshline s hs with rfl | ⟨s', hs', -, rfl⟩
    · exact Or.inl (List.mem_singleton.mp hq)
    · simp only [mapSegs, List.map_map, List.mem_map, Function.comp_def] at hq
      obtain ⟨q', hq', he⟩ := hq
      refine Or.inr ⟨q'.2.2, q'.2.1.inner, he.symm, ?_⟩
      have hmem : q'.2 ∈ (flat segs).1.map Prod.snd := by
        rw [elements_flat]
        exact List.mem_flatMap.mpr ⟨s', hs', List.mem_map_of_mem hq'⟩
      obtain ⟨q'', hq'', he''⟩ := List.mem_map.mp hmem
      have := hlook q'' hq''
      rw [he''] at this
      exact this
  let pieces : List ElementPiece := (flat shown).1.map fun q => ⟨q.1, q.2.1⟩
  let content : Token → Str := fun t => match t with | .nowiki c => c | _ => []
  have hexp : ∀ fuel, expandString html s1.tokenMap (fuel + 1) out =
      some (.ok (join b!"\n<br><br>\n" (doc.map fun p => join b!"\n" (p.2.map NowikiLine.shown)))) := by
    intro fuel
    have := C28_tokens_are_replaced_in_place_partial html s1.tokenMap fuel pieces (flat shown).2 (by
      intro p hp
      obtain ⟨q, hq, rfl⟩ := List.mem_map.mp hp
      obtain ⟨h1, h2⟩ := hends.1 q hq
      refine ⟨⟨h2, h1⟩, ?_⟩
      rcases hrep q hq with h | ⟨n, inner, h, -⟩
      · rw [h]; trivial
      · rw [h]; exact ⟨by decide, by decide⟩) hends.2 content (by
      intro p hp type n token ht hl
      obtain ⟨q, hq, rfl⟩ := List.mem_map.mp hp
      rcases hrep q hq with h | ⟨n', inner, h, h'⟩
      · rw [h] at ht; cases ht
      · rw [h] at ht
        obtain ⟨rfl, rfl⟩ : type = b!"HEADINNOWIKI" ∧ n = n' := by simpa [eq_comm] using ht
        rw [h'] at hl
        obtain rfl := Option.some.inj hl
        rfl) ((flat shown).1.map fun q => q.2.2) (by
      rw [List.forall₂_map_left_iff, List.forall₂_map_right_iff, List.forall₂_same]
      intro q hq
      rcases hrep q hq with h | ⟨n, inner, h, h'⟩
      · rw [h]; rfl
      · rw [h]; simp only [replacement, h', Option.map_some]; rfl)
    have e1 : piecesText pieces (flat shown).2 = out := by
      show _ = join b!"\n" marked
      rw [← hcode, ← render_flat]
      simp [piecesText, pieces, render, List.flatMap_def, Function.comp_def]
    have e2 : (List.zipWith (fun (p : ElementPiece) x => p.text ++ x) pieces ((flat shown).1.map fun q => q.2.2)).flatten ++ (flat shown).2 =
        join b!"\n" (shown.map (render Prod.snd)) := by
      rw [← render_flat, List.zipWith_map, List.zipWith_self]
      simp [render, List.flatMap_def]
    rw [e1, e2, hhtml] at this
    exact this
  refine ⟨N + text.length + content'.length + out.length + 5, fun fuel hf => ?_⟩
  have htk : tokenizeArticle env templates iterate fuel text = some (.ok (out, s1)) := by
    rw [tokenizeArticle, hclean fuel (by omega)]
    simp only [htemp fuel (by omega), hclean fuel (by omega), htok fuel (by omega)]
  rw [articleHtml, htk]
  simp only
  obtain ⟨f, rfl⟩ := Nat.exists_eq_add_of_le' (show 1 ≤ fuel by omega)
  rw [generateHtml, hexp]
  rfl

/-- Two lines with emphasis, a heading, a reference, a formula, a link and an entry of a list in nowiki tags. -/
def nowikiLinesExample : List (Nat × List NowikiLine) :=
  [(0, [⟨[⟨b!"Write ", b!"<nowiki>", b!"'''b'''<ref name=x>[http://c d]</ref>", b!"</nowiki>"⟩, ⟨b!" or ", b!"<NoWiki>", b!"== e ==", b!"</nowiki>"⟩], b!"."⟩]),
   (1, [⟨[⟨[], b!"<nowiki>", b!"* <math>f</math>", b!"</nowiki>"⟩], b!" too"⟩, ⟨[], b!"End."⟩])]

example : NowikiParagraphs nowikiLinesExample := by
  have hw : ∀ p ∈ nowikiLinesExample, ∀ l ∈ p.2, l.WellFormed := by
    have h : ∀ l ∈ nowikiLinesExample.flatMap Prod.snd, l.WellFormed := by
      intro l hl
      simp only [nowikiLinesExample, List.flatMap_cons, List.flatMap_nil, List.cons_append, List.nil_append, List.append_nil, List.mem_cons,
        List.not_mem_nil, or_false] at hl
      rcases hl with rfl | rfl | rfl <;>
      · refine ⟨?_, ?_, ?_⟩
        · intro p hp
          first
          | (simp only [List.not_mem_nil] at hp; done)
          | (simp only [List.mem_cons, List.not_mem_nil, or_false] at hp
             rcases hp with rfl | rfl <;>
              exact ⟨⟨by decide, by decide, by decide +kernel, by decide +kernel, by decide +kernel⟩,
                ⟨by decide, by decide +kernel, by decide +kernel, by decide +kernel, by decide +kernel⟩,
                by decide +kernel, by decide +kernel, fun m => by cases m <;> decide⟩)
          | (simp only [List.mem_cons, List.not_mem_nil, or_false] at hp
             rcases hp with rfl
             exact ⟨⟨by decide, by decide, by decide +kernel, by decide +kernel, by decide +kernel⟩,
                ⟨by decide, by decide +kernel, by decide +kernel, by decide +kernel, by decide +kernel⟩,
                by decide +kernel, by decide +kernel, fun m => by cases m <;> decide⟩)
        · refine ⟨by decide, by decide, by decide +kernel, by simp [NowikiLine.outline], by decide +kernel, by decide, by decide, by decide +kernel, noTag_of ?_,
            by decide +kernel, by decide +kernel, by decide +kernel⟩
          decide +kernel
        · simp
    exact fun p hp l hl => h l (List.mem_flatMap.mpr ⟨p, hp, hl⟩)
  refine ⟨by simp [nowikiLinesExample], fun p hp => ⟨?_, hw p hp⟩, by simp [nowikiLinesExample]⟩
  simp only [nowikiLinesExample, List.mem_cons, List.not_mem_nil, or_false] at hp
  rcases hp with rfl | rfl <;> simp

example (env : ParserEnv) : LinksAreKept env (join b!"\n" (paragraphsLines (nowikiLinesExample.map fun p => (p.1, p.2.map NowikiLine.source)))) :=
  Or.inl (by rw [← contains_eq_false_iff]; decide +kernel)

open LinkText in
/-- The hypothesis also holds for closed links. -/
example : LinksAreKept exampleEnv b!"a<nowiki>[[h|i]]</nowiki>" := by
  refine Or.inr ⟨b!"a<nowiki>".foldr char (link (char 0x68 (char 0x7C (char 0x69 nil))) (b!"</nowiki>".foldr char nil)), rfl, ?_, ?_⟩
  · simp [WellFormed, startsWithBracket]
  · simp only [List.foldr, AllLinks, and_true, true_and]
    exact ⟨by rw [show (char 0x68 (char 0x7C (char 0x69 nil))).text = b!"h|i" from rfl, ← isUnwantedLink_iff exampleEnv b!"h|i" fun hm => absurd hm (by decide)]; decide +kernel, by decide⟩

/-- **C38** is false for opening brackets: the step that removes unwanted links comes before the parser and crashes. -/
theorem C38_brackets_in_nowiki_crash (templates : TemplateEnv) (iterate : Nat → List (Str × Str) → List (Str × Str)) (html : HtmlEnv)
    (style title : Str) :
    articleHtml exampleEnv templates iterate html 100 style title b!"Links begin with <nowiki>[[</nowiki> and a title." = some .panic := by
  rw [articleHtml, tokenizeArticle,
    show cleanText exampleEnv 100 b!"Links begin with <nowiki>[[</nowiki> and a title." = some .panic by decide +kernel]

/-- **C38** is false for templates: they are evaluated before the parser sees the tags. -/
theorem C38_templates_in_nowiki_are_evaluated :
    evaluateTemplates exampleTemplates (fun _ m => m) 90 b!"Write <nowiki>{{b}}</nowiki>." =
      some (.ok (b!"Write <nowiki>B</nowiki>.", [(b!"{{b}}", b!"b0")])) := by
  decide +kernel

end Verif.Props
