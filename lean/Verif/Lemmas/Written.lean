import Verif.Lemmas.Formatting

/-! Helper lemmas about bold and italic in texts that are written properly. -/

namespace Verif.Model
open Verif.Go Verif.Spec
open scoped List

/-- The parts are a reading of the document, up to a position where all sections are closed. -/
structure Reading (os : List MarkType) (b i : Bool) (d : List WrittenPart) (parts : List FormatPart) : Prop where
  wellFormed : ∀ p ∈ parts, p.WellFormed
  original : originalText parts = writtenText d
  nested : NestedFrom os (marksOf parts)
  ends : ∀ t, parts.getLast? ≠ some (.text t)
  styled : styledChars b i parts = intendedChars (b, i) d
  closed : finalStyle (b, i) d = (false, false)

theorem styledChars_italicParts (b i crossover : Bool) (hc : crossover = true → b = true) (parts : List FormatPart) :
    styledChars b i (italicParts i crossover ++ parts) = styledChars b (!i) parts := by
  cases crossover <;> cases i <;> simp_all [italicParts, styledChars]

theorem styledChars_boldParts (b i crossover : Bool) (hc : crossover = true → i = true) (parts : List FormatPart) :
    styledChars b i (boldParts b crossover ++ parts) = styledChars (!b) i parts := by
  cases crossover <;> cases b <;> simp_all [boldParts, styledChars]

theorem MarkState.crossB {os : List MarkType} {stack : List MarkItem} {b i : Bool} (h : MarkState os stack b i)
    (ht : topIs stack .boldOpen = true) : b = true := by
  have := h.topB ht
  rcases h.cases with h | h | h | h | h <;> simp_all

theorem MarkState.crossI {os : List MarkType} {stack : List MarkItem} {b i : Bool} (h : MarkState os stack b i)
    (ht : topIs stack .italicOpen = true) : i = true := by
  have := h.topI ht
  rcases h.cases with h | h | h | h | h <;> simp_all

theorem getLast_append_mark {ps parts : List FormatPart} (h1 : ∀ t, ps.getLast? ≠ some (.text t))
    (h2 : ∀ t, parts.getLast? ≠ some (.text t)) (t : Str) : (ps ++ parts).getLast? ≠ some (.text t) := by
  rw [List.getLast?_append]
  cases hq : parts.getLast? with
  | none => simpa using h1 t
  | some p => simpa [hq] using h2 t

theorem reading_italic {os : List MarkType} {stack : List MarkItem} {b i : Bool} (h : MarkState os stack b i)
    (index : Nat) {d d' : List WrittenPart}
    (hd : writtenText d = b!"''" ++ writtenText d') (hs : intendedChars (b, i) d = intendedChars (b, !i) d')
    (hf : finalStyle (b, i) d = finalStyle (b, !i) d') :
    ∃ os', MarkState os' (stack ++ italicItems index i (topIs stack .boldOpen && i)) b (!i) ∧
      ∀ parts, Reading os' b (!i) d' parts →
        ∃ parts', Reading os b i d parts' ∧
          stack ++ italicItems index i (topIs stack .boldOpen && i) ++ itemsOf (index + 2) parts =
            stack ++ itemsOf index parts' := by
  obtain ⟨os', hs', hn⟩ := markState_italic h index
  obtain ⟨e1, e2, e3, e4, e5⟩ := italicParts_items index i (topIs stack .boldOpen && i)
  refine ⟨os', hs', fun parts hr => ⟨italicParts i (topIs stack .boldOpen && i) ++ parts, ⟨?_, ?_, ?_, ?_, ?_, ?_⟩, ?_⟩⟩
  · intro p hp
    rcases List.mem_append.mp hp with hp | hp
    · exact e4 p hp
    · exact hr.wellFormed p hp
  · rw [originalText_append, e2, hd, hr.original]
  · rw [marksOf_append, e3]; exact hn _ hr.nested
  · exact getLast_append_mark e5 hr.ends
  · rw [styledChars_italicParts, hr.styled, hs]
    intro hc
    simp only [Bool.and_eq_true] at hc
    exact h.crossB hc.1
  · rw [hf, hr.closed]
  · rw [itemsOf_append, e1, e2, List.append_assoc]
    rfl

theorem reading_bold {os : List MarkType} {stack : List MarkItem} {b i : Bool} (h : MarkState os stack b i)
    (index : Nat) {d d' : List WrittenPart}
    (hd : writtenText d = b!"'''" ++ writtenText d') (hs : intendedChars (b, i) d = intendedChars (!b, i) d')
    (hf : finalStyle (b, i) d = finalStyle (!b, i) d') :
    ∃ os', MarkState os' (stack ++ boldItems index b (topIs stack .italicOpen && b)) (!b) i ∧
      ∀ parts, Reading os' (!b) i d' parts →
        ∃ parts', Reading os b i d parts' ∧
          stack ++ boldItems index b (topIs stack .italicOpen && b) ++ itemsOf (index + 3) parts =
            stack ++ itemsOf index parts' := by
  obtain ⟨os', hs', hn⟩ := markState_bold h index
  obtain ⟨e1, e2, e3, e4, e5⟩ := boldParts_items index b (topIs stack .italicOpen && b)
  refine ⟨os', hs', fun parts hr => ⟨boldParts b (topIs stack .italicOpen && b) ++ parts, ⟨?_, ?_, ?_, ?_, ?_, ?_⟩, ?_⟩⟩
  · intro p hp
    rcases List.mem_append.mp hp with hp | hp
    · exact e4 p hp
    · exact hr.wellFormed p hp
  · rw [originalText_append, e2, hd, hr.original]
  · rw [marksOf_append, e3]; exact hn _ hr.nested
  · exact getLast_append_mark e5 hr.ends
  · rw [styledChars_boldParts, hr.styled, hs]
    intro hc
    simp only [Bool.and_eq_true] at hc
    exact h.crossI hc.1
  · rw [hf, hr.closed]
  · rw [itemsOf_append, e1, e2, List.append_assoc]
    rfl

/-! ### Steps of the search -/

theorem quotes2_cons (c : UInt8) (r : Str) : (b!"''" <+: c :: r) ↔ c = 39 ∧ r.head? = some 39 := by
  cases r with
  | nil => simp [List.prefix_iff_eq_take]
  | cons d r => simp [List.cons_prefix_cons, eq_comm]

theorem quotes3_cons (c d : UInt8) (r : Str) : (b!"'''" <+: c :: d :: r) ↔ c = 39 ∧ d = 39 ∧ r.head? = some 39 := by
  cases r with
  | nil => simp [List.prefix_iff_eq_take]
  | cons e r => simp [List.cons_prefix_cons, eq_comm]

theorem lt_of_drop {content : Str} {index : Nat} {c : UInt8} {r : Str} (h : content.drop index = c :: r) :
    index < content.length := by
  by_contra hn
  rw [List.drop_eq_nil_of_le (by omega)] at h
  cases h

theorem drop_of_drop {content p r : Str} {index : Nat} (h : content.drop index = p ++ r) :
    content.drop (index + p.length) = r := by
  rw [← List.drop_drop, h, List.drop_left]

/-- A single apostrophe behind another one is not accepted. -/
theorem tok_one (content : Str) (repair : Bool) (steps index : Nat) (stack : List MarkItem) (b i : Bool) (r : Str)
    (hd : content.drop index = (39 : UInt8) :: (39 : UInt8) :: r) (hr : r.head? ≠ some 39) :
    tokenizeBoldAndItalic content repair steps (index + 1) stack b i = none := by
  cases steps with
  | zero => rfl
  | succ steps =>
    have hd' : content.drop (index + 1) = (39 : UInt8) :: r := by
      rw [← List.drop_drop, hd]; rfl
    have h1 : hasPrefix (content.drop (index + 1)) b!"''" = false := by
      rw [← Bool.not_eq_true, hasPrefix_iff, hd', quotes2_cons]
      exact fun h => hr h.2
    have h2 : hasPrefix (content.drop (index + 1)) b!"'''" = false := by
      rw [← Bool.not_eq_true] at h1 ⊢
      rw [hasPrefix_iff] at h1 ⊢
      intro h
      exact h1 (List.IsPrefix.trans (by decide) h)
    have h3 : hasPrefix (content.drop (index + 1 - 1)) b!"''" = true := by
      rw [Nat.add_sub_cancel, hasPrefix_iff, hd, quotes2_cons]
      exact ⟨rfl, rfl⟩
    rw [tokenizeBoldAndItalic, if_pos (lt_of_drop hd')]
    rw [Nat.add_sub_cancel] at h3
    simp [h1, h2, h3]

theorem tok_run2 {content : Str} {repair : Bool} {steps index : Nat} {stack result : List MarkItem} {b i : Bool} {r : Str}
    (hd : content.drop index = b!"''" ++ r) (hr : r.head? ≠ some 39)
    (h : tokenizeBoldAndItalic content repair (steps + 1) index stack b i = some result) :
    tokenizeBoldAndItalic content repair steps (index + 2) (stack ++ italicItems index i (topIs stack .boldOpen && i))
      b (!i) = some result := by
  have h1 : hasPrefix (content.drop index) b!"''" = true := by
    rw [hasPrefix_iff, hd]; exact List.prefix_append _ _
  have h2 : hasPrefix (content.drop index) b!"'''" = false := by
    rw [← Bool.not_eq_true, hasPrefix_iff, hd]
    intro h
    exact hr ((quotes3_cons _ _ _).mp h).2.2
  rw [tokenizeBoldAndItalic, if_pos (lt_of_drop hd)] at h
  simp only [h1, h2] at h
  split at h
  · rename_i x hx
    split at hx
    · rw [hx]; exact h
    · cases hx
  · simp at h

theorem tok_run3 {content : Str} {repair : Bool} {steps index : Nat} {stack result : List MarkItem} {b i : Bool} {r : Str}
    (hd : content.drop index = b!"'''" ++ r)
    (h : tokenizeBoldAndItalic content repair (steps + 1) index stack b i = some result) :
    tokenizeBoldAndItalic content repair steps (index + 2) (stack ++ italicItems index i (topIs stack .boldOpen && i))
      b (!i) = some result ∨
    tokenizeBoldAndItalic content repair steps (index + 3) (stack ++ boldItems index b (topIs stack .italicOpen && b))
      (!b) i = some result := by
  have h1 : hasPrefix (content.drop index) b!"''" = true := by
    rw [hasPrefix_iff, hd]; exact List.IsPrefix.trans (by decide) (List.prefix_append _ _)
  have h2 : hasPrefix (content.drop index) b!"'''" = true := by
    rw [hasPrefix_iff, hd]; exact List.prefix_append _ _
  rw [tokenizeBoldAndItalic, if_pos (lt_of_drop hd)] at h
  simp only [h1, h2] at h
  split at h
  · rename_i x hx
    split at hx
    · left; rw [hx]; exact h
    · cases hx
  · simp only [if_true] at h
    split at h
    · cases h
    · right; exact h

/-- Text is skipped unless all sections are closed. -/
theorem tok_text {content : Str} {repair : Bool} (steps : Nat) (stack : List MarkItem) (b i : Bool)
    (hst : (stack ≠ [] && balanced stack) = false) (t : Str) : ∀ (r : Str) (index : Nat),
    content.drop index = t ++ r → ¬ b!"''" <:+: t → t.getLast? ≠ some 39 →
    (0 < index → ¬ b!"''" <+: content.drop (index - 1)) →
    tokenizeBoldAndItalic content repair (t.length + steps) index stack b i =
      tokenizeBoldAndItalic content repair steps (index + t.length) stack b i := by
  induction t with
  | nil => intro r index _ _ _ _; simp
  | cons c t ih =>
    intro r index hd hq hl hp
    have h1 : ¬ b!"''" <+: content.drop index := by
      rw [hd, List.cons_append, quotes2_cons]
      rintro ⟨rfl, h⟩
      cases t with
      | nil => simp at hl
      | cons x t =>
        simp at h
        subst h
        exact hq ⟨[], t, rfl⟩
    have h2 : ¬ b!"'''" <+: content.drop index := fun h => h1 (List.IsPrefix.trans (by decide) h)
    have h3 : (decide (0 < index) && hasPrefix (content.drop (index - 1)) b!"''") = false := by
      rw [← Bool.not_eq_true, Bool.and_eq_true, hasPrefix_iff, decide_eq_true_iff]
      exact fun h => hp h.1 h.2
    have e : (c :: t).length + steps = (t.length + steps) + 1 := by simp; omega
    rw [e, tokenizeBoldAndItalic, if_pos (lt_of_drop hd)]
    rw [← Bool.not_eq_true] at hst
    simp only [← hasPrefix_iff, Bool.not_eq_true] at h1 h2
    simp only [h1, h2, h3]
    simp only [Bool.false_and, Bool.false_eq_true, if_false]
    rw [if_neg hst]
    have hd' : content.drop (index + 1) = t ++ r := drop_of_drop (p := [c]) hd
    rw [ih r (index + 1) hd']
    · congr 1; simp; omega
    · intro h; exact hq (List.infix_cons h)
    · cases t with
      | nil => simp
      | cons x t => simpa using hl
    · intro _
      rw [Nat.add_sub_cancel, ← hasPrefix_iff, h1]; simp

/-! ### The search in a document -/

theorem MarkState.unique {os os' : List MarkType} {stack : List MarkItem} {b i : Bool} (h : MarkState os stack b i)
    (h' : MarkState os' stack b i) : os = os' := by
  have a1 := h.topB
  have a2 := h.topI
  have b1 := h'.topB
  have b2 := h'.topI
  rcases h.cases with h | h | h | h | h <;> rcases h'.cases with h' | h' | h' | h' | h' <;> simp_all

theorem MarkState.reading_nil {os : List MarkType} {stack : List MarkItem} {b i : Bool} (h : MarkState os stack b i)
    (hb : balanced stack = true) : Reading os b i [] [] := by
  have hn := h.closed hb
  refine ⟨by simp, rfl, by simpa [marksOf, NestedFrom] using hn, by simp, rfl, ?_⟩
  subst hn
  rcases h.cases with ⟨_, rfl, rfl⟩ | h | h | h | h
  · rfl
  all_goals exact absurd h.1 (by simp)

theorem no_pair_before {content : Str} {index : Nat} {c : UInt8} {r : Str} (hi : 0 < index)
    (hd : content.drop index = c :: r) (hc : c ≠ 39) : ¬ b!"''" <+: content.drop (index - 1) := by
  have hlen := lt_of_drop hd
  have : content.drop (index - 1) = content[index - 1] :: content.drop index := by
    rw [List.drop_eq_getElem_cons (by omega)]
    congr 2; omega
  rw [this, hd, quotes2_cons]
  intro h
  exact hc (by simpa using h.2)

theorem repair_italic {content : Str} {steps index : Nat} {stack : List MarkItem} {b i : Bool}
    (hp : b!"''" <+: content.drop index)
    (h : tokenizeBoldAndItalic content true steps (index + 2) (stack ++ italicItems index i (topIs stack .boldOpen && i))
      b (!i) ≠ none) : tokenizeBoldAndItalic content true (steps + 1) index stack b i ≠ none := by
  have hlen : index < content.length := by
    by_contra hn
    rw [List.drop_eq_nil_of_le (by omega)] at hp
    simp at hp
  obtain ⟨result, hr⟩ := Option.ne_none_iff_exists'.mp h
  rw [← hasPrefix_iff] at hp
  rw [tokenizeBoldAndItalic, if_pos hlen]
  simp [hp, hr]

theorem repair_bold {content : Str} {steps index : Nat} {stack : List MarkItem} {b i : Bool}
    (hp : b!"'''" <+: content.drop index)
    (h : tokenizeBoldAndItalic content true steps (index + 3) (stack ++ boldItems index b (topIs stack .italicOpen && b))
      (!b) i ≠ none) : tokenizeBoldAndItalic content true (steps + 1) index stack b i ≠ none := by
  have hlen : index < content.length := by
    by_contra hn
    rw [List.drop_eq_nil_of_le (by omega)] at hp
    simp at hp
  rw [← hasPrefix_iff] at hp
  rw [tokenizeBoldAndItalic, if_pos hlen]
  simp only [hp]
  split
  · simp
  · simpa using h

theorem writtenText_append (a b : List WrittenPart) : writtenText (a ++ b) = writtenText a ++ writtenText b := by
  induction a with
  | nil => rfl
  | cons p a ih => cases p <;> simp [writtenText, ih]

theorem finalStyle_append (s : Bool × Bool) (a b : List WrittenPart) :
    finalStyle s (a ++ b) = finalStyle (finalStyle s a) b := by
  induction a generalizing s with
  | nil => rfl
  | cons p a ih => cases p <;> simp [finalStyle, ih]

theorem intendedChars_append (s : Bool × Bool) (a b : List WrittenPart) :
    intendedChars s (a ++ b) = intendedChars s a ++ intendedChars (finalStyle s a) b := by
  induction a generalizing s with
  | nil => rfl
  | cons p a ih => cases p <;> simp [finalStyle, intendedChars, ih]

theorem _root_.Verif.Spec.WellWritten.right {a b : List WrittenPart} (h : WellWritten (a ++ b)) : WellWritten b := by
  induction a with
  | nil => exact h
  | cons p a ih =>
    cases p with
    | text t => exact ih h.2.2.2.2
    | quotes n => exact ih h.2.2

/-- The style that belongs to the opened sections. -/
def styleOf (os : List MarkType) : Bool × Bool := (.boldOpen ∈ os, .italicOpen ∈ os)

theorem styledChars_append {a : List FormatPart} {os : List MarkType} (ho : os.Nodup) (hn : NestedFrom os (marksOf a))
    (b : List FormatPart) :
    styledChars (styleOf os).1 (styleOf os).2 (a ++ b) =
      styledChars (styleOf os).1 (styleOf os).2 a ++ styledChars false false b := by
  induction a generalizing os with
  | nil =>
    simp only [marksOf, NestedFrom] at hn
    subst hn
    rfl
  | cons p a ih =>
    cases p with
    | text t =>
      simp only [List.cons_append, styledChars, List.append_assoc]
      rw [ih ho hn]
    | mark m s =>
      cases m with
      | boldOpen =>
        obtain ⟨h1, h2⟩ := hn
        have := ih (os := .boldOpen :: os) (List.nodup_cons.mpr ⟨h1, ho⟩) h2
        simpa [styledChars, styleOf] using this
      | italicOpen =>
        obtain ⟨h1, h2⟩ := hn
        have := ih (os := .italicOpen :: os) (List.nodup_cons.mpr ⟨h1, ho⟩) h2
        simpa [styledChars, styleOf] using this
      | boldClose =>
        obtain ⟨h1, h2⟩ := hn
        cases os with
        | nil => simp at h1
        | cons o os =>
          simp only [List.head?_cons, Option.some.injEq] at h1
          subst h1
          obtain ⟨h3, h4⟩ := List.nodup_cons.mp ho
          have := ih (os := os) h4 h2
          simpa [styledChars, styleOf, h3] using this
      | italicClose =>
        obtain ⟨h1, h2⟩ := hn
        cases os with
        | nil => simp at h1
        | cons o os =>
          simp only [List.head?_cons, Option.some.injEq] at h1
          subst h1
          obtain ⟨h3, h4⟩ := List.nodup_cons.mp ho
          have := ih (os := os) h4 h2
          simpa [styledChars, styleOf, h3] using this

theorem styledChars_append' {a : List FormatPart} (hn : ProperlyNested a) (b : List FormatPart) :
    styledChars false false (a ++ b) = styledChars false false a ++ styledChars false false b :=
  styledChars_append (os := []) List.nodup_nil hn b

theorem _root_.Verif.Spec.WellWritten.noQuote {d : List WrittenPart} (h : WellWritten d) (hq : ∀ m, d.head? ≠ some (.quotes m)) :
    (writtenText d).head? ≠ some 39 := by
  cases d with
  | nil => simp [writtenText]
  | cons p d =>
    cases p with
    | quotes n => exact absurd rfl (hq n)
    | text t =>
      obtain ⟨h1, _, h2, _⟩ := h
      cases t with
      | nil => exact absurd rfl h1
      | cons c t => simpa [writtenText] using h2

/-- What the search finds is a reading of the document. -/
def Found (content : Str) (repair : Bool) (d : List WrittenPart) : Prop :=
  ∀ steps index stack b i os result, MarkState os stack b i → content.drop index = writtenText d →
    (writtenText d).length < steps →
    tokenizeBoldAndItalic content repair steps index stack b i = some result →
    ∃ d1 d2 parts, d = d1 ++ d2 ∧ Reading os b i d1 parts ∧ result = stack ++ itemsOf index parts ∧
      ((∃ n, d.head? = some (.quotes n)) → d1 ≠ [])

theorem found_quotes2 {content : Str} {repair : Bool} {d : List WrittenPart} (hw : WellWritten d)
    (hq : ∀ m, d.head? ≠ some (.quotes m)) (h : Found content repair d) :
    Found content repair (.quotes 2 :: d) := by
  intro steps index stack b i os result hs hd hl ht
  cases steps with
  | zero => simp [tokenizeBoldAndItalic] at ht
  | succ steps =>
    simp only [writtenText, List.length_append, List.length_replicate] at hl
    have hd2 : content.drop index = b!"''" ++ writtenText d := hd
    have ht2 := tok_run2 hd2 (hw.noQuote hq) ht
    obtain ⟨os', hs', _⟩ := reading_italic hs index (d := .quotes 2 :: d) (d' := d) rfl rfl rfl
    obtain ⟨d1, d2, parts, e, hr, he, _⟩ := h _ _ _ _ _ os' _ hs' (drop_of_drop hd2) (by omega) ht2
    obtain ⟨os'', hs'', hstep⟩ := reading_italic hs index (d := .quotes 2 :: d1) (d' := d1) rfl rfl rfl
    have : os' = os'' := MarkState.unique hs' hs''
    subst this
    obtain ⟨parts', hr', he'⟩ := hstep parts hr
    exact ⟨.quotes 2 :: d1, d2, parts', by rw [e]; rfl, hr', by rw [he, ← he']; rfl, by simp⟩

theorem found_quotes3 {content : Str} {repair : Bool} {d : List WrittenPart} (hw : WellWritten d)
    (hq : ∀ m, d.head? ≠ some (.quotes m)) (h : Found content repair d) :
    Found content repair (.quotes 3 :: d) := by
  intro steps index stack b i os result hs hd hl ht
  cases steps with
  | zero => simp [tokenizeBoldAndItalic] at ht
  | succ steps =>
    simp only [writtenText, List.length_append, List.length_replicate] at hl
    have hd2 : content.drop index = b!"'''" ++ writtenText d := hd
    rcases tok_run3 hd2 ht with ht2 | ht2
    · have hd3 : content.drop (index + 1) = (39 : UInt8) :: (39 : UInt8) :: writtenText d := by
        rw [← List.drop_drop, hd2]; rfl
      rw [tok_one _ _ _ _ _ _ _ _ hd3 (hw.noQuote hq)] at ht2
      cases ht2
    · obtain ⟨os', hs', _⟩ := reading_bold hs index (d := .quotes 3 :: d) (d' := d) rfl rfl rfl
      obtain ⟨d1, d2, parts, e, hr, he, _⟩ := h _ _ _ _ _ os' _ hs' (drop_of_drop hd2) (by omega) ht2
      obtain ⟨os'', hs'', hstep⟩ := reading_bold hs index (d := .quotes 3 :: d1) (d' := d1) rfl rfl rfl
      have : os' = os'' := MarkState.unique hs' hs''
      subst this
      obtain ⟨parts', hr', he'⟩ := hstep parts hr
      exact ⟨.quotes 3 :: d1, d2, parts', by rw [e]; rfl, hr', by rw [he, ← he']; rfl, by simp⟩

theorem found_quotes5 {content : Str} {repair : Bool} {d : List WrittenPart} (hw : WellWritten d)
    (hq : ∀ m, d.head? ≠ some (.quotes m)) (h : Found content repair d) :
    Found content repair (.quotes 5 :: d) := by
  intro steps index stack b i os result hs hd hl ht
  cases steps with
  | zero => simp [tokenizeBoldAndItalic] at ht
  | succ steps =>
    simp only [writtenText, List.length_append, List.length_replicate] at hl
    have hd2 : content.drop index = b!"'''" ++ (b!"''" ++ writtenText d) := hd
    rcases tok_run3 hd2 ht with ht2 | ht2
    · have hd3 : content.drop (index + 2) = writtenText (.quotes 3 :: d) :=
        drop_of_drop (p := b!"''") (r := b!"'''" ++ writtenText d) hd
      obtain ⟨os', hs', _⟩ := reading_italic hs index (d := .quotes 5 :: d) (d' := .quotes 3 :: d) rfl rfl rfl
      obtain ⟨d1, d2, parts, e, hr, he, hne⟩ := found_quotes3 hw hq h _ _ _ _ _ os' _ hs' hd3
        (by simp [writtenText]; omega) ht2
      cases d1 with
      | nil => exact absurd rfl (hne ⟨3, rfl⟩)
      | cons p d1 =>
        simp only [List.cons_append, List.cons.injEq] at e
        obtain ⟨rfl, rfl⟩ := e
        obtain ⟨os'', hs'', hstep⟩ := reading_italic hs index (d := .quotes 5 :: d1) (d' := .quotes 3 :: d1) rfl rfl rfl
        have : os' = os'' := MarkState.unique hs' hs''
        subst this
        obtain ⟨parts', hr', he'⟩ := hstep parts hr
        exact ⟨.quotes 5 :: d1, d2, parts', rfl, hr', by rw [he, ← he'], by simp⟩
    · have hd3 : content.drop (index + 3) = writtenText (.quotes 2 :: d) := drop_of_drop (p := b!"'''") hd2
      obtain ⟨os', hs', _⟩ := reading_bold hs index (d := .quotes 5 :: d) (d' := .quotes 2 :: d) rfl rfl rfl
      obtain ⟨d1, d2, parts, e, hr, he, hne⟩ := found_quotes2 hw hq h _ _ _ _ _ os' _ hs' hd3
        (by simp [writtenText]; omega) ht2
      cases d1 with
      | nil => exact absurd rfl (hne ⟨2, rfl⟩)
      | cons p d1 =>
        simp only [List.cons_append, List.cons.injEq] at e
        obtain ⟨rfl, rfl⟩ := e
        obtain ⟨os'', hs'', hstep⟩ := reading_bold hs index (d := .quotes 5 :: d1) (d' := .quotes 2 :: d1) rfl rfl rfl
        have : os' = os'' := MarkState.unique hs' hs''
        subst this
        obtain ⟨parts', hr', he'⟩ := hstep parts hr
        exact ⟨.quotes 5 :: d1, d2, parts', rfl, hr', by rw [he, ← he'], by simp⟩

/-- The search stops in front of text if all sections are closed. -/
theorem tok_stop {content : Str} {repair : Bool} (steps index : Nat) (stack : List MarkItem) (b i : Bool)
    (hst : (stack ≠ [] && balanced stack) = true) (c : UInt8) (r : Str) (hd : content.drop index = c :: r)
    (hc : c ≠ 39) : tokenizeBoldAndItalic content repair (steps + 1) index stack b i = some stack := by
  have h1 : ¬ b!"''" <+: content.drop index := by
    rw [hd, quotes2_cons]; exact fun h => hc h.1
  have h2 : ¬ b!"'''" <+: content.drop index := fun h => h1 (List.IsPrefix.trans (by decide) h)
  have h3 : (decide (0 < index) && hasPrefix (content.drop (index - 1)) b!"''") = false := by
    rw [← Bool.not_eq_true, Bool.and_eq_true, hasPrefix_iff, decide_eq_true_iff]
    rintro ⟨hi, hp⟩
    exact absurd hp (no_pair_before hi hd hc)
  rw [tokenizeBoldAndItalic, if_pos (lt_of_drop hd)]
  simp only [← hasPrefix_iff, Bool.not_eq_true] at h1 h2
  simp only [h1, h2, h3]
  simp only [Bool.false_and, Bool.false_eq_true, if_false]
  rw [if_pos hst]

theorem found_doc (content : Str) (repair : Bool) (d : List WrittenPart) (hw : WellWritten d) :
    Found content repair d := by
  induction d with
  | nil =>
    intro steps index stack b i os result hs hd hl ht
    have hlen : ¬ index < content.length := by
      rw [writtenText, List.drop_eq_nil_iff] at hd; omega
    cases steps with
    | zero => simp [tokenizeBoldAndItalic] at ht
    | succ steps =>
      rw [tokenizeBoldAndItalic, if_neg hlen] at ht
      split at ht
      · rename_i hb
        simp only [Option.some.injEq] at ht
        exact ⟨[], [], [], rfl, hs.reading_nil hb, by simp [itemsOf, ht], by simp⟩
      · cases ht
  | cons p d ih =>
    cases p with
    | quotes n =>
      obtain ⟨hn, hq, hw'⟩ := hw
      rcases hn with rfl | rfl | rfl
      · exact found_quotes2 hw' hq (ih hw')
      · exact found_quotes3 hw' hq (ih hw')
      · exact found_quotes5 hw' hq (ih hw')
    | text t =>
      obtain ⟨h1, h2, h3, h4, hw'⟩ := hw
      intro steps index stack b i os result hs hd hl ht
      obtain ⟨c, t', rfl⟩ := List.exists_cons_of_ne_nil h1
      have hc : c ≠ 39 := by simpa using h3
      simp only [writtenText, List.length_append] at hl
      by_cases hst : (stack ≠ [] && balanced stack) = true
      · cases steps with
        | zero => simp [tokenizeBoldAndItalic] at ht
        | succ steps =>
          rw [tok_stop steps index stack b i hst c _ hd hc] at ht
          simp only [Option.some.injEq] at ht
          simp only [Bool.and_eq_true] at hst
          exact ⟨[], _, [], rfl, hs.reading_nil hst.2, by simp [itemsOf, ht], by simp⟩
      · rw [Bool.not_eq_true] at hst
        obtain ⟨s, rfl⟩ : ∃ s, steps = (c :: t').length + s := ⟨steps - (c :: t').length, by omega⟩
        rw [tok_text s stack b i hst (c :: t') (writtenText d) index hd h2 h4
          (fun hi => no_pair_before hi hd hc)] at ht
        obtain ⟨d1, d2, parts, e, hr, he, _⟩ := ih hw' s _ stack b i os result hs (drop_of_drop hd) (by omega) ht
        by_cases hp : parts = []
        · subst hp
          have hn : os = [] := by simpa [marksOf, NestedFrom] using hr.nested
          refine ⟨[], _, [], rfl, ⟨by simp, rfl, by simpa [marksOf, NestedFrom] using hn, by simp, rfl, ?_⟩,
            by simpa [itemsOf] using he, by simp⟩
          subst hn
          rcases hs.cases with ⟨_, rfl, rfl⟩ | h | h | h | h
          · rfl
          all_goals exact absurd h.1 (by simp)
        · refine ⟨.text (c :: t') :: d1, d2, .text (c :: t') :: parts, by rw [e]; rfl, ⟨?_, ?_, ?_, ?_, ?_, ?_⟩, ?_, by simp⟩
          · intro p hp
            rcases List.mem_cons.mp hp with rfl | hp
            · exact h2
            · exact hr.wellFormed p hp
          · rw [originalText_cons, hr.original]; rfl
          · exact hr.nested
          · intro u
            rw [List.getLast?_cons_of_ne_nil hp]
            exact hr.ends u
          · simp only [styledChars, intendedChars]
            rw [hr.styled]
          · exact hr.closed
          · exact he

/-- With repairs there is a result for every document in which all sections are closed. -/
theorem repair_finds (content : Str) (d : List WrittenPart) (hw : WellWritten d) : ∀ steps index stack b i os,
    MarkState os stack b i → content.drop index = writtenText d → (writtenText d).length < steps →
    finalStyle (b, i) d = (false, false) → tokenizeBoldAndItalic content true steps index stack b i ≠ none := by
  induction d with
  | nil =>
    intro steps index stack b i os hs hd hl hf
    cases steps with
    | zero => simp at hl
    | succ steps =>
      have hlen : ¬ index < content.length := by
        rw [writtenText, List.drop_eq_nil_iff] at hd; omega
      have : balanced stack = true := by
        rw [balanced_iff, hs.bold, hs.italic]
        simp only [finalStyle, Prod.mk.injEq] at hf
        simp [hf]
      rw [tokenizeBoldAndItalic, if_neg hlen, if_pos this]
      simp
  | cons p d ih =>
    cases p with
    | text t =>
      obtain ⟨h1, h2, h3, h4, hw'⟩ := hw
      intro steps index stack b i os hs hd hl hf
      obtain ⟨c, t', rfl⟩ := List.exists_cons_of_ne_nil h1
      have hc : c ≠ 39 := by simpa using h3
      simp only [writtenText, List.length_append] at hl
      by_cases hst : (stack ≠ [] && balanced stack) = true
      · cases steps with
        | zero => simp at hl
        | succ steps =>
          rw [tok_stop steps index stack b i hst c _ hd hc]
          simp
      · rw [Bool.not_eq_true] at hst
        obtain ⟨s, rfl⟩ : ∃ s, steps = (c :: t').length + s := ⟨steps - (c :: t').length, by omega⟩
        rw [tok_text s stack b i hst (c :: t') (writtenText d) index hd h2 h4
          (fun hi => no_pair_before hi hd hc)]
        exact ih hw' s _ stack b i os hs (drop_of_drop hd) (by omega) hf
    | quotes n =>
      obtain ⟨hn, hq, hw'⟩ := hw
      intro steps index stack b i os hs hd hl hf
      simp only [writtenText, List.length_append, List.length_replicate] at hl
      obtain ⟨s, rfl⟩ : ∃ s, steps = s + 2 := ⟨steps - 2, by omega⟩
      rcases hn with rfl | rfl | rfl
      · obtain ⟨os', hs', _⟩ := markState_italic hs index
        have hd2 : content.drop index = b!"''" ++ writtenText d := hd
        have := ih hw' (s + 1) _ _ _ _ os' hs' (drop_of_drop hd2) (by omega) hf
        exact repair_italic (by rw [hd2]; exact List.prefix_append _ _) this
      · obtain ⟨os', hs', _⟩ := markState_bold hs index
        have hd2 : content.drop index = b!"'''" ++ writtenText d := hd
        have := ih hw' (s + 1) _ _ _ _ os' hs' (drop_of_drop hd2) (by omega) hf
        exact repair_bold (by rw [hd2]; exact List.prefix_append _ _) this
      · obtain ⟨os', hs', _⟩ := markState_italic hs index
        obtain ⟨os'', hs'', _⟩ := markState_bold hs' (index + 2)
        have hd2 : content.drop (index + 2) = b!"'''" ++ writtenText d :=
          drop_of_drop (p := b!"''") (r := b!"'''" ++ writtenText d) hd
        have := ih hw' s _ _ _ _ os'' hs'' (drop_of_drop hd2) (by omega) hf
        refine repair_italic ?_ (repair_bold (by rw [hd2]; exact List.prefix_append _ _) this)
        rw [hd]
        exact ⟨b!"'''" ++ writtenText d, rfl⟩

/-! ### The loop in a document -/

theorem skipToMark_text (t : Str) : ∀ (r : Str) (index : Nat), ¬ b!"''" <:+: t → t.getLast? ≠ some 39 → r ≠ [] →
    skipToMark (t ++ r) index = skipToMark r (index + t.length) := by
  induction t with
  | nil => intro r index _ _ _; simp
  | cons c t ih =>
    intro r index hq hl hr
    have h1 : ¬ b!"''" <+: c :: (t ++ r) := by
      rw [quotes2_cons]
      rintro ⟨rfl, h⟩
      cases t with
      | nil => simp at hl
      | cons x t =>
        simp at h
        subst h
        exact hq ⟨[], t, rfl⟩
    obtain ⟨y, ys, hy⟩ := List.exists_cons_of_ne_nil (show t ++ r ≠ [] by simp [hr])
    rw [List.cons_append]
    rw [hy] at h1 ⊢
    rw [skipToMark, if_neg (by rwa [hasPrefix_iff]), ← hy, ih r (index + 1) _ _ hr]
    · congr 1; simp; omega
    · intro h; exact hq (List.infix_cons h)
    · cases t with
      | nil => simp
      | cons x t => simpa using hl

/-- Text in front of the next run. -/
theorem boldItalicLoop_text (fuel : Nat) (pre t r : Str) (hq : ¬ b!"''" <:+: t) (hl : t.getLast? ≠ some 39) :
    boldItalicLoop (fuel + 1) (pre ++ (t ++ r)) pre.length = boldItalicLoop (fuel + 1) ((pre ++ t) ++ r) (pre ++ t).length := by
  by_cases hr : r = []
  · subst hr
    have e : ∀ s : Str, boldItalicLoop (fuel + 1) s s.length = some s := by
      intro s
      rw [boldItalicLoop, List.drop_length]
      rw [show skipToMark [] s.length = s.length from rfl, if_neg (by omega)]
    rw [List.append_nil, List.append_nil, e]
    obtain ⟨u, rest, e1, e2, e3, e4, _⟩ := skipToMark_spec t pre.length
    rw [boldItalicLoop, List.drop_left, e2]
    rcases e4 with h | h
    · exact absurd (e1 ▸ h.isInfix.trans (List.suffix_append u rest).isInfix) hq
    · rw [if_neg (by rw [e1]; simp; omega)]
  · rw [← List.append_assoc]
    have e1 : ((pre ++ t) ++ r).drop pre.length = t ++ r := by rw [List.append_assoc, List.drop_left]
    have e2 : ((pre ++ t) ++ r).drop (pre ++ t).length = r := List.drop_left
    generalize (pre ++ t) ++ r = content at *
    rw [boldItalicLoop, boldItalicLoop, e1, e2, skipToMark_text t r _ hq hl hr, List.length_append]

/-- The loop shows every document as intended. -/
theorem boldItalicLoop_doc (n : Nat) : ∀ (fuel : Nat) (pre : Str) (d : List WrittenPart), d.length ≤ n →
    (writtenText d).length < fuel → WellWritten d → finalStyle (false, false) d = (false, false) →
    ∃ parts, originalText parts = writtenText d ∧ ProperlyNested parts ∧ (∀ p ∈ parts, p.WellFormed) ∧
      styledChars false false parts = intendedChars (false, false) d ∧
      boldItalicLoop fuel (pre ++ writtenText d) pre.length = some (pre ++ renderedText parts) := by
  induction n with
  | zero =>
    intro fuel pre d hn hl hw hf
    obtain rfl : d = [] := by simpa using hn
    cases fuel with
    | zero => simp at hl
    | succ fuel =>
      refine ⟨[], rfl, rfl, by simp, rfl, ?_⟩
      rw [boldItalicLoop, List.drop_left, writtenText, List.append_nil,
        show skipToMark [] pre.length = pre.length from rfl, if_neg (by omega)]
      simp [renderedText]
  | succ n ih =>
    intro fuel pre d hn hl hw hf
    cases d with
    | nil => exact ih fuel pre [] (by simp) hl hw hf
    | cons p d =>
      simp only [List.length_cons, Nat.add_le_add_iff_right] at hn
      cases p with
      | text t =>
        obtain ⟨h1, h2, h3, h4, hw'⟩ := hw
        simp only [writtenText, List.length_append] at hl
        obtain ⟨parts, e1, e2, e3, e4, e5⟩ := ih fuel (pre ++ t) d hn (by omega) hw' hf
        refine ⟨.text t :: parts, by rw [originalText_cons, e1]; rfl, e2, ?_, ?_, ?_⟩
        · intro p hp
          rcases List.mem_cons.mp hp with rfl | hp
          · exact h2
          · exact e3 p hp
        · simp only [styledChars, intendedChars]
          rw [e4]
        · cases fuel with
          | zero => omega
          | succ fuel =>
            rw [writtenText, boldItalicLoop_text fuel pre t _ h2 h4, e5]
            simp [renderedText, FormatPart.rendered]
      | quotes m =>
        cases fuel with
        | zero => omega
        | succ fuel =>
          have hm : 2 ≤ m := by
            obtain ⟨hm, _⟩ := hw
            omega
          obtain ⟨k, rfl⟩ : ∃ k, m = k + 2 := ⟨m - 2, by omega⟩
          have hhead : writtenText (.quotes (k + 2) :: d) = (39 : UInt8) :: (39 : UInt8) :: (List.replicate k 39 ++ writtenText d) := by
            simp [writtenText, List.replicate_succ]
          have hskip : skipToMark (writtenText (.quotes (k + 2) :: d)) pre.length = pre.length := by
            rw [hhead, skipToMark, if_pos]
            rw [hasPrefix_iff]
            exact ⟨_, rfl⟩
          have hdrop : (pre ++ writtenText (.quotes (k + 2) :: d)).drop pre.length = writtenText (.quotes (k + 2) :: d) :=
            List.drop_left
          have hsteps : (pre ++ writtenText (.quotes (k + 2) :: d)).length + 1 - pre.length =
              (writtenText (.quotes (k + 2) :: d)).length + 1 := by
            rw [List.length_append]; omega
          rw [boldItalicLoop, hdrop, hskip, if_pos (by rw [hhead]; simp)]
          generalize hd : WrittenPart.quotes (k + 2) :: d = doc at *
          have hfound : ∃ repair stack, tokenizeBoldAndItalic (pre ++ writtenText doc) repair
              ((writtenText doc).length + 1) pre.length [] false false = some stack ∧
              findMarks (pre ++ writtenText doc) pre.length = some stack := by
            rw [findMarks, hsteps]
            split
            · rename_i stack h
              exact ⟨false, stack, h, rfl⟩
            · have := repair_finds (pre ++ writtenText doc) doc hw ((writtenText doc).length + 1) pre.length [] false false []
                MarkState.initial hdrop (by omega) hf
              obtain ⟨stack, h⟩ := Option.ne_none_iff_exists'.mp this
              exact ⟨true, stack, h, h⟩
          obtain ⟨repair, stack, ht, hst⟩ := hfound
          rw [hst]
          obtain ⟨d1, d2, parts, e, hr, he, hne⟩ := found_doc _ repair doc hw _ _ _ _ _ _ _ MarkState.initial hdrop
            (by omega) ht
          have hne := hne ⟨k + 2, by rw [← hd]; rfl⟩
          rw [List.nil_append] at he
          have etext : writtenText doc = writtenText d1 ++ writtenText d2 := by rw [e, writtenText_append]
          have happ := applyMarks_parts parts hr.wellFormed hr.ends pre (writtenText d2) pre.length 0
            pre.length (by simp) (by simp)
          rw [hr.original, List.append_assoc, ← etext] at happ
          rw [he]
          simp only [happ]
          have hlen1 : 0 < d1.length := List.length_pos_iff.mpr hne
          have hlen2 : d1.length + d2.length = d.length + 1 := by
            rw [← List.length_append, ← e, ← hd]; rfl
          have hlen3 : 0 < (writtenText d1).length := by
            cases d1 with
            | nil => exact absurd rfl hne
            | cons q d1 =>
              rw [← hd] at e
              simp only [List.cons_append, List.cons.injEq] at e
              rw [← e.1]
              simp only [writtenText, List.length_append, List.length_replicate]
              omega
          rw [e] at hw hf
          rw [finalStyle_append, hr.closed] at hf
          obtain ⟨parts', i1, i2, i3, i4, i5⟩ := ih fuel (pre ++ renderedText parts) d2 (by omega)
            (by rw [etext, List.length_append] at hl; omega) hw.right hf
          refine ⟨parts ++ parts', ?_, ?_, ?_, ?_, ?_⟩
          · rw [originalText_append, hr.original, i1, etext]
          · rw [ProperlyNested, marksOf_append]
            exact hr.nested.append i2
          · intro p hp
            rcases List.mem_append.mp hp with hp | hp
            · exact hr.wellFormed p hp
            · exact i3 p hp
          · rw [styledChars_append' hr.nested, hr.styled, i4, e, intendedChars_append, hr.closed]
          · rw [i5, renderedText_append, List.append_assoc]

end Verif.Model
