import Verif.Lemmas.Written
import Verif.Spec.Document

/-!
# Bold and italic sections that are not nested
-/

namespace Verif.Model
open Verif.Go Verif.Spec
open scoped List

/-- A part of a text: plain text, or a section between two runs of the same number of apostrophes. -/
inductive Chunk where
  | plain (t : Str)
  | sect (e : Emphasis) (x : Str)

/-- The markers in front of a section. -/
def emphasisOpen : Emphasis → Str
  | .italic => markerItalicOpen
  | .bold => markerBoldOpen
  | .both => markerItalicOpen ++ markerBoldOpen

/-- The markers behind a section. -/
def emphasisClose : Emphasis → Str
  | .italic => markerItalicClose
  | .bold => markerBoldClose
  | .both => markerBoldClose ++ markerItalicClose

def Chunk.source : Chunk → Str
  | .plain t => t
  | .sect e x => e.quotes ++ x ++ e.quotes

def Chunk.marked : Chunk → Str
  | .plain t => t
  | .sect e x => emphasisOpen e ++ x ++ emphasisClose e

/-- No apostrophes but single ones within the text. -/
structure Quiet (t : Str) : Prop where
  noPair : ¬ b!"''" <:+: t
  head : t.head? ≠ some 39
  last : t.getLast? ≠ some 39

def chunksSource (cs : List Chunk) : Str := cs.flatMap Chunk.source
def chunksMarked (cs : List Chunk) : Str := cs.flatMap Chunk.marked

/-- Sections are not empty, and two sections do not follow each other directly. -/
def ChunksOk : List Chunk → Prop
  | [] => True
  | .plain t :: rest => Quiet t ∧ ChunksOk rest
  | .sect _ x :: rest => x ≠ [] ∧ Quiet x ∧ (chunksSource rest).head? ≠ some 39 ∧ ChunksOk rest

/-! ### Single steps -/

theorem skipToMark_quiet (t rest : Str) (hr : rest ≠ []) (hq : ¬ b!"''" <:+: t) (hl : t.getLast? ≠ some 39) : ∀ index,
    skipToMark (t ++ rest) index = skipToMark rest (index + t.length) := by
  induction t with
  | nil => intro index; simp
  | cons c t ih =>
    intro index
    have hne : t ++ rest ≠ [] := by simp [hr]
    obtain ⟨d, u, hu⟩ := List.exists_cons_of_ne_nil hne
    have hp : hasPrefix (c :: d :: u) b!"''" = false := by
      rw [← Bool.not_eq_true, hasPrefix_iff, quotes2_cons]
      rintro ⟨rfl, h⟩
      simp at h
      subst h
      cases t with
      | nil => simp at hl
      | cons x t =>
        simp at hu
        obtain ⟨rfl, _⟩ := hu
        exact hq ⟨[], t, rfl⟩
    rw [List.cons_append, hu, skipToMark, hp, if_neg (by simp), ← hu, ih]
    · congr 1; simp; omega
    · intro h; exact hq (List.infix_cons h)
    · cases t with
      | nil => simp
      | cons x t => simpa using hl

/-- The search ends when all sections are closed. -/
theorem tok_closed {content : Str} {repair : Bool} {steps index : Nat} {stack : List MarkItem} {b i : Bool} {r : Str}
    (hd : content.drop index = r) (hr : r.head? ≠ some 39) (hs : stack ≠ []) (hb : balanced stack = true) :
    tokenizeBoldAndItalic content repair (steps + 1) index stack b i = some stack := by
  rw [tokenizeBoldAndItalic]
  cases r with
  | nil =>
    rw [if_neg (by rw [List.drop_eq_nil_iff] at hd; omega), if_pos hb]
  | cons c r =>
    have hc : c ≠ 39 := by simpa using hr
    have h1 : hasPrefix (content.drop index) b!"''" = false := by
      rw [← Bool.not_eq_true, hasPrefix_iff, hd, quotes2_cons]
      exact fun h => hc h.1
    have h2 : hasPrefix (content.drop index) b!"'''" = false := by
      rw [← Bool.not_eq_true] at h1 ⊢
      rw [hasPrefix_iff] at h1 ⊢
      intro h
      exact h1 (List.IsPrefix.trans (by decide) h)
    have h3 : (decide (0 < index) && hasPrefix (content.drop (index - 1)) b!"''") = false := by
      rw [← Bool.not_eq_true, Bool.and_eq_true, hasPrefix_iff, decide_eq_true_iff]
      exact fun h => no_pair_before h.1 hd hc h.2
    rw [if_pos (lt_of_drop hd)]
    simp only [h1, h2, h3, Bool.false_and, Bool.false_eq_true, if_false]
    rw [if_pos (by simp [hs, hb])]

/-- Two apostrophes. -/
theorem tok_two {content : Str} {repair : Bool} {steps index : Nat} {stack result : List MarkItem} {b i : Bool} {r : Str}
    (hd : content.drop index = b!"''" ++ r) (hc : (topIs stack .boldOpen && i) = false)
    (h : tokenizeBoldAndItalic content repair steps (index + 2) (stack ++ [⟨if i then .italicClose else .italicOpen, index, 2⟩])
      b (!i) = some result) :
    tokenizeBoldAndItalic content repair (steps + 1) index stack b i = some result := by
  have h1 : hasPrefix (content.drop index) b!"''" = true := by
    rw [hasPrefix_iff, hd]; exact List.prefix_append _ _
  rw [tokenizeBoldAndItalic, if_pos (lt_of_drop hd)]
  simp only [h1, hc, italicItems]
  simp [h]

/-- Three apostrophes that are read as bold because the italic reading fails. -/
theorem tok_three {content : Str} {repair : Bool} {steps index : Nat} {stack result : List MarkItem} {b i : Bool} {r : Str}
    (hd : content.drop index = b!"'''" ++ r) (hr : (topIs stack .boldOpen && i) = false → r.head? ≠ some 39)
    (hrep : (topIs stack .boldOpen && i) = true → repair = false)
    (hc : (topIs stack .italicOpen && b) = false)
    (h : tokenizeBoldAndItalic content repair steps (index + 3) (stack ++ [⟨if b then .boldClose else .boldOpen, index, 3⟩])
      (!b) i = some result) :
    tokenizeBoldAndItalic content repair (steps + 1) index stack b i = some result := by
  have h1 : hasPrefix (content.drop index) b!"''" = true := by
    rw [hasPrefix_iff, hd]; exact List.IsPrefix.trans (by decide) (List.prefix_append _ _)
  have h2 : hasPrefix (content.drop index) b!"'''" = true := by
    rw [hasPrefix_iff, hd]; exact List.prefix_append _ _
  rw [tokenizeBoldAndItalic, if_pos (lt_of_drop hd)]
  have hd3 : content.drop (index + 1) = (39 : UInt8) :: (39 : UInt8) :: r := by
    rw [← List.drop_drop, hd]; rfl
  cases hx : (topIs stack .boldOpen && i) with
  | false =>
    have := tok_one content repair steps (index + 1) (stack ++ italicItems index i false) b (!i) r hd3 (hr hx)
    simp only [h1, h2, hc, boldItems]
    simp only [Nat.add_assoc] at this
    simp [this, h]
  | true =>
    simp only [h1, h2, hc, boldItems, hrep hx]
    simp [hrep hx] at h
    simp [h]

theorem quiet_tok_text {content : Str} {repair : Bool} (steps : Nat) (stack : List MarkItem) (b i : Bool)
    (hst : (stack ≠ [] && balanced stack) = false) {x r : Str} {index : Nat} (hx : Quiet x) (h0 : x ≠ [])
    (hd : content.drop index = x ++ r) :
    tokenizeBoldAndItalic content repair (x.length + steps) index stack b i =
      tokenizeBoldAndItalic content repair steps (index + x.length) stack b i := by
  refine tok_text steps stack b i hst x r index hd hx.noPair hx.last ?_
  intro hi
  obtain ⟨c, u, rfl⟩ := List.exists_cons_of_ne_nil h0
  exact no_pair_before hi hd (by simpa using hx.head)

/-- What is found at the beginning of a section. -/
def sectionItems (e : Emphasis) (index n : Nat) : List MarkItem :=
  match e with
  | .italic => [⟨.italicOpen, index, 2⟩, ⟨.italicClose, index + 2 + n, 2⟩]
  | .bold => [⟨.boldOpen, index, 3⟩, ⟨.boldClose, index + 3 + n, 3⟩]
  | .both => [⟨.italicOpen, index, 2⟩, ⟨.boldOpen, index + 2, 3⟩, ⟨.boldClose, index + 5 + n, 3⟩, ⟨.italicClose, index + 5 + n + 3, 2⟩]

theorem findMarks_section (pre x rest : Str) (e : Emphasis) (h0 : x ≠ []) (hx : Quiet x) (hr : rest.head? ≠ some 39) :
    findMarks (pre ++ (e.quotes ++ x ++ e.quotes ++ rest)) pre.length = some (sectionItems e pre.length x.length) := by
  have hxh : ∀ r : Str, (x ++ r).head? ≠ some 39 := by
    intro r
    obtain ⟨c, u, rfl⟩ := List.exists_cons_of_ne_nil h0
    simpa using hx.head
  have hxl : 0 < x.length := List.length_pos_iff.mpr h0
  suffices h : tokenizeBoldAndItalic (pre ++ (e.quotes ++ x ++ e.quotes ++ rest)) false
      ((pre ++ (e.quotes ++ x ++ e.quotes ++ rest)).length + 1 - pre.length) pre.length [] false false =
        some (sectionItems e pre.length x.length) by
    rw [findMarks, h]
  generalize hc : pre ++ (e.quotes ++ x ++ e.quotes ++ rest) = content
  have hlen : content.length + 1 - pre.length = e.quotes.length + x.length + e.quotes.length + rest.length + 1 := by
    rw [← hc]; simp; omega
  have hd : content.drop pre.length = e.quotes ++ x ++ e.quotes ++ rest := by rw [← hc, List.drop_left]
  rw [hlen]
  clear hlen hc
  generalize pre.length = index at hd ⊢
  have hd1 : content.drop (index + e.quotes.length) = x ++ (e.quotes ++ rest) :=
    drop_of_drop (p := e.quotes) (by rw [hd]; simp)
  have hd2 : content.drop (index + e.quotes.length + x.length) = e.quotes ++ rest := drop_of_drop (p := x) hd1
  have hd3 : content.drop (index + e.quotes.length + x.length + e.quotes.length) = rest := drop_of_drop (p := e.quotes) hd2
  cases e with
  | italic =>
    have e : Emphasis.italic.quotes.length + x.length + Emphasis.italic.quotes.length + rest.length + 1 =
        (x.length + (rest.length + 2 + 1 + 1)) + 1 := by simp [Emphasis.quotes]; omega
    rw [e]
    refine tok_two (r := x ++ (b!"''" ++ rest)) (by rw [hd]; simp [Emphasis.quotes]) (by decide) ?_
    refine (quiet_tok_text (index := index + _) _ _ _ _ (by rfl) hx h0 hd1).trans ?_
    exact tok_two hd2 (by rfl) (tok_closed hd3 hr (by simp) (by rfl))
  | bold =>
    have e : Emphasis.bold.quotes.length + x.length + Emphasis.bold.quotes.length + rest.length + 1 =
        (x.length + (rest.length + 4 + 1 + 1)) + 1 := by simp [Emphasis.quotes]; omega
    rw [e]
    refine tok_three (r := x ++ (b!"'''" ++ rest)) (by rw [hd]; simp [Emphasis.quotes]) (fun _ => hxh _) (by decide) (by decide) ?_
    refine (quiet_tok_text (index := index + _) _ _ _ _ (by rfl) hx h0 hd1).trans ?_
    exact tok_three hd2 (fun _ => hr) (by intro h; cases h) (by rfl) (tok_closed hd3 hr (by simp) (by rfl))
  | both =>
    have e : Emphasis.both.quotes.length + x.length + Emphasis.both.quotes.length + rest.length + 1 =
        (x.length + (rest.length + 6 + 1 + 1 + 1)) + 1 + 1 := by simp [Emphasis.quotes]; omega
    rw [e]
    refine tok_two (r := b!"'''" ++ (x ++ (b!"'''''" ++ rest))) (by rw [hd]; simp [Emphasis.quotes]) (by decide) ?_
    have hd' : content.drop (index + 2) = b!"'''" ++ (x ++ (b!"'''''" ++ rest)) :=
      drop_of_drop (p := b!"''") (by rw [hd]; simp [Emphasis.quotes])
    refine tok_three hd' (fun _ => hxh _) (by intro h; cases h) (by rfl) ?_
    refine (quiet_tok_text (index := index + _) _ _ _ _ (by rfl) hx h0 hd1).trans ?_
    refine tok_three (r := b!"''" ++ rest) (by rw [hd2]; rfl) (by intro h; exact absurd h (by simp [topIs])) (by intro _; rfl) (by rfl) ?_
    have hd4 : content.drop (index + 2 + 3 + x.length + 3) = b!"''" ++ rest :=
      drop_of_drop (p := b!"'''") (by rw [show index + 2 + 3 = index + Emphasis.both.quotes.length from rfl, hd2]; rfl)
    exact tok_two hd4 (by rfl) (tok_closed (by rw [← hd3]; rfl) hr (by simp) (by rfl))

theorem take_append_eq {a b : Str} {n : Nat} (h : n = a.length) : (a ++ b).take n = a := by subst h; simp

theorem drop_append_eq {a b : Str} {n : Nat} (h : n = a.length) : (a ++ b).drop n = b := by subst h; simp

/-- Replacing one run of apostrophes. -/
theorem applyMarks_one {a q b : Str} {type : MarkType} {n offset len index : Nat} (rest : List MarkItem)
    (hn : n + offset = a.length) (hq : len = q.length) :
    applyMarks (⟨type, n, len⟩ :: rest) (a ++ (q ++ b)) offset index =
      applyMarks rest (a ++ (type.marker ++ b)) (offset + (type.marker.length - len)) (a.length + type.marker.length) := by
  rw [applyMarks]
  simp only [hn]
  rw [take_append_eq rfl, show (a ++ (q ++ b)).drop (a.length + len) = b by
    rw [← List.append_assoc]; exact drop_append_eq (by simp [hq])]
  simp

theorem applyMarks_section (pre x rest : Str) (e : Emphasis) (index : Nat) :
    applyMarks (sectionItems e pre.length x.length) (pre ++ (e.quotes ++ x ++ e.quotes ++ rest)) 0 index =
      (pre ++ (emphasisOpen e ++ x ++ emphasisClose e ++ rest), (pre ++ (emphasisOpen e ++ x ++ emphasisClose e)).length) := by
  cases e with
  | italic =>
    rw [show pre ++ (Emphasis.italic.quotes ++ x ++ Emphasis.italic.quotes ++ rest) = pre ++ (b!"''" ++ (x ++ (b!"''" ++ rest))) by
      simp [Emphasis.quotes], sectionItems]
    rw [applyMarks_one _ (by simp) (by rfl),
      show pre ++ (MarkType.italicOpen.marker ++ (x ++ (b!"''" ++ rest))) = (pre ++ markerItalicOpen ++ x) ++ (b!"''" ++ rest) by
        simp [MarkType.marker],
      applyMarks_one _ (by simp [MarkType.marker, markerItalicOpen]; omega) (by rfl), applyMarks]
    simp [emphasisOpen, emphasisClose, MarkType.marker]
    omega
  | bold =>
    rw [show pre ++ (Emphasis.bold.quotes ++ x ++ Emphasis.bold.quotes ++ rest) = pre ++ (b!"'''" ++ (x ++ (b!"'''" ++ rest))) by
      simp [Emphasis.quotes], sectionItems]
    rw [applyMarks_one _ (by simp) (by rfl),
      show pre ++ (MarkType.boldOpen.marker ++ (x ++ (b!"'''" ++ rest))) = (pre ++ markerBoldOpen ++ x) ++ (b!"'''" ++ rest) by
        simp [MarkType.marker],
      applyMarks_one _ (by simp [MarkType.marker, markerBoldOpen]; omega) (by rfl), applyMarks]
    simp [emphasisOpen, emphasisClose, MarkType.marker]
    omega
  | both =>
    rw [show pre ++ (Emphasis.both.quotes ++ x ++ Emphasis.both.quotes ++ rest) =
        pre ++ (b!"''" ++ (b!"'''" ++ (x ++ (b!"'''" ++ (b!"''" ++ rest))))) by simp [Emphasis.quotes], sectionItems]
    rw [applyMarks_one _ (by simp) (by rfl),
      show pre ++ (MarkType.italicOpen.marker ++ (b!"'''" ++ (x ++ (b!"'''" ++ (b!"''" ++ rest))))) =
        (pre ++ markerItalicOpen) ++ (b!"'''" ++ (x ++ (b!"'''" ++ (b!"''" ++ rest)))) by simp [MarkType.marker],
      applyMarks_one _ (by simp [MarkType.marker, markerItalicOpen]) (by rfl),
      show pre ++ markerItalicOpen ++ (MarkType.boldOpen.marker ++ (x ++ (b!"'''" ++ (b!"''" ++ rest)))) =
        (pre ++ markerItalicOpen ++ markerBoldOpen ++ x) ++ (b!"'''" ++ (b!"''" ++ rest)) by simp [MarkType.marker],
      applyMarks_one _ (by simp [MarkType.marker, markerItalicOpen, markerBoldOpen]; omega) (by rfl),
      show pre ++ markerItalicOpen ++ markerBoldOpen ++ x ++ (MarkType.boldClose.marker ++ (b!"''" ++ rest)) =
        (pre ++ markerItalicOpen ++ markerBoldOpen ++ x ++ markerBoldClose) ++ (b!"''" ++ rest) by simp [MarkType.marker],
      applyMarks_one _ (by simp [MarkType.marker, markerItalicOpen, markerBoldOpen, markerBoldClose]; omega) (by rfl), applyMarks]
    simp [emphasisOpen, emphasisClose, MarkType.marker]
    omega

theorem quotes_pair (e : Emphasis) : b!"''" <+: e.quotes := by cases e <;> decide

theorem skipToMark_pair {s : Str} (h : b!"''" <+: s) (index : Nat) : skipToMark s index = index := by
  match s with
  | [] => rfl
  | [_] => rfl
  | a :: b :: t =>
    rw [skipToMark, if_pos]
    rwa [hasPrefix_iff]

theorem boldItalicLoop_chunks (cs : List Chunk) : ∀ (pre : Str) (fuel : Nat), ChunksOk cs → cs.length < fuel →
    boldItalicLoop fuel (pre ++ chunksSource cs) pre.length = some (pre ++ chunksMarked cs) := by
  induction cs with
  | nil =>
    intro pre fuel _ hf
    obtain ⟨f, rfl⟩ := Nat.exists_eq_add_of_le' (show 1 ≤ fuel by omega)
    rw [boldItalicLoop, if_neg]
    · simp [chunksSource, chunksMarked]
    · simp [chunksSource, skipToMark]
  | cons c cs ih =>
    intro pre fuel h hf
    obtain ⟨f, rfl⟩ := Nat.exists_eq_add_of_le' (show 1 ≤ fuel by omega)
    simp only [List.length_cons] at hf
    cases c with
    | plain t =>
      have ih := ih (pre ++ t) (f + 1) h.2 (by omega)
      have e1 : pre ++ chunksSource (Chunk.plain t :: cs) = pre ++ t ++ chunksSource cs := by
        simp [chunksSource, Chunk.source]
      have e2 : pre ++ chunksMarked (Chunk.plain t :: cs) = pre ++ t ++ chunksMarked cs := by
        simp [chunksMarked, Chunk.marked]
      rw [e1, e2, ← ih, boldItalicLoop, boldItalicLoop, List.append_assoc, List.drop_left, ← List.append_assoc, List.drop_left]
      by_cases hr : chunksSource cs = []
      · rw [hr]
        have : ∀ i, skipToMark (t ++ []) i + 1 < i + t.length → False := by
          intro i
          rw [List.append_nil]
          have hq := h.1.noPair
          generalize hu : t = u at hq ⊢
          clear hu
          induction u generalizing i with
          | nil => simp [skipToMark]
          | cons a u ihu =>
            cases u with
            | nil => simp [skipToMark]
            | cons b u =>
              rw [skipToMark, if_neg]
              · intro hh
                refine ihu (i + 1) ?_ ?_
                · exact fun h => hq (List.infix_cons h)
                · simp at hh ⊢; omega
              · rw [hasPrefix_iff]
                exact fun h => hq h.isInfix
        rw [if_neg, if_neg]
        · simp [skipToMark]
        · intro hh
          exact this pre.length (by simpa using hh)
      · rw [skipToMark_quiet t _ hr h.1.noPair h.1.last, ← List.length_append]
    | sect e x =>
      obtain ⟨h0, hx, hr, hok⟩ := h
      have e1 : pre ++ chunksSource (Chunk.sect e x :: cs) = pre ++ (e.quotes ++ x ++ e.quotes ++ chunksSource cs) := by
        simp [chunksSource, Chunk.source]
      have e2 : pre ++ chunksMarked (Chunk.sect e x :: cs) = pre ++ (emphasisOpen e ++ x ++ emphasisClose e) ++ chunksMarked cs := by
        simp [chunksMarked, Chunk.marked]
      have ih := ih (pre ++ (emphasisOpen e ++ x ++ emphasisClose e)) f hok (by omega)
      rw [e1, e2, ← ih, boldItalicLoop, List.drop_left, skipToMark_pair]
      · simp only
        rw [if_pos, findMarks_section pre x _ e h0 hx hr]
        · simp only
          rw [applyMarks_section]
          simp
        · have := (quotes_pair e).length_le
          simp at this ⊢
          omega
      · exact (quotes_pair e).trans ⟨x ++ e.quotes ++ chunksSource cs, by simp⟩

/-- The apostrophes of a text with sections are replaced by markers. -/
theorem parseBoldAndItalic_chunks (cs : List Chunk) (fuel : Nat) (h : ChunksOk cs) (hf : cs.length < fuel) :
    parseBoldAndItalic fuel (chunksSource cs) = pure (chunksMarked cs) := by
  have := boldItalicLoop_chunks cs [] fuel h hf
  rw [List.nil_append, List.nil_append, List.length_nil] at this
  funext s
  rw [parseBoldAndItalic, this]
  rfl

end Verif.Model
