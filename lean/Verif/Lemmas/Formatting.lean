import Verif.Spec.Formatting
import Verif.Lemmas.Strings

/-! Helper lemmas about bold and italic. -/

namespace Verif.Model
open Verif.Go Verif.Spec
open scoped List

/-- Difference of the numbers of two kinds of items. -/
def surplus (stack : List MarkItem) (o c : MarkType) : Int :=
  ((stack.filter fun i => i.type = o).length : Int) - (stack.filter fun i => i.type = c).length

theorem balanced_iff (stack : List MarkItem) :
    balanced stack = true ↔ surplus stack .italicOpen .italicClose = 0 ∧ surplus stack .boldOpen .boldClose = 0 := by
  simp [balanced, surplus]

theorem surplus_append (a b : List MarkItem) (o c : MarkType) : surplus (a ++ b) o c = surplus a o c + surplus b o c := by
  simp only [surplus, List.filter_append, List.length_append]
  omega

theorem topIs_append (stack : List MarkItem) (x : MarkItem) (t : MarkType) : topIs (stack ++ [x]) t = (x.type == t) := by
  simp [topIs, eq_comm]
  cases x.type <;> cases t <;> decide

theorem topIs_append3 (stack : List MarkItem) (x y z : MarkItem) (t : MarkType) :
    topIs (stack ++ [x, y, z]) t = (z.type == t) := by
  have : stack ++ [x, y, z] = (stack ++ [x, y]) ++ [z] := by simp
  rw [this, topIs_append]

/-- The state of the search: `os` are the opened sections, the last one first. -/
structure MarkState (os : List MarkType) (stack : List MarkItem) (b i : Bool) : Prop where
  cases : (os = [] ∧ b = false ∧ i = false) ∨ (os = [.boldOpen] ∧ b = true ∧ i = false) ∨
    (os = [.italicOpen] ∧ b = false ∧ i = true) ∨
    (os = [.italicOpen, .boldOpen] ∧ b = true ∧ i = true ∧ topIs stack .italicOpen = true) ∨
    (os = [.boldOpen, .italicOpen] ∧ b = true ∧ i = true ∧ topIs stack .boldOpen = true)
  topB : topIs stack .boldOpen = true → os.head? = some .boldOpen
  topI : topIs stack .italicOpen = true → os.head? = some .italicOpen
  bold : surplus stack .boldOpen .boldClose = if b then 1 else 0
  italic : surplus stack .italicOpen .italicClose = if i then 1 else 0

theorem MarkState.initial : MarkState [] [] false false :=
  ⟨by simp, by decide, by decide, by decide, by decide⟩

/-- All sections are closed. -/
theorem MarkState.closed {os : List MarkType} {stack : List MarkItem} {b i : Bool} (h : MarkState os stack b i)
    (hb : balanced stack = true) : os = [] := by
  rw [balanced_iff, h.bold, h.italic] at hb
  rcases h.cases with h | h | h | h | h <;> simp_all

theorem markState_italic {os : List MarkType} {stack : List MarkItem} {b i : Bool} (h : MarkState os stack b i)
    (index : Nat) :
    ∃ os', MarkState os' (stack ++ italicItems index i (topIs stack .boldOpen && i)) b (!i) ∧
      ∀ rest, NestedFrom os' rest →
        NestedFrom os ((italicItems index i (topIs stack .boldOpen && i)).map MarkItem.type ++ rest) := by
  obtain ⟨hc, hB, hI, hb, hi⟩ := h
  rcases hc with ⟨rfl, rfl, rfl⟩ | ⟨rfl, rfl, rfl⟩ | ⟨rfl, rfl, rfl⟩ | ⟨rfl, rfl, rfl, ht⟩ | ⟨rfl, rfl, rfl, ht⟩
  · refine ⟨[.italicOpen], ⟨?_, ?_, ?_, ?_, ?_⟩, ?_⟩ <;>
      simp_all [italicItems, topIs_append, topIs_append3, surplus_append, NestedFrom] <;> simp [surplus]
  · refine ⟨[.italicOpen, .boldOpen], ⟨?_, ?_, ?_, ?_, ?_⟩, ?_⟩ <;>
      simp_all [italicItems, topIs_append, topIs_append3, surplus_append, NestedFrom] <;> simp [surplus]
  · have : topIs stack .boldOpen = false := by
      rw [← Bool.not_eq_true]; intro h; simpa using hB h
    refine ⟨[], ⟨?_, ?_, ?_, ?_, ?_⟩, ?_⟩ <;>
      simp_all [italicItems, topIs_append, topIs_append3, surplus_append, NestedFrom] <;> simp [surplus]
  · have : topIs stack .boldOpen = false := by
      rw [← Bool.not_eq_true]; intro h; simpa using hB h
    refine ⟨[.boldOpen], ⟨?_, ?_, ?_, ?_, ?_⟩, ?_⟩ <;>
      simp_all [italicItems, topIs_append, topIs_append3, surplus_append, NestedFrom] <;> simp [surplus]
  · refine ⟨[.boldOpen], ⟨?_, ?_, ?_, ?_, ?_⟩, ?_⟩ <;>
      simp_all [italicItems, topIs_append, topIs_append3, surplus_append, NestedFrom] <;> simp [surplus]

theorem markState_bold {os : List MarkType} {stack : List MarkItem} {b i : Bool} (h : MarkState os stack b i)
    (index : Nat) :
    ∃ os', MarkState os' (stack ++ boldItems index b (topIs stack .italicOpen && b)) (!b) i ∧
      ∀ rest, NestedFrom os' rest →
        NestedFrom os ((boldItems index b (topIs stack .italicOpen && b)).map MarkItem.type ++ rest) := by
  obtain ⟨hc, hB, hI, hb, hi⟩ := h
  rcases hc with ⟨rfl, rfl, rfl⟩ | ⟨rfl, rfl, rfl⟩ | ⟨rfl, rfl, rfl⟩ | ⟨rfl, rfl, rfl, ht⟩ | ⟨rfl, rfl, rfl, ht⟩
  · refine ⟨[.boldOpen], ⟨?_, ?_, ?_, ?_, ?_⟩, ?_⟩ <;>
      simp_all [boldItems, topIs_append, topIs_append3, surplus_append, NestedFrom] <;> simp [surplus]
  · have : topIs stack .italicOpen = false := by
      rw [← Bool.not_eq_true]; intro h; simpa using hI h
    refine ⟨[], ⟨?_, ?_, ?_, ?_, ?_⟩, ?_⟩ <;>
      simp_all [boldItems, topIs_append, topIs_append3, surplus_append, NestedFrom] <;> simp [surplus]
  · refine ⟨[.boldOpen, .italicOpen], ⟨?_, ?_, ?_, ?_, ?_⟩, ?_⟩ <;>
      simp_all [boldItems, topIs_append, topIs_append3, surplus_append, NestedFrom] <;> simp [surplus]
  · refine ⟨[.italicOpen], ⟨?_, ?_, ?_, ?_, ?_⟩, ?_⟩ <;>
      simp_all [boldItems, topIs_append, topIs_append3, surplus_append, NestedFrom] <;> simp [surplus]
  · have : topIs stack .italicOpen = false := by
      rw [← Bool.not_eq_true]; intro h; simpa using hI h
    refine ⟨[.italicOpen], ⟨?_, ?_, ?_, ?_, ?_⟩, ?_⟩ <;>
      simp_all [boldItems, topIs_append, topIs_append3, surplus_append, NestedFrom] <;> simp [surplus]

theorem _root_.Verif.Spec.NestedFrom.append {os a b : List MarkType} (ha : NestedFrom os a) (hb : NestedFrom [] b) :
    NestedFrom os (a ++ b) := by
  induction a generalizing os with
  | nil => simp only [NestedFrom] at ha; subst ha; exact hb
  | cons m a ih => cases m <;> exact ⟨ha.1, ih ha.2⟩

/-! ### The search -/

/-- The items that belong to the parts of a text that begins at the index. -/
def itemsOf : (index : Nat) → List FormatPart → List MarkItem
  | _, [] => []
  | index, .text t :: rest => itemsOf (index + t.length) rest
  | index, .mark type source :: rest => ⟨type, index, source.length⟩ :: itemsOf (index + source.length) rest

/-- `parts` is text and marks from the position, with a mark at the end if there is a mark at all. -/
structure FoundParts (content : Str) (index : Nat) (os : List MarkType) (parts : List FormatPart) : Prop where
  wellFormed : ∀ p ∈ parts, p.WellFormed
  isPrefix : originalText parts <+: content.drop index
  nested : NestedFrom os (marksOf parts)
  ends : ∀ t, parts.getLast? ≠ some (.text t)

theorem originalText_cons (p : FormatPart) (ps : List FormatPart) : originalText (p :: ps) = p.original ++ originalText ps := by
  simp [originalText]

theorem originalText_append (a b : List FormatPart) : originalText (a ++ b) = originalText a ++ originalText b := by
  simp [originalText]

theorem renderedText_append (a b : List FormatPart) : renderedText (a ++ b) = renderedText a ++ renderedText b := by
  simp [renderedText]

theorem plainText_append (a b : List FormatPart) : plainText (a ++ b) = plainText a ++ plainText b := by
  simp [plainText]

theorem marksOf_append (a b : List FormatPart) : marksOf (a ++ b) = marksOf a ++ marksOf b := by
  induction a with
  | nil => rfl
  | cons p ps ih => cases p <;> simp [marksOf, ih]

theorem itemsOf_append (index : Nat) (a b : List FormatPart) :
    itemsOf index (a ++ b) = itemsOf index a ++ itemsOf (index + (originalText a).length) b := by
  induction a generalizing index with
  | nil => simp [itemsOf, originalText]
  | cons p ps ih =>
    cases p <;> simp [itemsOf, ih, originalText_cons, FormatPart.original, Nat.add_assoc]

/-- The parts for two apostrophes. -/
def italicParts (isOpen crossover : Bool) : List FormatPart :=
  if crossover then
    [.mark .boldClose [], .mark (if isOpen then .italicClose else .italicOpen) b!"''", .mark .boldOpen []]
  else [.mark (if isOpen then .italicClose else .italicOpen) b!"''"]

/-- The parts for three apostrophes. -/
def boldParts (isOpen crossover : Bool) : List FormatPart :=
  if crossover then
    [.mark .italicClose [], .mark (if isOpen then .boldClose else .boldOpen) b!"'''", .mark .italicOpen []]
  else [.mark (if isOpen then .boldClose else .boldOpen) b!"'''"]

theorem italicParts_items (index : Nat) (isOpen crossover : Bool) :
    itemsOf index (italicParts isOpen crossover) = italicItems index isOpen crossover ∧
    originalText (italicParts isOpen crossover) = b!"''" ∧
    marksOf (italicParts isOpen crossover) = (italicItems index isOpen crossover).map MarkItem.type ∧
    (∀ p ∈ italicParts isOpen crossover, p.WellFormed) ∧
    ∀ t, (italicParts isOpen crossover).getLast? ≠ some (.text t) := by
  cases isOpen <;> cases crossover <;>
    simp [italicParts, italicItems, itemsOf, originalText, FormatPart.original, marksOf, FormatPart.WellFormed]

theorem boldParts_items (index : Nat) (isOpen crossover : Bool) :
    itemsOf index (boldParts isOpen crossover) = boldItems index isOpen crossover ∧
    originalText (boldParts isOpen crossover) = b!"'''" ∧
    marksOf (boldParts isOpen crossover) = (boldItems index isOpen crossover).map MarkItem.type ∧
    (∀ p ∈ boldParts isOpen crossover, p.WellFormed) ∧
    ∀ t, (boldParts isOpen crossover).getLast? ≠ some (.text t) := by
  cases isOpen <;> cases crossover <;>
    simp [boldParts, boldItems, itemsOf, originalText, FormatPart.original, marksOf, FormatPart.WellFormed]

theorem foundParts_marks {content : Str} {index : Nat} {os os' : List MarkType} {ps parts : List FormatPart} {src : Str}
    (h1 : originalText ps = src) (h2 : src <+: content.drop index) (h3 : ∀ p ∈ ps, p.WellFormed)
    (h4 : ∀ rest, NestedFrom os' rest → NestedFrom os (marksOf ps ++ rest)) (h5 : ∀ t, ps.getLast? ≠ some (.text t))
    (h : FoundParts content (index + src.length) os' parts) : FoundParts content index os (ps ++ parts) := by
  refine ⟨?_, ?_, ?_, ?_⟩
  · intro p hp
    rcases List.mem_append.mp hp with hp | hp
    · exact h3 p hp
    · exact h.wellFormed p hp
  · rw [originalText_append, h1]
    obtain ⟨r, hr⟩ := h2
    have h5 := h.isPrefix
    rw [← List.drop_drop, ← hr, List.drop_left] at h5
    rw [← hr]
    exact (List.prefix_append_right_inj src).mpr h5
  · rw [marksOf_append]
    exact h4 _ h.nested
  · intro t
    rw [List.getLast?_append]
    cases hq : parts.getLast? with
    | none => simpa using h5 t
    | some p => simpa [hq] using h.ends t

/-- One character of text in front of the parts. -/
theorem foundParts_char {content : Str} {index : Nat} {os : List MarkType} {parts : List FormatPart}
    (h : FoundParts content (index + 1) os parts) (hlen : index < content.length)
    (hq : ¬ b!"''" <+: content.drop index) :
    ∃ parts', FoundParts content index os parts' ∧ itemsOf index parts' = itemsOf (index + 1) parts := by
  have hd : content.drop index = content[index] :: content.drop (index + 1) := List.drop_eq_getElem_cons hlen
  generalize content[index] = c at hd
  cases parts with
  | nil =>
    refine ⟨[], ⟨by simp, by simp [originalText], h.nested, by simp⟩, rfl⟩
  | cons p ps =>
    cases p with
    | text t =>
      have hps : ps ≠ [] := by
        rintro rfl
        exact h.ends t rfl
      refine ⟨.text (c :: t) :: ps, ⟨?_, ?_, h.nested, ?_⟩, ?_⟩
      · intro p hp
        rcases List.mem_cons.mp hp with rfl | hp
        · show ¬ b!"''" <:+: c :: t
          rw [List.infix_cons_iff]
          rintro (hx | hx)
          · apply hq
            rw [hd]
            refine hx.trans ?_
            have := h.isPrefix
            rw [originalText_cons] at this
            exact List.cons_prefix_cons.mpr ⟨rfl, (List.prefix_append _ _).trans this⟩
          · exact h.wellFormed (.text t) (by simp) hx
        · exact h.wellFormed p (by simp [hp])
      · have := h.isPrefix
        rw [originalText_cons] at this ⊢
        rw [hd]
        exact List.cons_prefix_cons.mpr ⟨rfl, this⟩
      · intro u
        have := h.ends u
        rw [List.getLast?_cons_of_ne_nil hps] at this ⊢
        exact this
      · simp only [itemsOf, List.length_cons]
        congr 1; omega
    | mark type source =>
      refine ⟨.text [c] :: .mark type source :: ps, ⟨?_, ?_, h.nested, ?_⟩, rfl⟩
      · intro p hp
        rcases List.mem_cons.mp hp with rfl | hp
        · show ¬ b!"''" <:+: [c]
          intro hx; exact absurd hx.length_le (by simp)
        · exact h.wellFormed p hp
      · have := h.isPrefix
        rw [originalText_cons (.text [c])]
        rw [hd]
        exact List.cons_prefix_cons.mpr ⟨rfl, this⟩
      · intro u
        rw [List.getLast?_cons_of_ne_nil (by simp)]
        exact h.ends u

theorem tokenize_found (content : Str) (repair : Bool) (steps : Nat) : ∀ (index : Nat) (stack : List MarkItem) (b i : Bool)
    (os : List MarkType) (result : List MarkItem), MarkState os stack b i →
    tokenizeBoldAndItalic content repair steps index stack b i = some result →
    ∃ parts, FoundParts content index os parts ∧ result = stack ++ itemsOf index parts ∧
      (b!"''" <+: content.drop index → 2 ≤ (originalText parts).length) := by
  induction steps with
  | zero => intro _ _ _ _ _ _ _ h; simp [tokenizeBoldAndItalic] at h
  | succ steps ih =>
    intro index stack b i os result hs h
    have done : balanced stack = true → result = stack → ¬ b!"''" <+: content.drop index →
        ∃ parts, FoundParts content index os parts ∧ result = stack ++ itemsOf index parts ∧
          (b!"''" <+: content.drop index → 2 ≤ (originalText parts).length) := by
      intro hb he hq
      refine ⟨[], ⟨by simp, by simp [originalText], ?_, by simp⟩, by simp [itemsOf, he], fun h => absurd h hq⟩
      exact hs.closed hb
    rw [tokenizeBoldAndItalic] at h
    simp only at h
    split at h
    · rename_i hlen
      -- the attempt with italic
      split at h
      · rename_i r hr
        split at hr
        · rename_i hc
          simp only [Option.some.injEq] at h
          subst h
          simp only [Bool.and_eq_true] at hc
          have hp := hasPrefix_iff.mp hc.1
          obtain ⟨os', hs', hn⟩ := markState_italic hs index
          obtain ⟨parts, hf, he, _⟩ := ih _ _ _ _ os' _ hs' hr
          obtain ⟨e1, e2, e3, e4, e5⟩ := italicParts_items index i (topIs stack .boldOpen && i)
          refine ⟨italicParts i (topIs stack .boldOpen && i) ++ parts,
            foundParts_marks e2 hp e4 (by rw [e3]; exact hn) e5 hf, ?_, ?_⟩
          · rw [he, itemsOf_append, e1, e2, List.append_assoc]
            rfl
          · intro _
            rw [originalText_append, e2]
            simp
        · exact absurd hr (by simp)
      · split at h
        · rename_i hc
          split at h
          · exact absurd h (by simp)
          · have hp := hasPrefix_iff.mp hc
            obtain ⟨os', hs', hn⟩ := markState_bold hs index
            obtain ⟨parts, hf, he, _⟩ := ih _ _ _ _ os' _ hs' h
            obtain ⟨e1, e2, e3, e4, e5⟩ := boldParts_items index b (topIs stack .italicOpen && b)
            refine ⟨boldParts b (topIs stack .italicOpen && b) ++ parts,
              foundParts_marks e2 hp e4 (by rw [e3]; exact hn) e5 hf, ?_, ?_⟩
            · rw [he, itemsOf_append, e1, e2, List.append_assoc]
              rfl
            · intro _
              rw [originalText_append, e2]
              simp
        · split at h
          · exact absurd h (by simp)
          · split at h
            · exact absurd h (by simp)
            · rename_i hni
              split at h
              · rename_i hb
                simp only [Bool.and_eq_true] at hb
                exact done hb.2 (by simpa using h.symm) (by rwa [hasPrefix_iff] at hni)
              · obtain ⟨parts, hf, he, _⟩ := ih _ _ _ _ os _ hs h
                rw [hasPrefix_iff] at hni
                obtain ⟨parts', hf', he'⟩ := foundParts_char hf hlen hni
                exact ⟨parts', hf', by rw [he, he'], fun h => absurd h hni⟩
    · split at h
      · rename_i hlen hb
        refine done hb (by simpa using h.symm) ?_
        rw [List.drop_eq_nil_of_le (by omega)]
        simp
      · exact absurd h (by simp)

/-! ### The replacement -/

theorem FormatPart.WellFormed.source {type : MarkType} {source : Str} (h : (FormatPart.mark type source).WellFormed) :
    source.length ≤ type.marker.length := by
  cases type <;> rcases h with rfl | rfl <;> decide

theorem applyMarks_parts (parts : List FormatPart) (hw : ∀ p ∈ parts, p.WellFormed)
    (hends : ∀ t, parts.getLast? ≠ some (.text t)) : ∀ (pre rest : Str) (index offset i : Nat),
    pre.length = index + offset → (parts = [] → i = pre.length) →
    applyMarks (itemsOf index parts) (pre ++ originalText parts ++ rest) offset i =
      (pre ++ renderedText parts ++ rest, (pre ++ renderedText parts).length) := by
  induction parts with
  | nil =>
    intro pre rest index offset i _ h
    simp [itemsOf, applyMarks, originalText, renderedText, h]
  | cons p ps ih =>
    intro pre rest index offset i hl _
    have hw' : ∀ p ∈ ps, p.WellFormed := fun q hq => hw q (by simp [hq])
    cases p with
    | text t =>
      have hps : ps ≠ [] := by
        rintro rfl
        exact hends t rfl
      have := ih hw' (by
        intro u
        have := hends u
        rwa [List.getLast?_cons_of_ne_nil hps] at this) (pre ++ t) rest (index + t.length) offset i
        (by simp; omega) (fun h => absurd h hps)
      simp only [itemsOf]
      simpa [originalText, renderedText, FormatPart.original, FormatPart.rendered] using this
    | mark type source =>
      have hends' : ∀ t, ps.getLast? ≠ some (.text t) := by
        intro u
        by_cases hps : ps = []
        · simp [hps]
        · have := hends u
          rwa [List.getLast?_cons_of_ne_nil hps] at this
      have hs := FormatPart.WellFormed.source (hw (.mark type source) (by simp))
      simp only [itemsOf, applyMarks]
      have e1 : (pre ++ originalText (.mark type source :: ps) ++ rest).take (index + offset) = pre := by
        rw [← hl, List.append_assoc, List.take_left]
      have e2 : (pre ++ originalText (.mark type source :: ps) ++ rest).drop (index + offset + source.length) =
          originalText ps ++ rest := by
        have : pre ++ originalText (.mark type source :: ps) ++ rest = (pre ++ source) ++ (originalText ps ++ rest) := by
          simp [originalText_cons, FormatPart.original]
        rw [this, ← hl, ← List.length_append, List.drop_left]
      rw [e1, e2]
      have := ih hw' hends' (pre ++ type.marker) rest (index + source.length)
        (offset + (type.marker.length - source.length)) (index + offset + type.marker.length)
        (by simp; omega) (by intro _; simp; omega)
      simpa [renderedText, FormatPart.rendered] using this

/-! ### The loop -/

/-- `skipToMark` skips text without two apostrophes in succession. -/
theorem skipToMark_spec (s : Str) (index : Nat) : ∃ t rest, s = t ++ rest ∧ skipToMark s index = index + t.length ∧
    ¬ b!"''" <:+: t ∧ (b!"''" <+: rest ∨ rest.length ≤ 1) ∧
    (rest.length ≤ 1 → ¬ b!"''" <:+: s) ∧ (t.getLast? = some 39 → rest.head? ≠ some 39) := by
  induction s generalizing index with
  | nil => exact ⟨[], [], rfl, rfl, by simp, by simp, by simp, by simp⟩
  | cons a s ih =>
    cases s with
    | nil =>
      refine ⟨[], [a], rfl, rfl, by simp, by simp, ?_, by simp⟩
      intro _ h; exact absurd h.length_le (by simp)
    | cons b s =>
      rw [skipToMark]
      split
      · rename_i h
        refine ⟨[], a :: b :: s, rfl, rfl, by simp, Or.inl (hasPrefix_iff.mp h), ?_, by simp⟩
        intro h; simp at h
      · rename_i h
        rw [hasPrefix_iff] at h
        obtain ⟨t, rest, e1, e2, e3, e4, e5, e6⟩ := ih (index + 1)
        refine ⟨a :: t, rest, by rw [e1]; rfl, by rw [e2]; simp; omega, ?_, e4, ?_, ?_⟩
        · rw [List.infix_cons_iff]
          rintro (hx | hx)
          · apply h
            rw [e1]
            exact hx.trans ⟨rest, rfl⟩
          · exact e3 hx
        · intro hr
          rw [List.infix_cons_iff]
          rintro (hx | hx)
          · exact h hx
          · exact e5 hr hx
        · intro ht hr
          cases t with
          | nil =>
            simp at ht
            apply h
            rw [e1]
            cases rest with
            | nil => simp at hr
            | cons r rest =>
              simp at hr
              subst hr ht
              exact ⟨rest, rfl⟩
          | cons x t => exact e6 (by simpa using ht) hr

/-- What the loop does with the rest of a text: parts of it are formatted, from some pair of apostrophes on the text may be
left as it is. -/
theorem boldItalicLoop_spec (fuel : Nat) : ∀ (pre cur : Str), cur.length < fuel →
    ∃ parts raw, cur = originalText parts ++ raw ∧
      boldItalicLoop fuel (pre ++ cur) pre.length = some (pre ++ renderedText parts ++ raw) ∧
      (∀ p ∈ parts, p.WellFormed) ∧ ProperlyNested parts ∧ (raw = [] ∨ b!"''" <+: raw) := by
  induction fuel with
  | zero => intro _ _ h; omega
  | succ fuel ih =>
    intro pre cur hlen
    rw [boldItalicLoop]
    obtain ⟨t, rest, e1, e2, e3, e4, e5, _⟩ := skipToMark_spec cur pre.length
    simp only [List.drop_left, e2]
    by_cases hr : rest.length ≤ 1
    · rw [if_neg (by rw [e1]; simp; omega)]
      refine ⟨[.text cur], [], by simp [originalText, FormatPart.original],
        by simp [renderedText, FormatPart.rendered], ?_, ?_, Or.inl rfl⟩
      · intro p hp
        simp only [List.mem_singleton] at hp
        subst hp
        exact e5 hr
      · simp [ProperlyNested, marksOf, NestedFrom]
    · have hq : b!"''" <+: rest := e4.resolve_right hr
      rw [if_pos (by rw [e1]; simp; omega)]
      have hdrop : (pre ++ cur).drop (pre.length + t.length) = rest := by
        rw [e1, ← List.append_assoc, ← List.length_append, List.drop_left]
      split
      · rename_i stack hstack
        have : ∃ repair, tokenizeBoldAndItalic (pre ++ cur) repair ((pre ++ cur).length + 1 - (pre.length + t.length))
            (pre.length + t.length) [] false false = some stack := by
          rw [findMarks] at hstack
          split at hstack
          · rename_i h; exact ⟨false, by rw [h]; exact hstack⟩
          · exact ⟨true, hstack⟩
        obtain ⟨repair, hrep⟩ := this
        obtain ⟨parts, hf, he, h2⟩ := tokenize_found _ _ _ _ _ _ _ _ _ MarkState.initial hrep
        rw [hdrop] at h2
        have h2 := h2 hq
        have hpre := hf.isPrefix
        rw [hdrop] at hpre
        obtain ⟨rest', hrest⟩ := hpre
        have happ := applyMarks_parts parts hf.wellFormed hf.ends (pre ++ t) rest' (pre.length + t.length) 0
          (pre.length + t.length) (by simp) (by simp)
        have econt : pre ++ cur = pre ++ t ++ originalText parts ++ rest' := by
          rw [e1, ← hrest]; simp
        rw [List.nil_append] at he
        rw [he, econt, happ]
        simp only
        have hl : cur.length = t.length + rest.length := by rw [e1]; simp
        have hl2 : rest.length = (originalText parts).length + rest'.length := by rw [← hrest]; simp
        obtain ⟨parts', raw, i1, i2, i3, i4, i5⟩ := ih (pre ++ t ++ renderedText parts) rest' (by omega)
        refine ⟨.text t :: parts ++ parts', raw, ?_, ?_, ?_, ?_, i5⟩
        · rw [e1, ← hrest, i1]
          simp [originalText, FormatPart.original]
        · rw [i2]
          simp [renderedText, FormatPart.rendered]
        · intro p hp
          simp only [List.cons_append, List.mem_cons, List.mem_append] at hp
          rcases hp with rfl | hp | hp
          · exact e3
          · exact hf.wellFormed p hp
          · exact i3 p hp
        · have : marksOf (.text t :: parts ++ parts') = marksOf parts ++ marksOf parts' := by
            simp [marksOf, marksOf_append]
          rw [ProperlyNested, this]
          exact hf.nested.append i4
      · refine ⟨[.text t], rest, by simp [originalText, FormatPart.original, e1],
          by simp [renderedText, FormatPart.rendered, e1], ?_, ?_, Or.inr hq⟩
        · intro p hp
          simp only [List.mem_singleton] at hp
          subst hp
          exact e3
        · simp [ProperlyNested, marksOf, NestedFrom]

end Verif.Model
