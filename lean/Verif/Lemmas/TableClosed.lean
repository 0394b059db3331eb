import Verif.Lemmas.TableTokens

/-! Helper lemmas about tables: closed tables are tokenized without a crash. -/

namespace Verif.Model
open Verif.Go Verif.Spec
open scoped List

/-- The computation returns, with a result that has the property. -/
def Total {α : Type} (m : TokM α) (p : α → Prop) : Prop := ∀ s, ∃ a s', m s = some (.ok (a, s')) ∧ p a

theorem Total.pure {α : Type} {p : α → Prop} {a : α} (h : p a) : Total (Pure.pure a : TokM α) p := fun s => ⟨a, s, rfl, h⟩

theorem Total.bind {α β : Type} {m : TokM α} {f : α → TokM β} {p : α → Prop} {q : β → Prop} (h : Total m p)
    (hf : ∀ a, p a → Total (f a) q) : Total (m >>= f) q := by
  intro s
  obtain ⟨a, s1, h1, h2⟩ := h s
  obtain ⟨b, s2, h3, h4⟩ := hf a h2 s1
  exact ⟨b, s2, TokM.bind_ok.mpr ⟨a, s1, h1, h3⟩, h4⟩

theorem Total.mono {α : Type} {m : TokM α} {p q : α → Prop} (h : Total m p) (hpq : ∀ a, p a → q a) : Total m q := by
  intro s
  obtain ⟨a, s', h1, h2⟩ := h s
  exact ⟨a, s', h1, hpq a h2⟩

/-- Some line ends the table. -/
def Ended (lines : List Str) : Prop := ∃ l ∈ lines, b!"|}" <+: l

theorem trimSpace_end {l : Str} (h : b!"|}" <+: l) : b!"|}" <+: trimSpace l := by
  obtain ⟨t, rfl⟩ := h
  have := trimSpace_two (indent := []) padding_nil (x := 0x7D) (by decide) t
  rw [List.nil_append] at this
  exact ⟨trimSpaceRight t, this.symm⟩

theorem Ended.tail {line : Str} {rest : List Str} (h : Ended (line :: rest)) (hl : ¬ b!"|}" <+: trimSpace line) : Ended rest := by
  obtain ⟨l, hm, hp⟩ := h
  rcases List.mem_cons.mp hm with rfl | hm
  · exact absurd (trimSpace_end hp) hl
  · exact ⟨l, hm, hp⟩

theorem Ended.tail' {line : Str} {rest : List Str} (h : Ended (line :: rest)) (hl : ¬ b!"|}" <+: line) : Ended rest := by
  obtain ⟨l, hm, hp⟩ := h
  rcases List.mem_cons.mp hm with rfl | hm
  · exact absurd hp hl
  · exact ⟨l, hm, hp⟩

theorem startsCell_end {l : Str} (h : b!"|}" <+: l) : startsCell l = true := by
  obtain ⟨t, rfl⟩ := h
  simp [startsCell, hasPrefix, List.isPrefixOf]

theorem cellLines_ended : ∀ (lines : List Str) (first : Bool), Ended lines →
    ∃ ls after, cellLines lines first = .ok (ls, after) ∧ Ended after ∧ after.length ≤ lines.length
  | [], _, h => by
    obtain ⟨l, hm, _⟩ := h
    simp at hm
  | line :: rest, first, h => by
    rw [cellLines]
    by_cases hs : startsCell (if first then trimSpace line else line) = true
    · simp only [hs, if_true]
      exact ⟨_, _, rfl, h, Nat.le_refl _⟩
    · simp only [hs, Bool.false_eq_true, if_false]
      obtain ⟨ls, after, h1, h2, h3⟩ := cellLines_ended rest false (h.tail' (by
        intro hp
        cases first with
        | true => exact hs (startsCell_end (trimSpace_end hp))
        | false => exact hs (startsCell_end hp)))
      rw [h1]
      exact ⟨_, _, rfl, h2, by simp; omega⟩

theorem captionLines_ended : ∀ (lines : List Str), Ended lines →
    ∃ ls after, captionLines lines = .ok (ls, after) ∧ Ended after ∧ after.length ≤ lines.length
  | [], h => by
    obtain ⟨l, hm, _⟩ := h
    simp at hm
  | line :: rest, h => by
    rw [captionLines]
    by_cases hs : startsCell (trimSpace line) = true
    · simp only [hs, if_true]
      exact ⟨_, _, rfl, h, Nat.le_refl _⟩
    · simp only [hs, Bool.false_eq_true, if_false]
      obtain ⟨ls, after, h1, h2, h3⟩ := captionLines_ended rest (h.tail' fun hp => hs (startsCell_end (trimSpace_end hp)))
      rw [h1]
      exact ⟨_, _, rfl, h2, by simp; omega⟩

section
variable {rec : Rec} (hr : ∀ c, Total (rec c) fun _ => True)
include hr

theorem tableEntry_total (content : Str) : Total (tableEntry rec content) fun _ => True := by
  rw [tableEntry]
  split
  · exact (hr _).bind fun _ _ => Total.pure trivial
  · exact (hr _).bind fun _ _ => Total.pure trivial

theorem tableRow_total : ∀ (fuel : Nat) (lines : List Str), Ended lines → lines.length < fuel →
    Total (tableRow rec fuel lines) fun r => Ended r.2 ∧ r.2.length ≤ lines.length ∧
      ∀ l ∈ lines.head?, endsRow l = false → r.2.length < lines.length
  | 0, _, _, hf => by omega
  | _ + 1, [], h, _ => by
    obtain ⟨l, hm, _⟩ := h
    simp at hm
  | fuel + 1, line :: rest, h, hf => by
    rw [tableRow]
    by_cases he : endsRow line = true
    · rw [if_pos he]
      refine Total.pure ⟨h, Nat.le_refl _, ?_⟩
      intro l hl hn
      have : line = l := by simpa using hl
      subst this
      rw [he] at hn
      cases hn
    · rw [if_neg he]
      obtain ⟨ls, after, h1, h2, h3⟩ := cellLines_ended rest true (h.tail (by
        intro hp
        apply he
        rw [endsRow, (hasPrefix_iff).mpr hp, Bool.or_true]))
      simp only [h1, TokM.lift_ok, pure_bind]
      simp only [List.length_cons] at hf ⊢
      refine (tableEntry_total hr _).bind fun r _ => ?_
      refine (tableRow_total fuel after h2 (by omega)).bind fun r hr => Total.pure ?_
      exact ⟨hr.1, by have := hr.2.1; simp only; omega, fun _ _ _ => by have := hr.2.1; simp only; omega⟩

theorem tableRows_total : ∀ (fuel : Nat) (lines : List Str) (caption : Str), Ended lines → lines.length + 1 < fuel →
    Total (tableRows rec fuel lines caption) fun _ => True
  | 0, _, _, _, hf => by omega
  | _ + 1, [], _, h, _ => by
    obtain ⟨l, hm, _⟩ := h
    simp at hm
  | fuel + 1, line :: rest, caption, h, hf => by
    have hne : ∀ p : Str, p ≠ b!"|}" → p.length = 2 → hasPrefix (trimSpace line) p = true → ¬ b!"|}" <+: trimSpace line := by
      intro p h1 h2 h3 h4
      rw [hasPrefix_iff] at h3
      obtain ⟨t, ht⟩ := h3
      rw [← ht] at h4
      exact h1 ((List.prefix_of_prefix_length_le h4 (List.prefix_append _ _) (by simp [h2])).eq_of_length (by simp [h2])).symm
    have hrow : ∀ hb : endsRow line = false, Total (do
        let (cols, after) ← tableRow rec fuel (line :: rest)
        let (rows, caption) ← tableRows rec fuel after caption
        pure (cols :: rows, caption)) fun _ => True := by
      intro hb
      simp only [List.length_cons] at hf
      refine (tableRow_total hr fuel (line :: rest) h (by simp only [List.length_cons]; omega)).bind fun r hr' => ?_
      have := hr'.2.2 line rfl hb
      simp only [List.length_cons] at this
      exact (tableRows_total fuel r.2 caption hr'.1 (by omega)).bind fun _ _ => Total.pure trivial
    have hlen : (line :: rest).length = rest.length + 1 := rfl
    rw [hlen] at hf
    rw [tableRows.eq_def]
    simp only
    by_cases h1 : hasPrefix (trimSpace line) b!"|+" = true
    · rw [if_pos h1, tableCaption]
      obtain ⟨ls, after, e1, e2, e3⟩ := captionLines_ended rest (h.tail (hne _ (by decide) rfl h1))
      simp only [e1, TokM.lift_ok, pure_bind, bind_assoc]
      exact (tableEntry_total hr _).bind fun r _ => tableRows_total fuel after _ e2 (by omega)
    · rw [if_neg h1]
      by_cases h2 : hasPrefix (trimSpace line) b!"!" = true
      · rw [if_pos h2]
        refine hrow ?_
        rw [hasPrefix_iff] at h2
        obtain ⟨t, ht⟩ := h2
        rw [endsRow, ← ht]
        simp [hasPrefix, List.isPrefixOf]
      · rw [if_neg h2]
        by_cases h3 : hasPrefix (trimSpace line) b!"|-" = true
        · rw [if_pos h3]
          have hrest := h.tail (hne _ (by decide) rfl h3)
          cases rest with
          | nil =>
            obtain ⟨l, hm, _⟩ := hrest
            simp at hm
          | cons next rest =>
            simp only
            split
            · refine (tableRow_total hr fuel (next :: rest) hrest (by omega)).bind fun r hr' => ?_
              have := hr'.2.1
              exact (tableRows_total fuel r.2 caption hr'.1 (by omega)).bind fun _ _ => Total.pure trivial
            · exact tableRows_total fuel _ _ hrest (by omega)
        · rw [if_neg h3]
          by_cases h4 : hasPrefix (trimSpace line) b!"|}" = true
          · rw [if_pos h4]
            exact Total.pure trivial
          · rw [if_neg h4]
            by_cases h5 : hasPrefix (trimSpace line) b!"|" = true
            · rw [if_pos h5]
              refine hrow ?_
              rw [endsRow, Bool.eq_false_iff.mpr h1, Bool.eq_false_iff.mpr h3, Bool.eq_false_iff.mpr h4]
              rfl
            · rw [if_neg h5]
              exact tableRows_total fuel _ _ (h.tail (by rwa [hasPrefix_iff] at h4)) (by omega)
end

/-! ### The lines of the text of a table -/

theorem split_append {c : Byte} (a b : Str) : split (a ++ c :: b) [c] = split a [c] ++ split b [c] := by
  have h1 := split_ne_nil (sep := [c]) a (by simp)
  have h2 := split_ne_nil (sep := [c]) b (by simp)
  have := split_join_singleton (c := c) (l := split a [c] ++ split b [c]) (by simp [h1]) (by
    intro p hp
    rcases List.mem_append.mp hp with hp | hp
    · exact not_mem_of_mem_split_singleton hp
    · exact not_mem_of_mem_split_singleton hp)
  rw [← this, join_append h1 h2, join_split_self _ (by simp), join_split_self _ (by simp)]
  simp

theorem split_join {c : Byte} : ∀ (l : List Str), l ≠ [] → split (join [c] l) [c] = l.flatMap fun x => split x [c]
  | [], h => absurd rfl h
  | [x], _ => by simp [join]
  | x :: y :: l, _ => by
    rw [join_cons_of_ne_nil (by simp), List.append_assoc, List.singleton_append, split_append, split_join (y :: l) (by simp)]
    rfl

/-- The parts of a line of a table. -/
def lineParts (l : Str) : List Str := split (markLines l) b!"\n"

theorem split_markLines (lines : List Str) (h : lines ≠ []) : split (markLines (join b!"\n" lines)) b!"\n" = lines.flatMap lineParts := by
  rw [markLines_join, split_join _ (by simpa using h), List.flatMap_map]
  rfl

theorem lineParts_plain {l : Str} (h : FurtherLine l) : lineParts l = [l] := by
  have h := noMarks_further h
  rw [lineParts, markLines_plain h.2.1 h.2.2, split_singleton_of_not_mem h.1]

theorem lineParts_end {l : Str} (h : b!"|}" <+: l) : Ended (lineParts l) := by
  obtain ⟨t, rfl⟩ := h
  have e : ∃ r, markLines (b!"|}" ++ t) = b!"|}" ++ r := by
    rw [markLines, show b!"|}" ++ t = [0x7C] ++ 0x7D :: t from rfl, replaceAll_sep _ (by decide) (by decide),
      replaceAll_of_not_infix (by decide : ¬ b!"||" <:+: [0x7C]), replaceAll_sep _ (by decide) (by decide),
      replaceAll_of_not_infix (by decide : ¬ b!"!!" <:+: [0x7C])]
    exact ⟨_, rfl⟩
  obtain ⟨r, hr⟩ := e
  rw [lineParts, hr]
  by_cases hn : (0x0A : Byte) ∈ r
  · obtain ⟨a, b, rfl, ha⟩ := List.eq_append_cons_of_mem hn
    rw [← List.append_assoc, split_singleton_append _ (by simp [ha])]
    exact ⟨_, List.mem_cons_self, List.prefix_append _ _⟩
  · rw [split_singleton_of_not_mem (by simp [hn])]
    exact ⟨_, List.mem_cons_self, List.prefix_append _ _⟩

theorem tableBody_end (rec : Rec) (fuel : Nat) {last : Str} (h : b!"|}" <+: last) (rest : List Str) :
    tableBody rec (fuel + 1) (last :: rest) = pure ([last], rest) := by
  obtain ⟨t, ht⟩ := trimSpace_end h
  rw [tableBody]
  simp only [← ht]
  simp [hasPrefix, List.isPrefixOf]

section
variable {rec : Rec} (hr : ∀ c, Total (rec c) fun _ => True)
include hr

theorem tokenizeTable_total (fuel : Nat) (lines : List Str) (hne : lines ≠ []) (he : Ended (lines.flatMap lineParts))
    (hf : (lines.flatMap lineParts).length + 1 < fuel) : Total (tokenizeTable rec fuel (join b!"\n" lines)) fun _ => True := by
  have e := split_markLines lines hne
  rw [markLines] at e
  rw [tokenizeTable]
  simp only
  rw [e]
  exact (tableRows_total hr fuel _ _ he hf).bind fun _ _ => Total.pure trivial

/-- What `tableBody` makes of lines with closed tables. -/
def BodyTotal (rec : Rec) (body : List Str) : Prop := ∃ k steps n, ∀ fuel, steps ≤ fuel → ∀ rest (q : List Str × List Str → Prop),
  Total (tableBody rec fuel rest) q → Total (tableBody rec (fuel + k) (body ++ rest)) fun r =>
    ∃ front b, q b ∧ r = (front ++ b.1, b.2) ∧ (front.flatMap lineParts).length = n

theorem tokenizeTables_total {first last : Str} {body : List Str} (hb : BodyTotal rec body) (hl : b!"|}" <+: last) :
    ∃ steps, ∀ fuel, steps ≤ fuel → ∀ rest, Total (tokenizeTables rec fuel first (body ++ last :: rest)) fun r =>
      r.2 = rest ∧ FurtherLine r.1 := by
  obtain ⟨k, steps, n, hb⟩ := hb
  refine ⟨max (steps + 1 + k) ((lineParts first).length + n + (lineParts last).length + 2) + 2, fun fuel hf rest => ?_⟩
  obtain ⟨fuel, rfl⟩ : ∃ m, fuel = m + 1 + k + 1 := ⟨fuel - k - 2, by omega⟩
  rw [tokenizeTables]
  refine (hb (fuel + 1) (by omega) (last :: rest) (fun b => b = ([last], rest)) (by
    rw [tableBody_end rec fuel hl]
    exact Total.pure rfl)).bind fun r hr' => ?_
  obtain ⟨front, b, rfl, rfl, hn⟩ := hr'
  simp only
  refine (tokenizeTable_total hr _ (first :: (front ++ [last])) (by simp) ?_ ?_).bind fun token _ => ?_
  · obtain ⟨l, h1, h2⟩ := lineParts_end hl
    exact ⟨l, by simp [h1], h2⟩
  · simp [hn] at hf ⊢
    omega
  · intro s
    exact ⟨_, _, rfl, rfl, furtherLine_key _⟩

theorem withinTable_total {body : List Str} (h : WithinTable body) : BodyTotal rec body := by
  induction h with
  | nil =>
    refine ⟨0, 0, 0, fun fuel _ rest q hq => ?_⟩
    exact hq.mono fun r hr' => ⟨[], r, hr', rfl, rfl⟩
  | @line l rest h1 h2 _ ih =>
    obtain ⟨k, steps, n, ih⟩ := ih
    refine ⟨k + 1, steps, (lineParts l).length + n, fun fuel hf rest' q hq => ?_⟩
    rw [List.cons_append, ← Nat.add_assoc, tableBody]
    have e1 : hasPrefix (trimSpace l) b!"{|" = false := hasPrefix_false fun hp => h1 (.inl hp)
    have e2 : hasPrefix (trimSpace l) b!":{|" = false := hasPrefix_false fun hp => h1 (.inr hp)
    simp only [e1, e2, hasPrefix_false h2, Bool.or_self, Bool.false_eq_true, if_false]
    refine (ih fuel hf rest' q hq).bind fun r hr' => Total.pure ?_
    obtain ⟨front, b, hb, rfl, hn⟩ := hr'
    exact ⟨l :: front, b, hb, rfl, by simp [hn]⟩
  | @table first last body rest hf _ hl _ ihb ihr =>
    obtain ⟨steps1, h1⟩ := tokenizeTables_total hr (first := first) ihb hl
    obtain ⟨k, steps, n, ih⟩ := ihr
    refine ⟨k + 1, max steps steps1, 1 + n, fun fuel hfu rest' q hq => ?_⟩
    rw [List.cons_append, List.append_assoc, List.cons_append, ← Nat.add_assoc, tableBody]
    have e : (hasPrefix (trimSpace first) b!"{|" || hasPrefix (trimSpace first) b!":{|") = true := by
      rw [Bool.or_eq_true, hasPrefix_iff, hasPrefix_iff]
      exact hf
    simp only [e, if_true]
    refine (h1 (fuel + k) (by omega) (rest ++ rest')).bind fun r hr' => ?_
    obtain ⟨h2, h3⟩ := hr'
    rw [h2]
    refine (ih fuel (by omega) rest' q hq).bind fun r' hr' => Total.pure ?_
    obtain ⟨front, b, hb, rfl, hn⟩ := hr'
    refine ⟨r.1 :: front, b, hb, rfl, ?_⟩
    rw [List.flatMap_cons, lineParts_plain h3, List.length_append, hn]
    rfl

theorem tablesClosed_total {lines : List Str} (h : TablesClosed lines) : ∃ steps, ∀ fuel, steps ≤ fuel →
    Total (tableLoop rec fuel lines) fun _ => True := by
  induction h with
  | nil =>
    refine ⟨1, fun fuel hf => ?_⟩
    obtain ⟨fuel, rfl⟩ : ∃ n, fuel = n + 1 := ⟨fuel - 1, by omega⟩
    exact Total.pure trivial
  | @line l rest h _ ih =>
    obtain ⟨steps, ih⟩ := ih
    refine ⟨steps + 1, fun fuel hf => ?_⟩
    obtain ⟨fuel, rfl⟩ : ∃ n, fuel = n + 1 := ⟨fuel - 1, by omega⟩
    rw [tableLoop, matchTableStart_none h]
    exact (ih fuel (by omega)).bind fun _ _ => Total.pure trivial
  | @table first last body rest hf hb hl _ ih =>
    obtain ⟨steps, ih⟩ := ih
    obtain ⟨steps1, h1⟩ := tokenizeTables_total hr (first := first) (withinTable_total hr hb) hl
    refine ⟨max steps steps1 + 1, fun fuel hfu => ?_⟩
    obtain ⟨fuel, rfl⟩ : ∃ n, fuel = n + 1 := ⟨fuel - 1, by omega⟩
    obtain ⟨colons, hc, t, ht⟩ := hf
    rw [tableLoop, ← ht, matchTableStart_some hc]
    simp only
    refine (h1 fuel (by omega) rest).bind fun r hr' => ?_
    rw [hr'.1]
    exact (ih fuel (by omega)).bind fun _ _ => Total.pure trivial
end

end Verif.Model
