import Verif.Lemmas.TableAttrs
import Verif.Lemmas.TokMonad

/-! Helper lemmas about tables: cells, rows and captions. -/

namespace Verif.Model
open Verif.Go Verif.Spec
open scoped List

theorem hasPrefix_false {s p : Str} (h : ¬ p <+: s) : hasPrefix s p = false := by
  rw [← Bool.not_eq_true, hasPrefix_iff]; exact h

theorem kept_eq (a : TableAttrs) (h : a.WellFormed) :
    (findSpans (trimSpace a.written) 0 ++ match findTextAlign (trimSpace a.written) with
      | some m => [b!"style=\"" ++ m ++ b!"\""]
      | none => []) = a.kept := by
  have hz : attrsCode a.attrs = [] ∨ ∃ (x : TableAttr) (z : Str), attrsCode a.attrs = x.code ++ z := by
    cases a.attrs with
    | nil => exact .inl rfl
    | cons y rest => exact .inr ⟨y.1, y.2 ++ attrsCode rest, by simp [attrsCode]⟩
  rw [h.code, other_spans h.lead _ hz, other_align h.lead _ hz, findSpans_attrs _ h.others, findTextAlign_attrs _ h.others,
    TableAttrs.kept]
  congr 1
  generalize a.attrs = attrs
  induction attrs with
  | nil => rfl
  | cons x rest ih =>
    obtain ⟨x, next⟩ := x
    cases x with
    | span row number quoted =>
      rw [List.filterMap_cons, List.filterMap_cons]
      exact ih
    | align value => rfl

theorem bar_not_mem_further {more : List Str} (h : ∀ l ∈ more, FurtherLine l) : (0x7C : Byte) ∉ furtherText more := by
  cases more with
  | nil => simp [furtherText]
  | cons l rest =>
    intro hm
    simp only [furtherText, List.mem_append, List.mem_flatMap] at hm
    rcases hm with (hm | hm) | ⟨x, hx, hm⟩
    · revert hm; decide
    · exact (h l (by simp)).bar (mem_of_mem_trimSpace hm)
    · rcases hm with hm | hm
      · revert hm; decide
      · exact (h x (by simp [hx])).bar hm

theorem tableEntry_cell (rec : Rec) (c : TableCell) (h : c.WellFormed) (further : Str) (hf : (0x7C : Byte) ∉ further) :
    tableEntry rec (c.body ++ further) = (do
      let content ← rec (c.text ++ further)
      pure (content, c.kept)) := by
  have ht : (0x7C : Byte) ∉ c.text ++ further := by simp [h.text, hf]
  rw [tableEntry, TableCell.body, TableCell.kept]
  cases ha : c.attributes with
  | none =>
    simp only
    rw [split_singleton_of_not_mem ht]
  | some a =>
    obtain ⟨h1, h2⟩ := h.attributes a (by rw [ha]; rfl)
    simp only
    rw [List.append_assoc, List.append_assoc, List.singleton_append, split_singleton_append _ h2, split_singleton_of_not_mem ht]
    simp only
    congr 1
    funext content
    congr 2
    exact kept_eq a h1

/-- The further lines of a cell as the code sees them. -/
def furtherLines : List Str → List Str
  | [] => []
  | l :: rest => trimSpace l :: rest

theorem furtherText_eq (more : List Str) : (furtherLines more).flatMap (fun l => b!"\n" ++ l) = furtherText more := by
  cases more <;> simp [furtherLines, furtherText]

theorem not_startsCell {l : Str} (h : FurtherLine l) : startsCell l = false ∧ startsCell (trimSpace l) = false := by
  rw [startsCell, startsCell, Bool.or_eq_false_iff, Bool.or_eq_false_iff]
  refine ⟨⟨hasPrefix_false ?_, hasPrefix_false ?_⟩, hasPrefix_false ?_, hasPrefix_false h.cell⟩
  · exact fun hp => h.bar (hp.sublist.mem (by simp))
  · rintro ⟨t, rfl⟩
    have := trimSpace_front (x := 0x21) (by decide) (p := []) (by simp [Padding]) t
    exact h.cell (by rw [List.singleton_append, show (0x21 :: t : Str) = [] ++ 0x21 :: t from rfl, this]; simp)
  · exact fun hp => h.bar (mem_of_mem_trimSpace (hp.sublist.mem (by simp)))

/-- A line that begins with a cell, a row or the end of the table. -/
def CellStart (indent line : Str) : Prop := Padding indent ∧ ∃ (m : Byte) (t : Str), (m = 0x7C ∨ m = 0x21) ∧ line = indent ++ m :: t

theorem CellStart.trimmed {indent line : Str} (h : CellStart indent line) : startsCell (trimSpace line) = true := by
  obtain ⟨hi, m, t, hm, rfl⟩ := h
  rw [trimSpace_front (by rcases hm with rfl | rfl <;> decide) hi]
  rcases hm with rfl | rfl <;> simp [startsCell, hasPrefix]

theorem CellStart.raw {line : Str} (h : CellStart [] line) : startsCell line = true := by
  obtain ⟨hi, m, t, hm, rfl⟩ := h
  rcases hm with rfl | rfl <;> simp [startsCell, hasPrefix]

theorem cellLines_raw {next : Str} (hn : CellStart [] next) (after : List Str) :
    ∀ (more : List Str), (∀ l ∈ more, FurtherLine l) → cellLines (more ++ next :: after) false = .ok (more, next :: after)
  | [], _ => by simp [cellLines, hn.raw]
  | l :: more, h => by
    rw [List.cons_append, cellLines]
    simp only [Bool.false_eq_true, if_false, (not_startsCell (h l (by simp))).1]
    rw [cellLines_raw hn after more fun x hx => h x (by simp [hx])]
    rfl

theorem cellLines_ok {indent next : Str} (hn : CellStart indent next) (after : List Str) (more : List Str)
    (h : ∀ l ∈ more, FurtherLine l) (hi : more ≠ [] → indent = []) :
    cellLines (more ++ next :: after) true = .ok (furtherLines more, next :: after) := by
  cases more with
  | nil => simp [cellLines, hn.trimmed, furtherLines]
  | cons l more =>
    rw [hi (by simp)] at hn
    rw [List.cons_append, cellLines]
    simp only [if_true, (not_startsCell (h l (by simp))).2, Bool.false_eq_true, if_false]
    rw [cellLines_raw hn after more fun x hx => h x (by simp [hx])]
    rfl

/-- What a cell may begin with. -/
def CellHead (heading : Bool) (c : TableCell) : Prop :=
  ∀ m ∈ c.written.head?, m ≠ 0x21 ∧ (heading = false → m ≠ 0x2D ∧ m ≠ 0x2B ∧ m ≠ 0x7D)

/-- The trimmed line of a cell. -/
def cellRest (c : TableCell) : Str := if c.body = [] then [] else c.before ++ c.body

theorem trimSpace_cellLine {indent : Str} (hi : Padding indent) (heading : Bool) {c : TableCell} (h : c.WellFormed) :
    trimSpace (indent ++ cellMark heading :: c.written) = cellMark heading :: cellRest c := by
  rw [trimSpace_front (by cases heading <;> decide) hi, TableCell.written, trimSpaceRight_cell h.before h.after h.body, cellRest]

theorem cellRest_head {heading : Bool} {c : TableCell} (hh : CellHead heading c) :
    ∀ m ∈ (cellRest c).head?, m ≠ 0x21 ∧ (heading = false → m ≠ 0x2D ∧ m ≠ 0x2B ∧ m ≠ 0x7D) := by
  intro m hm
  refine hh m ?_
  rw [cellRest] at hm
  by_cases hb : c.body = []
  · rw [if_pos hb] at hm
    simp at hm
  · rw [if_neg hb] at hm
    rw [TableCell.written, List.head?_append]
    cases hx : (c.before ++ c.body).head? with
    | none => rw [hx] at hm; simp at hm
    | some d => rw [hx] at hm; exact hm

theorem trimSpace_cellRest {c : TableCell} (h : c.WellFormed) : trimSpace (cellRest c) = c.body := by
  rw [cellRest]
  by_cases hb : c.body = []
  · rw [if_pos hb, hb]
    rfl
  · rw [if_neg hb]
    have := trimSpace_pad h.before (q := []) (by simp [Padding]) h.body
    rwa [List.append_nil] at this

theorem cell_no_prefix {heading : Bool} {c : TableCell} (hh : CellHead heading c) {x : Byte}
    (hx : x = 0x2D ∨ x = 0x2B ∨ x = 0x7D) : ¬ [0x7C, x] <+: cellMark heading :: cellRest c := by
  intro hp
  rw [List.cons_prefix_cons] at hp
  obtain ⟨h1, h2⟩ := hp
  cases heading with
  | true => simp [cellMark] at h1
  | false =>
    obtain ⟨t, ht⟩ := h2
    have := cellRest_head hh x (by rw [← ht]; rfl)
    rcases hx with rfl | rfl | rfl
    · exact (this.2 rfl).1 rfl
    · exact (this.2 rfl).2.1 rfl
    · exact (this.2 rfl).2.2 rfl

theorem endsRow_cell {indent : Str} (hi : Padding indent) {heading : Bool} {c : TableCell} (h : c.WellFormed) (hh : CellHead heading c) :
    endsRow (indent ++ cellMark heading :: c.written) = false := by
  rw [endsRow, trimSpace_cellLine hi heading h, Bool.or_eq_false_iff, Bool.or_eq_false_iff]
  exact ⟨⟨hasPrefix_false (cell_no_prefix hh (.inl rfl)), hasPrefix_false (cell_no_prefix hh (.inr (.inl rfl)))⟩,
    hasPrefix_false (cell_no_prefix hh (.inr (.inr rfl)))⟩

theorem cell_text {indent : Str} (hi : Padding indent) {heading : Bool} {c : TableCell} (h : c.WellFormed) (hh : CellHead heading c) :
    trimSpace (trimPrefix (trimPrefix (trimSpace (indent ++ cellMark heading :: c.written)) b!"|") b!"!") = c.body := by
  rw [trimSpace_cellLine hi heading h]
  have e : trimPrefix (trimPrefix (cellMark heading :: cellRest c) b!"|") b!"!" = cellRest c := by
    cases heading with
    | true =>
      simp [cellMark, trimPrefix, List.isPrefixOf]
    | false =>
      have e1 : trimPrefix (cellMark false :: cellRest c) b!"|" = cellRest c := by
        simp [cellMark, trimPrefix, List.isPrefixOf]
      rw [e1, trimPrefix, if_neg]
      rw [List.isPrefixOf_iff_prefix]
      rintro ⟨t, ht⟩
      exact (cellRest_head hh 0x21 (by rw [← ht]; rfl)).1 rfl
  rw [e, trimSpace_cellRest h]

theorem hasPrefix_mark {indent : Str} (hi : Padding indent) (heading : Bool) {c : TableCell} (h : c.WellFormed) :
    hasPrefix (trimSpace (indent ++ cellMark heading :: c.written)) b!"!" = heading := by
  rw [trimSpace_cellLine hi heading h]
  cases heading <;> simp [cellMark, hasPrefix, List.isPrefixOf]

/-- One cell of a row. -/
theorem tableRow_cell (rec : Rec) (fuel : Nat) {indent : Str} (hi : Padding indent) {heading : Bool} {c : TableCell}
    (h : c.WellFormed) (hh : CellHead heading c) (more : List Str) (hm : ∀ l ∈ more, FurtherLine l)
    (hhm : heading = true → more = []) {nextIndent next : Str} (hn : CellStart nextIndent next)
    (hni : more ≠ [] → nextIndent = []) (after : List Str) :
    tableRow rec (fuel + 1) ((indent ++ cellMark heading :: c.written) :: (more ++ next :: after)) = (do
      let col ← tokenizedCell rec heading c more
      let (cols, after) ← tableRow rec fuel (next :: after)
      pure (col :: cols, after)) := by
  rw [tableRow, if_neg (by rw [endsRow_cell hi h hh]; simp), cell_text hi h hh, cellLines_ok hn after more hm hni,
    TokM.lift_ok, pure_bind]
  simp only
  rw [furtherText_eq, tableEntry_cell rec c h _ (bar_not_mem_further hm), tokenizedCell, bind_assoc, bind_assoc]
  congr 1
  funext content
  rw [pure_bind, pure_bind]
  simp only
  congr 1
  funext r
  congr 3
  have hl : (furtherLines more).length = more.length := by cases more <;> rfl
  rw [hl, List.take_left]
  by_cases hmn : more = []
  · subst hmn
    simp only [List.getLastD_cons, List.getLastD_nil]
    rw [hasPrefix_mark hi heading h]
  · have hhf : heading = false := by
      cases heading with
      | false => rfl
      | true => exact absurd (hhm rfl) hmn
    rw [getLastD_cons_ne hmn, hhf]
    congr 1
    apply hasPrefix_false
    have hx : more.getLastD [] ∈ more := by
      cases hg : more.getLast? with
      | none => exact absurd (List.getLast?_eq_none_iff.mp hg) hmn
      | some x =>
        rw [List.getLastD_eq_getLast?, hg]
        exact List.mem_of_getLast? hg
    exact (hm _ hx).cell

/-- The lines of a row after the separators of cells have been replaced by line breaks. -/
def cellSegments (heading : Bool) (others : List TableCell) : List Str := others.map fun c => cellMark heading :: c.written

def lineSegments (l : CellLine Str) : List Str :=
  (l.indent ++ cellMark l.heading :: l.first.written) :: (cellSegments l.heading l.others ++ l.more)

theorem padding_nil : Padding [] := by simp [Padding]

theorem cellStart_mark {indent : Str} (hi : Padding indent) (heading : Bool) (t : Str) : CellStart indent (indent ++ cellMark heading :: t) :=
  ⟨hi, _, _, by cases heading <;> simp [cellMark], rfl⟩

theorem tableRow_cells (rec : Rec) (heading : Bool) (more : List Str) (hm : ∀ l ∈ more, FurtherLine l)
    (hhm : heading = true → more = []) {nextIndent next : Str} (hn : CellStart nextIndent next)
    (hni : more ≠ [] → nextIndent = []) (after : List Str) :
    ∀ (others : List TableCell) (c : TableCell) (indent : Str), Padding indent →
      (∀ x ∈ c :: others, x.WellFormed ∧ CellHead heading x) → ∀ fuel : Nat,
      tableRow rec (fuel + others.length + 1)
        ((indent ++ cellMark heading :: c.written) :: (cellSegments heading others ++ (more ++ next :: after))) = (do
        let cols ← tokenizedCells rec heading c others more
        let (r, after) ← tableRow rec fuel (next :: after)
        pure (cols ++ r, after))
  | [], c, indent, hi, h, fuel => by
    obtain ⟨h1, h2⟩ := h c (by simp)
    rw [cellSegments, List.map_nil, List.nil_append, List.length_nil, Nat.add_zero,
      tableRow_cell rec fuel hi h1 h2 more hm hhm hn hni after, tokenizedCells, bind_assoc]
    rfl
  | c' :: others, c, indent, hi, h, fuel => by
    obtain ⟨h1, h2⟩ := h c (by simp)
    have := tableRow_cell rec (fuel + others.length + 1) hi h1 h2 [] (by simp) (fun _ => rfl)
      (cellStart_mark padding_nil heading c'.written) (by simp) (cellSegments heading others ++ (more ++ next :: after))
    rw [List.nil_append] at this
    rw [List.length_cons, ← Nat.add_assoc]
    refine this.trans ?_
    have ih := tableRow_cells rec heading more hm hhm hn hni after others c' [] padding_nil (fun x hx => h x (by simp [hx])) fuel
    rw [tokenizedCells, bind_assoc]
    congr 1
    funext col
    rw [ih, bind_assoc, bind_assoc]
    congr 1
    funext cols
    rw [bind_assoc, pure_bind]
    rfl

theorem lineSegments_append (l : CellLine Str) (after : List Str) : lineSegments l ++ after =
    (l.indent ++ cellMark l.heading :: l.first.written) :: (cellSegments l.heading l.others ++ (l.more ++ after)) := by
  simp [lineSegments]

theorem endsRow_nil (rec : Rec) (fuel : Nat) {next : Str} (hn : endsRow next = true) (after : List Str) :
    tableRow rec (fuel + 1) (next :: after) = pure ([], next :: after) := by
  rw [tableRow, if_pos hn]

/-- The lines of a row. -/
theorem tableRow_lines (rec : Rec) {nextIndent next : Str} (hn : CellStart nextIndent next) (he : endsRow next = true)
    (after : List Str) : ∀ (lines : List (CellLine Str)), linesWellFormed FurtherLine nextIndent lines → ∀ fuel : Nat,
      (lines.flatMap lineSegments).length < fuel →
      tableRow rec fuel (lines.flatMap lineSegments ++ next :: after) = (do
        let cols ← tokenizedCellLines rec lines
        pure (cols, next :: after))
  | [], _, fuel, hf => by
    obtain ⟨fuel, rfl⟩ : ∃ n, fuel = n + 1 := ⟨fuel - 1, by simp at hf; omega⟩
    rw [List.flatMap_nil, List.nil_append, endsRow_nil rec fuel he, tokenizedCellLines, pure_bind]
  | l :: rest, h, fuel, hf => by
    rw [linesWellFormed] at h
    obtain ⟨hl, hi, hr⟩ := h
    rw [List.flatMap_cons, List.append_assoc, lineSegments_append]
    have hlen : (lineSegments l).length = 1 + l.others.length + l.more.length := by
      simp [lineSegments, cellSegments]
      omega
    rw [List.flatMap_cons, List.length_append, hlen] at hf
    obtain ⟨fuel, rfl⟩ : ∃ n, fuel = n + l.others.length + 1 := ⟨fuel - l.others.length - 1, by omega⟩
    have ih := tableRow_lines rec hn he after rest hr fuel (by omega)
    obtain ⟨nextIndent', next', after', e, hs, hni⟩ : ∃ (i n : Str) (a : List Str), rest.flatMap lineSegments ++ next :: after = n :: a ∧
        CellStart i n ∧ i = indentOf rest nextIndent := by
      cases rest with
      | nil => exact ⟨nextIndent, next, after, rfl, hn, rfl⟩
      | cons l' rest =>
        rw [linesWellFormed] at hr
        refine ⟨l'.indent, _, _, by rw [List.flatMap_cons, List.append_assoc, lineSegments_append], cellStart_mark hr.1.indent _ _, rfl⟩
    rw [e] at ih ⊢
    rw [tableRow_cells rec l.heading l.more hl.more hl.heading hs (fun hm => by rw [hni]; exact hi hm) after' l.others l.first l.indent
      hl.indent hl.cells fuel, ih, tokenizedCellLines, bind_assoc]
    congr 1
    funext cols
    rw [bind_assoc, bind_assoc]
    rfl

def rowSegments (r : TableRow Str) : List Str := separatorLines r.separator ++ r.lines.flatMap lineSegments

/-- A row begins with a cell. -/
theorem tableRows_cell (rec : Rec) (fuel : Nat) {indent : Str} (hi : Padding indent) {heading : Bool} {c : TableCell}
    (h : c.WellFormed) (hh : CellHead heading c) (rest : List Str) (caption : Str) :
    tableRows rec (fuel + 1) ((indent ++ cellMark heading :: c.written) :: rest) caption = (do
      let (cols, after) ← tableRow rec fuel ((indent ++ cellMark heading :: c.written) :: rest)
      let (rows, caption) ← tableRows rec fuel after caption
      pure (cols :: rows, caption)) := by
  conv_lhs => rw [tableRows.eq_def]
  simp only [trimSpace_cellLine hi heading h]
  have e1 := hasPrefix_false (cell_no_prefix hh (x := 0x2B) (.inr (.inl rfl)))
  have e2 := hasPrefix_false (cell_no_prefix hh (x := 0x2D) (.inl rfl))
  have e3 := hasPrefix_false (cell_no_prefix hh (x := 0x7D) (.inr (.inr rfl)))
  rw [e1, e2, e3]
  cases heading with
  | true => simp [cellMark, hasPrefix, List.isPrefixOf]
  | false => simp [cellMark, hasPrefix, List.isPrefixOf]

theorem tableRows_lines (rec : Rec) {nextIndent next : Str} (hn : CellStart nextIndent next) (he : endsRow next = true)
    (after : List Str) (lines : List (CellLine Str)) (hl : linesWellFormed FurtherLine nextIndent lines) (hne : lines ≠ [])
    (fuel : Nat) (hf : (lines.flatMap lineSegments).length < fuel) (caption : Str) :
    tableRows rec (fuel + 1) (lines.flatMap lineSegments ++ next :: after) caption = (do
      let cols ← tokenizedCellLines rec lines
      let (rows, caption) ← tableRows rec fuel (next :: after) caption
      pure (cols :: rows, caption)) := by
  have hrow := tableRow_lines rec hn he after lines hl fuel hf
  cases lines with
  | nil => exact absurd rfl hne
  | cons l rest =>
    rw [linesWellFormed] at hl
    rw [List.flatMap_cons, List.append_assoc, lineSegments_append] at hrow ⊢
    obtain ⟨h1, h2⟩ := hl.1.cells l.first (by simp [CellLine.cells])
    rw [tableRows_cell rec fuel hl.1.indent h1 h2, hrow, bind_assoc]
    rfl

theorem trimSpace_two {indent : Str} (hi : Padding indent) {x : Byte} (hx : 33 ≤ x ∧ x ≤ 126) (t : Str) :
    trimSpace (indent ++ 0x7C :: x :: t) = 0x7C :: x :: trimSpaceRight t := by
  rw [trimSpace_front (by decide) hi]
  exact congrArg _ (trimSpaceRight_visible hx [] t)

theorem separatorLine {indent text : Str} (hi : Padding indent) : CellStart indent (indent ++ b!"|-" ++ text) ∧
    endsRow (indent ++ b!"|-" ++ text) = true := by
  refine ⟨⟨hi, 0x7C, 0x2D :: text, .inl rfl, by simp⟩, ?_⟩
  have e : indent ++ b!"|-" ++ text = indent ++ 0x7C :: 0x2D :: text := by simp
  rw [endsRow, e, trimSpace_two hi (by decide)]
  simp [hasPrefix, List.isPrefixOf]

/-- The rows of a table up to its end. -/
theorem tableRows_rows (rec : Rec) {lastIndent last : Str} (hl : Padding lastIndent) {lastAfter : Str}
    (hlast : last = lastIndent ++ b!"|}" ++ lastAfter) (after : List Str) (caption : Str) :
    ∀ (rows : List (TableRow Str)), rowsWellFormed FurtherLine lastIndent rows → ∀ fuel : Nat,
      (rows.flatMap rowSegments).length + 1 < fuel →
      tableRows rec fuel (rows.flatMap rowSegments ++ last :: after) caption = (do
        let rows ← tokenizedRows rec rows
        pure (rows, caption))
  | [], _, fuel, hf => by
    obtain ⟨fuel, rfl⟩ : ∃ n, fuel = n + 1 := ⟨fuel - 1, by simp at hf; omega⟩
    rw [List.flatMap_nil, List.nil_append, tableRows.eq_def, tokenizedRows, pure_bind]
    have e : last = lastIndent ++ 0x7C :: 0x7D :: lastAfter := by rw [hlast]; simp
    simp only
    rw [e, trimSpace_two hl (by decide)]
    simp [hasPrefix, List.isPrefixOf]
  | row :: rest, h, fuel, hf => by
    rw [rowsWellFormed] at h
    obtain ⟨hsep, hne, hlines, hnext, hrest⟩ := h
    have ih := tableRows_rows rec hl hlast after caption rest hrest
    rw [List.flatMap_cons, List.length_append, rowSegments, List.length_append] at hf
    have hpos : 0 < (row.lines.flatMap lineSegments).length := by
      cases hrl : row.lines with
      | nil => exact absurd hrl hne
      | cons l ls => rw [List.flatMap_cons, List.length_append]; simp [lineSegments]; omega
    -- the line behind the row
    obtain ⟨next, after', e, hs, he⟩ : ∃ (n : Str) (a : List Str), rest.flatMap rowSegments ++ last :: after = n :: a ∧
        CellStart (rowIndent rest lastIndent) n ∧ endsRow n = true := by
      cases rest with
      | nil =>
        refine ⟨last, after, rfl, ⟨hl, 0x7C, 0x7D :: lastAfter, .inl rfl, by rw [hlast, rowIndent]; simp⟩, ?_⟩
        have e : last = lastIndent ++ 0x7C :: 0x7D :: lastAfter := by rw [hlast]; simp
        rw [endsRow, e, trimSpace_two hl (by decide)]
        simp [hasPrefix, List.isPrefixOf]
      | cons r rest =>
        rw [rowsWellFormed] at hrest
        have hr := hnext r rfl
        cases hrs : r.separator with
        | none => exact absurd hrs hr
        | some x =>
          obtain ⟨indent, text⟩ := x
          have hw := hrest.1
          rw [hrs] at hw
          refine ⟨_, _, by rw [List.flatMap_cons, rowSegments, hrs, separatorLines]; rfl, ?_, (separatorLine hw.1).2⟩
          rw [rowIndent]
          simp only [hrs]
          exact (separatorLine hw.1).1
    have hgo : ∀ fuel : Nat, (row.lines.flatMap lineSegments).length < fuel → (rest.flatMap rowSegments).length + 1 < fuel →
        tableRows rec (fuel + 1) (row.lines.flatMap lineSegments ++ (rest.flatMap rowSegments ++ last :: after)) caption = (do
          let rows ← tokenizedRows rec (row :: rest)
          pure (rows, caption)) := by
      intro fuel h1 h2
      rw [e, tableRows_lines rec hs he after' row.lines hlines hne fuel h1, ← e, ih fuel h2, tokenizedRows, bind_assoc]
      congr 1
      funext cols
      rw [bind_assoc, bind_assoc]
      rfl
    rw [List.flatMap_cons, rowSegments, List.append_assoc]
    cases hsp : row.separator with
    | none =>
      rw [hsp] at hf
      obtain ⟨fuel, rfl⟩ : ∃ n, fuel = n + 1 := ⟨fuel - 1, by omega⟩
      rw [separatorLines, List.nil_append]
      simp only [separatorLines, List.length_nil] at hf
      exact hgo fuel (by omega) (by omega)
    | some x =>
      obtain ⟨indent, text⟩ := x
      rw [hsp] at hf hsep
      simp only [separatorLines, List.length_cons, List.length_nil] at hf
      obtain ⟨fuel, rfl⟩ : ∃ n, fuel = n + 2 := ⟨fuel - 2, by omega⟩
      have hseg := hgo fuel (by omega) (by omega)
      have hrow := tableRow_lines rec hs he after' row.lines hlines (fuel + 1) (by omega)
      have ih := ih (fuel + 1) (by omega)
      rw [List.append_assoc, separatorLines, List.singleton_append]
      rw [e] at hseg ih ⊢
      generalize hseq : row.lines.flatMap lineSegments ++ next :: after' = segs at hseg hrow ⊢
      cases segs with
      | nil => simp at hseq
      | cons first segs =>
        rw [tableRows.eq_def]
        simp only
        have e2 : indent ++ b!"|-" ++ text = indent ++ 0x7C :: 0x2D :: text := by simp
        rw [e2, trimSpace_two hsep.1 (by decide)]
        have p1 : hasPrefix (0x7C :: 0x2D :: trimSpaceRight text) b!"|+" = false := by simp [hasPrefix, List.isPrefixOf]
        have p2 : hasPrefix (0x7C :: 0x2D :: trimSpaceRight text) b!"!" = false := by simp [hasPrefix, List.isPrefixOf]
        have p3 : hasPrefix (0x7C :: 0x2D :: trimSpaceRight text) b!"|-" = true := by simp [hasPrefix, List.isPrefixOf]
        simp only [p1, p2, p3, Bool.false_eq_true, if_false, if_true]
        by_cases hst : startsCell first = true
        · simp only [hst, if_true]
          rw [hrow, tokenizedRows, bind_assoc, bind_assoc]
          congr 1
          funext cols
          rw [pure_bind]
          simp only
          rw [ih, bind_assoc, bind_assoc]
          rfl
        · rw [if_neg hst]
          exact hseg

end Verif.Model
