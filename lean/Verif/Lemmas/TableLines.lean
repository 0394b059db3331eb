import Verif.Lemmas.WikiTables

/-! Helper lemmas about tables: captions, and the lines of a table. -/

namespace Verif.Model
open Verif.Go Verif.Spec
open scoped List

theorem captionLines_ok {indent next : Str} (hn : CellStart indent next) (after : List Str) :
    ∀ (more : List Str), (∀ l ∈ more, FurtherLine l) →
      captionLines (more ++ next :: after) = .ok (more.map trimSpace, next :: after)
  | [], _ => by simp [captionLines, hn.trimmed]
  | l :: more, h => by
    rw [List.cons_append, captionLines]
    simp only [Bool.false_eq_true, if_false, (not_startsCell (h l (by simp))).2]
    rw [captionLines_ok hn after more fun x hx => h x (by simp [hx])]
    rfl

theorem tableEntry_caption (rec : Rec) (c : TableCaption) (h : c.WellFormed) (further : Str) (hf : (0x7C : Byte) ∉ further) :
    ∃ attributes, tableEntry rec (c.body ++ further) = (do
      let content ← rec (c.text ++ further)
      pure (content, attributes)) := by
  have ht : (0x7C : Byte) ∉ c.text ++ further := by simp [h.text, hf]
  rw [tableEntry, TableCaption.body]
  cases ha : c.attributes with
  | none =>
    refine ⟨[], ?_⟩
    simp only
    rw [split_singleton_of_not_mem ht]
  | some a =>
    have h2 := h.attributes a (by rw [ha]; rfl)
    simp only
    rw [List.append_assoc, List.append_assoc, List.singleton_append, split_singleton_append _ h2, split_singleton_of_not_mem ht]
    exact ⟨_, rfl⟩

/-- A caption. -/
theorem tableRows_caption (rec : Rec) (fuel : Nat) (c : TableCaption) (h : c.WellFormed) {indent next : Str}
    (hn : CellStart indent next) (after : List Str) (caption : Str) :
    tableRows rec (fuel + 1) (captionsLines (some c) ++ next :: after) caption = (do
      let caption ← tokenizedCaption rec (some c)
      tableRows rec fuel (next :: after) caption) := by
  have e1 : trimSpace (c.indent ++ b!"|+" ++ c.body ++ c.after) = b!"|+" ++ c.body := by
    have := trimSpace_pad h.indent h.after h.body
    rw [← List.append_assoc] at this
    exact this
  have hf : (0x7C : Byte) ∉ c.more.flatMap (fun l => b!"\n" ++ trimSpace l) := by
    intro hm
    obtain ⟨l, hl, hm⟩ := List.mem_flatMap.mp hm
    rw [List.mem_append] at hm
    rcases hm with hm | hm
    · revert hm; decide
    · exact (h.more l hl).bar (mem_of_mem_trimSpace hm)
  obtain ⟨attributes, e2⟩ := tableEntry_caption rec c h _ hf
  rw [captionsLines, List.cons_append, tableRows.eq_def]
  simp only
  rw [e1, if_pos (by rw [hasPrefix_iff]; exact List.prefix_append _ _), tableCaption, captionLines_ok hn after c.more h.more,
    TokM.lift_ok, pure_bind]
  simp only
  have e3 : trimPrefix (trimSpace (c.indent ++ b!"|+" ++ c.body ++ c.after) ++ (c.more.map trimSpace).flatMap (fun l => b!"\n" ++ l)) b!"|+" =
      c.body ++ c.more.flatMap (fun l => b!"\n" ++ trimSpace l) := by
    rw [e1, List.append_assoc, trimPrefix, if_pos (by rw [List.isPrefixOf_iff_prefix]; exact List.prefix_append _ _), List.drop_left,
      List.flatMap_map]
  rw [e3, e2, tokenizedCaption, bind_assoc, bind_assoc, bind_assoc]
  rfl

/-! ### From the text to the lines -/

theorem join_append {sep : Str} {a b : List Str} (ha : a ≠ []) (hb : b ≠ []) :
    join sep (a ++ b) = join sep a ++ sep ++ join sep b := by
  induction a with
  | nil => exact absurd rfl ha
  | cons x a ih =>
    by_cases h : a = []
    · subst h
      rw [List.singleton_append, join_cons_of_ne_nil hb]
      rfl
    · rw [List.cons_append, join_cons_of_ne_nil (by simp [h]), ih h, join_cons_of_ne_nil h]
      simp

theorem join_join {sep : Str} (l : List (List Str)) (h : ∀ x ∈ l, x ≠ []) :
    join sep (l.map (join sep)) = join sep l.flatten := by
  induction l with
  | nil => rfl
  | cons x l ih =>
    by_cases hl : l = []
    · subst hl
      simp [join]
    · have hf : l.flatten ≠ [] := by
        obtain ⟨y, l', rfl⟩ := List.exists_cons_of_ne_nil hl
        have := h y (by simp)
        simp [this]
      rw [List.map_cons, join_cons_of_ne_nil (by simpa using hl), ih fun y hy => h y (by simp [hy]), List.flatten_cons,
        join_append (h x (by simp)) hf]

theorem join_front (a b w : Str) (l : List Str) : join a ((b ++ w) :: l) = b ++ join a (w :: l) := by
  cases l with
  | nil => rfl
  | cons x l =>
    show (b ++ w) ++ a ++ join a (x :: l) = b ++ (w ++ a ++ join a (x :: l))
    simp only [List.append_assoc]

theorem join_prefixed (a b x : Str) (ws : List Str) :
    join (a ++ b) (x :: ws) = join a (x :: ws.map (b ++ ·)) := by
  induction ws generalizing x with
  | nil => rfl
  | cons w ws ih =>
    rw [join_cons_of_ne_nil (List.cons_ne_nil _ _), ih, List.map_cons, join_cons_of_ne_nil (List.cons_ne_nil _ _), join_front]
    simp

/-- The marks of cells are replaced by line breaks. -/
def markLines (s : Str) : Str := replaceAll (replaceAll s b!"||" b!"\n|") b!"!!" b!"\n!"

theorem markLines_join (lines : List Str) : markLines (join b!"\n" lines) = join b!"\n" (lines.map markLines) := by
  rw [markLines, replaceAll_join _ (by decide) (by decide), replaceAll_join _ (by decide) (by decide), List.map_map]
  rfl

theorem markLines_plain {s : Str} (h1 : ¬ b!"||" <:+: s) (h2 : ¬ b!"!!" <:+: s) : markLines s = s := by
  rw [markLines, replaceAll_of_not_infix h1, replaceAll_of_not_infix h2]

theorem split_cells (c : Byte) (ws : List Str) : ∀ (front w : Str), Separated c front (w :: ws) →
    split (front ++ join [c, c] (w :: ws)) [c, c] = (front ++ w) :: ws := by
  induction ws with
  | nil =>
    intro front w h
    rw [Separated] at h
    exact split_of_not_infix (by simp) h
  | cons w' ws ih =>
    intro front w h
    rw [Separated] at h
    · obtain ⟨h1, h2⟩ := h
      have := ih [] w' h2
      rw [List.nil_append, List.nil_append] at this
      rw [join_cons_of_ne_nil (by simp), ← List.append_assoc, ← List.append_assoc, split_pair _ h1, this]
    · simp

theorem separated_indent {c : Byte} {indent : Str} (hi : c ∉ indent) {front : Str} {ws : List Str} (h : Separated c front ws) :
    Separated c (indent ++ front) ws := by
  cases ws with
  | nil => trivial
  | cons w ws =>
    cases ws with
    | nil =>
      rw [Separated] at h ⊢
      intro hh
      rw [List.append_assoc] at hh
      exact h (infix_behind hi hh)
    | cons w' ws =>
      rw [Separated] at h ⊢
      · refine ⟨fun hh => h.1 ?_, h.2⟩
        rw [List.append_assoc, List.append_assoc] at hh
        have := infix_behind hi hh
        rwa [← List.append_assoc] at this
      · simp
      · simp

theorem not_infix_join {p : Str} (hp : p ≠ []) {c : Byte} (hc : c ∉ p) (ws : List Str) (h : ∀ w ∈ ws, ¬ p <:+: w) :
    ¬ p <:+: join [c, c] ws := by
  induction ws with
  | nil => simpa [join] using hp
  | cons w ws ih =>
    by_cases hw : ws = []
    · subst hw
      exact h w (by simp)
    · rw [join_cons_of_ne_nil hw, List.append_assoc]
      intro hh
      rcases infix_over hp hc hh with hh | hh
      · exact h w (by simp) hh
      · rcases infix_over (a := []) hp hc hh with hh | hh
        · exact hp (by simpa using hh)
        · exact ih (fun x hx => h x (by simp [hx])) hh

theorem mark_not_padding {indent : Str} (hi : Padding indent) (heading : Bool) : cellMark heading ∉ indent := by
  intro hm
  have := hi _ hm
  cases heading <;> simp [cellMark] at this

/-- The segments of a line with cells. -/
theorem markLines_cells {α : Type} {p : α → Prop} (l : CellLine α) (h : l.WellFormed p) :
    markLines l.line = join b!"\n" ((l.indent ++ cellMark l.heading :: l.first.written) :: cellSegments l.heading l.others) := by
  have hsep := separated_indent (mark_not_padding h.indent l.heading) h.separated
  have hsplit := split_cells (cellMark l.heading) (l.others.map TableCell.written) _ _ hsep
  have hline : l.line = (l.indent ++ [cellMark l.heading]) ++ join [cellMark l.heading, cellMark l.heading] (l.cells.map TableCell.written) := by
    rw [CellLine.line]; simp
  have hne : ∀ m : Bool, ([cellMark m, cellMark m] : Str) ≠ [] := by simp
  have hother : ∀ m : Bool, cellMark m ∉ ([cellMark (!m), cellMark (!m)] : Str) := by decide
  have hrep : replaceAll l.line [cellMark l.heading, cellMark l.heading] (0x0A :: [cellMark l.heading]) =
      join b!"\n" ((l.indent ++ cellMark l.heading :: l.first.written) :: cellSegments l.heading l.others) := by
    rw [← join_split _ _ (hne _), hline]
    have e : l.cells.map TableCell.written = l.first.written :: l.others.map TableCell.written := by simp [CellLine.cells]
    rw [e, hsplit]
    have := join_prefixed b!"\n" [cellMark l.heading] (l.indent ++ [cellMark l.heading] ++ l.first.written) (l.others.map TableCell.written)
    rw [List.singleton_append] at this
    rw [this, List.map_map, cellSegments]
    simp [Function.comp_def]
  -- the other mark does not occur
  have hfree : ¬ [cellMark (!l.heading), cellMark (!l.heading)] <:+: l.line := by
    rw [hline, List.append_assoc]
    intro hh
    have hh := infix_behind (mark_not_padding h.indent (!l.heading)) hh
    rcases infix_over (a := []) (hne _) (hother l.heading) hh with hh | hh
    · simp at hh
    · refine not_infix_join (hne _) (hother l.heading) _ ?_ hh
      intro w hw
      obtain ⟨c, hc, rfl⟩ := List.mem_map.mp hw
      exact h.other c hc
  cases hh : l.heading with
  | true =>
    rw [hh] at hrep hfree
    have hfree : ¬ b!"||" <:+: l.line := hfree
    rw [markLines, replaceAll_of_not_infix hfree]
    exact hrep
  | false =>
    rw [hh] at hrep hfree
    have hrep : replaceAll l.line b!"||" b!"\n|" = _ := hrep
    rw [markLines, hrep, replaceAll_join _ (by decide) (by decide)]
    congr 1
    rw [← List.map_id ((l.indent ++ cellMark false :: l.first.written) :: cellSegments false l.others), List.map_map]
    apply List.map_congr_left
    intro x hx
    simp only [Function.comp_apply, id_eq]
    apply replaceAll_of_not_infix
    rw [List.mem_cons] at hx
    have ho := h.other
    rw [hh] at ho
    rcases hx with rfl | hx
    · intro hi
      have hi := infix_behind (mark_not_padding h.indent true) hi
      rcases infix_over (a := []) (c := 0x7C) (by decide) (by decide) hi with hi | hi
      · simp at hi
      · exact ho l.first (by simp [CellLine.cells]) hi
    · obtain ⟨c, hc, rfl⟩ := List.mem_map.mp hx
      intro hi
      rcases infix_over (a := []) (c := 0x7C) (by decide) (by decide) hi with hi | hi
      · simp at hi
      · exact ho c (by simp [CellLine.cells, hc]) hi

/-- The lines of a table become the given segments. -/
def Segmented (lines segs : List Str) : Prop :=
  ∃ parts : List (List Str), lines.map markLines = parts.map (join b!"\n") ∧ segs = parts.flatten ∧ (∀ p ∈ parts, p ≠ []) ∧
    ∀ s ∈ segs, (0x0A : Byte) ∉ s

theorem segmented_nil : Segmented [] [] := ⟨[], rfl, rfl, by simp, by simp⟩

theorem Segmented.append {a b c d : List Str} (h1 : Segmented a c) (h2 : Segmented b d) : Segmented (a ++ b) (c ++ d) := by
  obtain ⟨p, e1, e2, e3, e4⟩ := h1
  obtain ⟨q, f1, f2, f3, f4⟩ := h2
  refine ⟨p ++ q, by simp [e1, f1], by simp [e2, f2], ?_, ?_⟩
  · intro x hx
    rcases List.mem_append.mp hx with hx | hx
    · exact e3 x hx
    · exact f3 x hx
  · intro x hx
    rcases List.mem_append.mp hx with hx | hx
    · exact e4 x hx
    · exact f4 x hx

theorem Segmented.cons {l : Str} {part b d : List Str} (h1 : markLines l = join b!"\n" part) (hp : part ≠ [])
    (hn : ∀ s ∈ part, (0x0A : Byte) ∉ s) (h2 : Segmented b d) : Segmented (l :: b) (part ++ d) :=
  Segmented.append (a := [l]) ⟨[part], by simp [h1], by simp, by simpa using hp, hn⟩ h2

theorem Segmented.plain {l : Str} {b d : List Str} (h : NoMarks l) (h2 : Segmented b d) : Segmented (l :: b) (l :: d) :=
  Segmented.cons (part := [l]) (markLines_plain h.2.1 h.2.2) (by simp) (by simpa using h.1) h2

theorem Segmented.flatMap {α : Type} {f g : α → List Str} (l : List α) (h : ∀ x ∈ l, Segmented (f x) (g x)) :
    Segmented (l.flatMap f) (l.flatMap g) := by
  induction l with
  | nil => exact segmented_nil
  | cons x l ih =>
    rw [List.flatMap_cons, List.flatMap_cons]
    exact (h x (by simp)).append (ih fun y hy => h y (by simp [hy]))

theorem Segmented.split {lines segs : List Str} (h : Segmented lines segs) (hne : lines ≠ []) :
    Go.split (markLines (join b!"\n" lines)) b!"\n" = segs := by
  obtain ⟨parts, e1, e2, e3, e4⟩ := h
  have hp : parts ≠ [] := by
    intro hp
    rw [hp] at e1
    simp at e1
    exact hne e1
  have hs : segs ≠ [] := by
    obtain ⟨p, ps, rfl⟩ := List.exists_cons_of_ne_nil hp
    have := e3 p (by simp)
    simp [e2, this]
  rw [markLines_join, e1, join_join parts e3, ← e2, split_join_singleton hs e4]

theorem mem_padding {s : Str} (h : Padding s) {c : Byte} (h1 : c ≠ 0x20) (h2 : c ≠ 0x09) : c ∉ s := by
  intro hm
  rcases h c hm with rfl | rfl
  · exact h1 rfl
  · exact h2 rfl

theorem noMarks_further {s : Str} (h : FurtherLine s) : NoMarks s := by
  refine ⟨h.line, fun hi => h.bar (hi.subset (by simp)), h.marks⟩

theorem noMarks_behind {p s : Str} (hp : (0x0A : Byte) ∉ p ∧ (0x7C : Byte) ∉ p ∧ (0x21 : Byte) ∉ p) (h : NoMarks s) : NoMarks (p ++ s) := by
  refine ⟨by simp [hp.1, h.1], fun hi => h.2.1 (infix_behind hp.2.1 hi), fun hi => h.2.2 (infix_behind hp.2.2 hi)⟩

theorem noMarks_padding {p s : Str} (hp : Padding p) (h : NoMarks s) : NoMarks (p ++ s) :=
  noMarks_behind ⟨mem_padding hp (by decide) (by decide), mem_padding hp (by decide) (by decide), mem_padding hp (by decide) (by decide)⟩ h

theorem written_line {c : TableCell} (h : c.WellFormed) : (0x0A : Byte) ∉ c.written := by
  have h1 := mem_padding h.before (c := 0x0A) (by decide) (by decide)
  have h2 := mem_padding h.after (c := 0x0A) (by decide) (by decide)
  simp [TableCell.written, h1, h2, h.lines]

theorem segmented_cellLine (l : CellLine Str) (h : l.WellFormed FurtherLine) :
    Segmented (l.lines fun s => [s]) (lineSegments l) := by
  have hm : Segmented (l.more.flatMap fun s => [s]) l.more := by
    have : ∀ more : List Str, (∀ x ∈ more, FurtherLine x) → Segmented (more.flatMap fun s => [s]) more := by
      intro more
      induction more with
      | nil => intro _; exact segmented_nil
      | cons x more ih =>
        intro h
        exact Segmented.plain (noMarks_further (h x (by simp))) (ih fun y hy => h y (by simp [hy]))
    exact this _ h.more
  have h1 := mem_padding h.indent (c := 0x0A) (by decide) (by decide)
  have hk : ∀ m : Bool, (0x0A : Byte) ≠ cellMark m := by decide
  refine Segmented.cons (part := (l.indent ++ cellMark l.heading :: l.first.written) :: cellSegments l.heading l.others)
    (markLines_cells l h) (by simp) ?_ hm
  intro s hs
  rw [List.mem_cons] at hs
  rcases hs with rfl | hs
  · have := written_line (h.cells l.first (by simp [CellLine.cells])).1
    simp [h1, hk, this]
  · obtain ⟨c, hc, rfl⟩ := List.mem_map.mp hs
    have := written_line (h.cells c (by simp [CellLine.cells, hc])).1
    simp [hk, this]

theorem linesWellFormed_mem {α : Type} {p : α → Prop} {next : Str} : ∀ {lines : List (CellLine α)}, linesWellFormed p next lines →
    ∀ l ∈ lines, l.WellFormed p
  | [], _, l, hl => by simp at hl
  | x :: lines, h, l, hl => by
    rw [linesWellFormed] at h
    rcases List.mem_cons.mp hl with rfl | hl
    · exact h.1
    · exact linesWellFormed_mem h.2.2 l hl

theorem rowsWellFormed_mem {α : Type} {p : α → Prop} {next : Str} : ∀ {rows : List (TableRow α)}, rowsWellFormed p next rows →
    ∀ r ∈ rows, separatorWellFormed r.separator ∧ ∀ l ∈ r.lines, l.WellFormed p
  | [], _, r, hr => by simp at hr
  | x :: rows, h, r, hr => by
    rw [rowsWellFormed] at h
    rcases List.mem_cons.mp hr with rfl | hr
    · exact ⟨h.1, linesWellFormed_mem h.2.2.1⟩
    · exact rowsWellFormed_mem h.2.2.2.2 r hr

theorem segmented_row (r : TableRow Str) (h : separatorWellFormed r.separator) (hl : ∀ l ∈ r.lines, l.WellFormed FurtherLine) :
    Segmented (r.allLines fun s => [s]) (rowSegments r) := by
  rw [TableRow.allLines, rowSegments]
  refine Segmented.append ?_ (Segmented.flatMap _ fun l hm => segmented_cellLine l (hl l hm))
  cases hs : r.separator with
  | none => exact segmented_nil
  | some x =>
    rw [hs] at h
    obtain ⟨h1, h2⟩ := h
    rw [separatorLines, List.append_assoc]
    exact Segmented.plain (noMarks_padding h1 h2) segmented_nil

theorem segmented_further (more : List Str) (h : ∀ x ∈ more, FurtherLine x) : Segmented more more := by
  induction more with
  | nil => exact segmented_nil
  | cons x more ih => exact Segmented.plain (noMarks_further (h x (by simp))) (ih fun y hy => h y (by simp [hy]))

theorem infix_before {p : Str} (hp : p ≠ []) {a b : Str} (hb : ∀ c ∈ b, c ∉ p) (h : p <:+: a ++ b) : p <:+: a := by
  cases b with
  | nil => simpa using h
  | cons x b =>
    rcases infix_over hp (hb x (by simp)) h with h | h
    · exact h
    · obtain ⟨c, hc⟩ := List.exists_mem_of_ne_nil p hp
      exact absurd hc (hb c (by simp [h.subset hc]))

theorem padding_not_mark {b : Str} (hb : Padding b) {x : Byte} (h1 : x ≠ 0x20) (h2 : x ≠ 0x09) : ∀ c ∈ b, c ∉ [x, x] := by
  intro c hc hm
  have : c = x := by simpa using hm
  subst this
  exact mem_padding hb h1 h2 hc

theorem noMarks_caption (c : TableCaption) (h : c.WellFormed) : NoMarks (c.indent ++ b!"|+" ++ c.body ++ c.after) := by
  rw [List.append_assoc, List.append_assoc]
  refine noMarks_padding h.indent ⟨?_, ?_, ?_⟩
  · have := mem_padding h.after (c := 0x0A) (by decide) (by decide)
    simp [this, h.lines]
  · intro hi
    rcases infix_over (a := [0x7C]) (c := 0x2B) (by decide) (by decide) hi with hi | hi
    · have := hi.length_le
      simp at this
    · have hi := infix_before (by decide) (padding_not_mark h.after (by decide) (by decide)) hi
      have hc := hi.sublist.count_le 0x7C
      rw [TableCaption.body] at hc
      have ht := List.count_eq_zero.mpr h.text
      cases ha : c.attributes with
      | none => rw [ha] at hc; simp [ht] at hc
      | some a =>
        have h2 := List.count_eq_zero.mpr (h.attributes a (by rw [ha]; rfl))
        rw [ha] at hc
        simp [ht, h2] at hc
  · intro hi
    rcases infix_over (a := [0x7C]) (c := 0x2B) (by decide) (by decide) hi with hi | hi
    · have := hi.length_le
      simp at this
    · exact h.marks (infix_before (by decide) (padding_not_mark h.after (by decide) (by decide)) hi)

theorem segmented_caption (c : Option TableCaption) (h : ∀ x ∈ c, x.WellFormed) : Segmented (captionsLines c) (captionsLines c) := by
  cases c with
  | none => exact segmented_nil
  | some c =>
    have := h c rfl
    exact Segmented.plain (noMarks_caption c this) (segmented_further _ this.more)

/-- The first line of a table. -/
def tableFirst (indent colons attributes : Str) : Str := indent ++ colons ++ b!"{|" ++ attributes

theorem segmented_table {indent colons : Str} (hi : Padding indent) (hc : ∀ c ∈ colons, c = 0x3A) (t : WikiTable Str)
    (h : t.WellFormed FurtherLine) :
    Segmented (tableFirst indent colons t.attributes :: (t.body (fun s => [s]) ++ [t.last]))
      (tableFirst indent colons t.attributes :: (captionsLines t.caption ++ (t.rows.flatMap rowSegments ++ [t.last]))) := by
  refine Segmented.plain ?_ ?_
  · rw [tableFirst, List.append_assoc, List.append_assoc]
    have : ∀ x : Byte, x ≠ 0x3A → x ∉ colons := fun x hx hm => hx (hc x hm)
    exact noMarks_padding hi (noMarks_behind ⟨this _ (by decide), this _ (by decide), this _ (by decide)⟩ h.attributes)
  · rw [WikiTable.body, List.append_assoc]
    refine (segmented_caption _ h.caption).append (Segmented.append ?_ (Segmented.plain ?_ segmented_nil))
    · exact Segmented.flatMap _ fun r hr => segmented_row r (rowsWellFormed_mem h.rows r hr).1 (rowsWellFormed_mem h.rows r hr).2
    · rw [WikiTable.last, List.append_assoc]
      have := mem_padding h.after (c := 0x0A) (by decide) (by decide)
      refine noMarks_padding h.indent ⟨by simp [this], fun hi => ?_, fun hi => ?_⟩
      · have hi := infix_before (by decide) (padding_not_mark h.after (by decide) (by decide)) hi
        revert hi; decide
      · have hi := infix_before (by decide) (padding_not_mark h.after (by decide) (by decide)) hi
        revert hi; decide

theorem trimSpace_tableFirst {indent colons : Str} (hi : Padding indent) (hc : ∀ c ∈ colons, c = 0x3A) (attributes : Str) :
    ∃ s, trimSpace (tableFirst indent colons attributes) = colons ++ b!"{|" ++ s := by
  have key : ∀ s : Str, trimSpaceRight (0x7C :: s) = 0x7C :: trimSpaceRight s := fun s => trimSpaceRight_visible (by decide) [] s
  refine ⟨trimSpaceRight attributes, ?_⟩
  cases colons with
  | nil =>
    have := trimSpace_front (x := 0x7B) (by decide) hi (0x7C :: attributes)
    rw [key] at this
    simpa [tableFirst] using this
  | cons x colons =>
    have hx : x = 0x3A := hc x (by simp)
    subst hx
    have := trimSpace_front (x := 0x3A) (by decide) hi (colons ++ 0x7B :: 0x7C :: attributes)
    rw [show colons ++ 0x7B :: 0x7C :: attributes = (colons ++ [0x7B]) ++ 0x7C :: attributes by simp,
      trimSpaceRight_visible (by decide) (colons ++ [0x7B]) attributes] at this
    simpa [tableFirst] using this

/-- The first line of a table is skipped. -/
theorem tableRows_first (rec : Rec) (fuel : Nat) {indent colons : Str} (hi : Padding indent) (hc : ∀ c ∈ colons, c = 0x3A)
    (attributes : Str) (rest : List Str) (caption : Str) :
    tableRows rec (fuel + 1) (tableFirst indent colons attributes :: rest) caption = tableRows rec fuel rest caption := by
  obtain ⟨s, hs⟩ := trimSpace_tableFirst hi hc attributes
  rw [tableRows.eq_def]
  simp only
  have : ∃ (x : Byte) (r : Str), trimSpace (tableFirst indent colons attributes) = x :: r ∧ x ≠ 0x7C ∧ x ≠ 0x21 := by
    cases colons with
    | nil => exact ⟨0x7B, _, hs, by decide, by decide⟩
    | cons x colons =>
      have hx : x = 0x3A := hc x (by simp)
      subst hx
      exact ⟨0x3A, _, hs, by decide, by decide⟩
  obtain ⟨x, r, e, h1, h2⟩ := this
  rw [e]
  have f : ∀ (c : Byte) (t : Str), c ≠ x → hasPrefix (x :: r) (c :: t) = false := by
    intro c t hcx
    apply hasPrefix_false
    intro hp
    rw [List.cons_prefix_cons] at hp
    exact hcx hp.1
  rw [f _ _ h1.symm, f _ _ h2.symm, f _ _ h1.symm, f _ _ h1.symm, f _ _ h1.symm]
  simp

/-- What follows the caption begins a cell or a row, or ends the table. -/
theorem rows_head (t : WikiTable Str) (h : t.WellFormed FurtherLine) :
    ∃ (i n : Str) (a : List Str), t.rows.flatMap rowSegments ++ [t.last] = n :: a ∧ CellStart i n := by
  cases hr : t.rows with
  | nil => exact ⟨t.indent, t.last, [], rfl, h.indent, 0x7C, 0x7D :: t.after, .inl rfl, by simp [WikiTable.last]⟩
  | cons r rest =>
    have hw := h.rows
    rw [hr, rowsWellFormed] at hw
    obtain ⟨hsep, hne, hlines, -, -⟩ := hw
    rw [List.flatMap_cons, List.append_assoc, rowSegments]
    cases hs : r.separator with
    | some x =>
      obtain ⟨indent, text⟩ := x
      rw [hs] at hsep
      exact ⟨indent, _, _, rfl, (separatorLine hsep.1).1⟩
    | none =>
      obtain ⟨l, ls, hl⟩ := List.exists_cons_of_ne_nil hne
      rw [hl, linesWellFormed] at hlines
      exact ⟨l.indent, _, _, by rw [hl, List.flatMap_cons, separatorLines, List.nil_append, List.append_assoc, lineSegments_append],
        cellStart_mark hlines.1.indent l.heading l.first.written⟩

/-- A table without tables in it. -/
theorem tokenizeTable_flat (rec : Rec) {indent colons : Str} (hi : Padding indent) (hc : ∀ c ∈ colons, c = 0x3A) (t : WikiTable Str)
    (h : t.WellFormed FurtherLine) (fuel : Nat) (hf : (t.rows.flatMap rowSegments).length + 3 < fuel) :
    tokenizeTable rec fuel (join b!"\n" (tableFirst indent colons t.attributes :: (t.body (fun s => [s]) ++ [t.last]))) = (do
      let caption ← tokenizedCaption rec t.caption
      let rows ← tokenizedRows rec t.rows
      pure (.table rows caption)) := by
  rw [tokenizeTable]
  have hsplit := (segmented_table hi hc t h).split (by simp)
  rw [markLines] at hsplit
  simp only
  rw [hsplit]
  obtain ⟨fuel, rfl⟩ : ∃ n, fuel = n + 2 := ⟨fuel - 2, by omega⟩
  rw [tableRows_first rec (fuel + 1) hi hc]
  cases hcap : t.caption with
  | none =>
    rw [captionsLines, List.nil_append, tableRows_rows rec h.indent (last := t.last) rfl [] [] t.rows h.rows (fuel + 1) (by omega),
      tokenizedCaption, bind_assoc, pure_bind]
    rfl
  | some c =>
    obtain ⟨i, n, a, e, hn⟩ := rows_head t h
    rw [e, tableRows_caption rec fuel c (h.caption c (by rw [hcap]; rfl)) hn, ← e, bind_assoc]
    congr 1
    funext cap
    rw [tableRows_rows rec h.indent (last := t.last) rfl [] cap t.rows h.rows fuel (by omega), bind_assoc]
    rfl

end Verif.Model
