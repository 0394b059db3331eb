import Verif.Lemmas.TableLines
import Verif.Lemmas.Nowiki
import Verif.Lemmas.Headings

/-! Helper lemmas about tables: tables in tables. -/

namespace Verif.Model
open Verif.Go Verif.Spec
open scoped List

/-- All results of a computation have the property. -/
def Returns {α : Type} (m : TokM α) (p : α → Prop) : Prop := ∀ s a s', m s = some (.ok (a, s')) → p a

theorem Returns.pure {α : Type} {p : α → Prop} {a : α} (h : p a) : Returns (Pure.pure a : TokM α) p := by
  intro s b s' e
  have e : some (Res.ok (a, s)) = some (.ok (b, s')) := e
  simp only [Option.some.injEq, Res.ok.injEq, Prod.mk.injEq] at e
  rw [← e.1]
  exact h

theorem bind_ok {α β : Type} {m : TokM α} {f : α → TokM β} {s s' : TokState} {b : β} (h : (m >>= f) s = some (.ok (b, s'))) :
    ∃ a s1, m s = some (.ok (a, s1)) ∧ f a s1 = some (.ok (b, s')) := by
  have h : (match m s with
    | none => none
    | some (.ok (a, s')) => f a s'
    | some .err => some .err
    | some .panic => some .panic
    | some .fatal => some .fatal) = some (.ok (b, s')) := h
  split at h <;> first | exact absurd h (by simp) | skip
  rename_i a s1 e
  exact ⟨a, s1, e, h⟩

theorem Returns.bind {α β : Type} {m : TokM α} {f : α → TokM β} {p : α → Prop} {q : β → Prop} (h : Returns m p)
    (hf : ∀ a, p a → Returns (f a) q) : Returns (m >>= f) q := by
  intro s b s' e
  obtain ⟨a, s1, e1, e2⟩ := bind_ok e
  exact hf a (h s a s1 e1) s1 b s' e2

theorem Returns.bind_congr {α β : Type} {m : TokM α} {f g : α → TokM β} {p : α → Prop} (h : Returns m p)
    (hf : ∀ a, p a → f a = g a) : (m >>= f) = (m >>= g) := by
  funext s
  show (match m s with
    | none => none
    | some (.ok (a, s')) => f a s'
    | some .err => some .err
    | some .panic => some .panic
    | some .fatal => some .fatal) = (match m s with
    | none => none
    | some (.ok (a, s')) => g a s'
    | some .err => some .err
    | some .panic => some .panic
    | some .fatal => some .fatal)
  split
  · rfl
  · rename_i a s' e
    rw [hf a (h s a s' e)]
  all_goals rfl

/-! ### What the inner tables are replaced by -/

theorem mapLines_returns {α : Type} {p : α → Prop} {f : α → TokM Str} (hf : ∀ x, p x → Returns (f x) FurtherLine) :
    ∀ (l : List α), (∀ x ∈ l, p x) → Returns (mapLines f l) fun r => (∀ x ∈ r, FurtherLine x) ∧ r.length = l.length
  | [], _ => Returns.pure ⟨by simp, rfl⟩
  | x :: l, h => by
    rw [mapLines]
    refine (hf x (h x (by simp))).bind fun y hy => (mapLines_returns hf l fun z hz => h z (by simp [hz])).bind fun r hr => Returns.pure ?_
    refine ⟨fun z hz => ?_, by simp [hr.2]⟩
    rcases List.mem_cons.mp hz with rfl | hz
    · exact hy
    · exact hr.1 z hz

def lineCount {α : Type} (l : CellLine α) : Nat := 1 + l.others.length + l.more.length
def linesCount {α : Type} (l : List (CellLine α)) : Nat := (l.map lineCount).sum
def rowsCount {α : Type} (rows : List (TableRow α)) : Nat :=
  (rows.map fun r => (separatorLines r.separator).length + linesCount r.lines).sum

theorem length_lineSegments (lines : List (CellLine Str)) : (lines.flatMap lineSegments).length = linesCount lines := by
  induction lines with
  | nil => rfl
  | cons l lines ih =>
    rw [List.flatMap_cons, List.length_append, ih, linesCount, linesCount, List.map_cons, List.sum_cons, lineCount]
    simp [lineSegments, cellSegments]
    omega

theorem length_rowSegments (rows : List (TableRow Str)) : (rows.flatMap rowSegments).length = rowsCount rows := by
  induction rows with
  | nil => rfl
  | cons r rows ih =>
    rw [List.flatMap_cons, List.length_append, ih, rowsCount, rowsCount, List.map_cons, List.sum_cons, rowSegments, List.length_append,
      length_lineSegments]

theorem mapCellLines_returns {α : Type} {p : α → Prop} {f : α → TokM Str} (hf : ∀ x, p x → Returns (f x) FurtherLine) (next : Str) :
    ∀ (lines : List (CellLine α)), linesWellFormed p next lines → Returns (mapCellLines f lines) fun r =>
      linesWellFormed FurtherLine next r ∧ linesCount r = linesCount lines ∧ indentOf r next = indentOf lines next ∧ (lines ≠ [] → r ≠ [])
  | [], _ => Returns.pure ⟨trivial, rfl, rfl, fun h => absurd rfl h⟩
  | l :: lines, h => by
    rw [linesWellFormed] at h
    obtain ⟨h1, h2, h3⟩ := h
    rw [mapCellLines]
    refine (mapLines_returns hf l.more h1.more).bind fun more hm => (mapCellLines_returns hf next lines h3).bind fun r hr => Returns.pure ?_
    obtain ⟨hm1, hm2⟩ := hm
    obtain ⟨r1, r2, r3, r4⟩ := hr
    have hmn : more ≠ [] → l.more ≠ [] := by
      intro hne he
      rw [he] at hm2
      exact hne (List.length_eq_zero_iff.mp hm2)
    refine ⟨⟨⟨h1.indent, h1.cells, h1.separated, h1.other, ?_, hm1⟩, ?_, r1⟩, ?_, rfl, fun _ => by simp⟩
    · intro hh
      have := h1.heading hh
      rw [this] at hm2
      exact List.length_eq_zero_iff.mp hm2
    · intro hne
      rw [r3]
      exact h2 (hmn hne)
    · rw [linesCount, linesCount] at r2
      simp [linesCount, lineCount, hm2, r2]

theorem mapRows_returns {α : Type} {p : α → Prop} {f : α → TokM Str} (hf : ∀ x, p x → Returns (f x) FurtherLine) (next : Str) :
    ∀ (rows : List (TableRow α)), rowsWellFormed p next rows → Returns (mapRows f rows) fun r =>
      rowsWellFormed FurtherLine next r ∧ rowsCount r = rowsCount rows ∧ rowIndent r next = rowIndent rows next ∧
      r.head?.map (·.separator) = rows.head?.map (·.separator)
  | [], _ => Returns.pure ⟨trivial, rfl, rfl, rfl⟩
  | row :: rows, h => by
    rw [rowsWellFormed] at h
    obtain ⟨h1, h2, h3, h4, h5⟩ := h
    rw [mapRows]
    refine (mapCellLines_returns hf _ row.lines h3).bind fun lines hl => (mapRows_returns hf next rows h5).bind fun r hr => Returns.pure ?_
    obtain ⟨l1, l2, l3, l4⟩ := hl
    obtain ⟨r1, r2, r3, r4⟩ := hr
    refine ⟨⟨h1, l4 h2, by rw [r3]; exact l1, ?_, r1⟩, ?_, rfl, rfl⟩
    · intro x hx
      rw [Option.mem_def] at hx
      rw [hx] at r4
      cases hh : rows.head? with
      | none => rw [hh] at r4; simp at r4
      | some y =>
        rw [hh] at r4
        have := h4 y hh
        simp only [Option.map_some, Option.some.injEq] at r4
        rw [r4]
        exact this
    · rw [rowsCount, rowsCount] at r2
      simp [rowsCount, l2, r2]

theorem furtherLine_key (n : Nat) : FurtherLine (tokenKey b!"TABLE" n) := by
  have hm : ∀ c : Byte, c ∉ b!"$$TOKEN_TABLE_" → digit c = false → c ∉ tokenKey b!"TABLE" n := by
    intro c h1 h2 hc
    simp only [tokenKey, List.mem_append] at hc
    rcases hc with (((hc | hc) | hc) | hc) | hc
    · exact h1 (by revert hc; simp; tauto)
    · exact h1 (by revert hc; simp; tauto)
    · exact h1 (by revert hc; simp; tauto)
    · have := decimal_digits n _ hc
      rw [digit, Bool.and_eq_false_iff] at h2
      simp only [decide_eq_false_iff_not] at h2
      rcases h2 with h2 | h2
      · exact h2 this.1
      · exact h2 this.2
    · exact h1 (by revert hc; simp; tauto)
  refine ⟨hm _ (by decide) (by decide), hm _ (by decide) (by decide), fun h => hm 0x21 (by decide) (by decide) (h.subset (by simp)), ?_⟩
  intro h
  exact hm 0x21 (by decide) (by decide) (mem_of_mem_trimSpace (h.subset (by simp)))

theorem newToken_returns (t : Token) : Returns (newToken b!"TABLE" t) FurtherLine := by
  intro s a s' e
  have e : some (Res.ok (tokenKey b!"TABLE" s.counter, _)) = some (.ok (a, s')) := e
  simp only [Option.some.injEq, Res.ok.injEq, Prod.mk.injEq] at e
  rw [← e.1]
  exact furtherLine_key _

theorem returns_true {α : Type} (m : TokM α) : Returns m fun _ => True := fun _ _ _ _ => trivial

theorem tokenizedTable_returns {α : Type} (rec : Rec) (inner : α → TokM Str) (t : WikiTable α) :
    Returns (tokenizedTable rec inner t) FurtherLine := by
  rw [tokenizedTable]
  exact (returns_true _).bind fun _ _ => (returns_true _).bind fun _ _ => (returns_true _).bind fun _ _ => newToken_returns _

theorem tokenizedCellItem_returns (rec : Rec) : ∀ (n : Nat) (x : CellItem n), x.WellFormed n → Returns (tokenizedCellItem rec n x) FurtherLine
  | 0, _, h => Returns.pure h
  | _ + 1, .inl _, h => Returns.pure h
  | _ + 1, .inr t, _ => tokenizedTable_returns rec _ t

/-! ### The lines of a table with the inner tables replaced -/

/-- The line is neither the first line of a table nor the last one. -/
def PlainLine (l : Str) : Prop := ¬ b!"{|" <+: trimSpace l ∧ ¬ b!":{|" <+: trimSpace l ∧ ¬ b!"|}" <+: trimSpace l

/-- The lines are replaced by the result of `m`. -/
def BodyOk (rec : Rec) (k steps : Nat) (lines : List Str) (m : TokM (List Str)) : Prop :=
  ∀ fuel, steps ≤ fuel → ∀ rest, tableBody rec (fuel + k) (lines ++ rest) = (do
    let ls ← m
    let (ls', after) ← tableBody rec fuel rest
    pure (ls ++ ls', after))

theorem bodyOk_nil (rec : Rec) : BodyOk rec 0 0 [] (pure []) := by
  intro fuel _ rest
  rw [pure_bind, List.nil_append]
  exact (bind_pure _).symm

theorem bodyOk_plain (rec : Rec) {l : Str} (h : PlainLine l) : BodyOk rec 1 0 [l] (pure [l]) := by
  intro fuel _ rest
  rw [pure_bind, List.singleton_append, tableBody]
  simp only [hasPrefix_false h.1, hasPrefix_false h.2.1, hasPrefix_false h.2.2, Bool.or_self, Bool.false_eq_true, if_false,
    List.singleton_append]

theorem BodyOk.append {rec : Rec} {k1 k2 s1 s2 : Nat} {l1 l2 : List Str} {m1 m2 : TokM (List Str)} (h1 : BodyOk rec k1 s1 l1 m1)
    (h2 : BodyOk rec k2 s2 l2 m2) : BodyOk rec (k2 + k1) (max s1 s2) (l1 ++ l2) (do
      let a ← m1
      let b ← m2
      pure (a ++ b)) := by
  intro fuel hf rest
  have e1 := h1 (fuel + k2) (by omega) (l2 ++ rest)
  have e2 := h2 fuel (by omega) rest
  rw [List.append_assoc, ← Nat.add_assoc, e1, bind_assoc]
  congr 1
  funext a
  rw [e2, bind_assoc, bind_assoc]
  congr 1
  funext b
  rw [pure_bind, bind_assoc]
  congr 1
  funext r
  simp

theorem BodyOk.cons {rec : Rec} {k s : Nat} {l : Str} {ls : List Str} {m : TokM (List Str)} (hl : PlainLine l)
    (h : BodyOk rec k s ls m) : BodyOk rec (k + 1) s (l :: ls) (do let a ← m; pure (l :: a)) := by
  have := (bodyOk_plain rec hl).append h
  rw [pure_bind, Nat.zero_max] at this
  exact this

/-- Exists in `k` and `steps`, for all tokenizers. -/
def BodyEx (lines : List Str) (m : Rec → TokM (List Str)) : Prop := ∃ k steps, ∀ rec, BodyOk rec k steps lines (m rec)

theorem bodyEx_nil : BodyEx [] (fun _ => pure []) := ⟨_, _, bodyOk_nil⟩

theorem BodyEx.append {l1 l2 : List Str} {m1 m2 : Rec → TokM (List Str)} (h1 : BodyEx l1 m1) (h2 : BodyEx l2 m2) :
    BodyEx (l1 ++ l2) (fun rec => do
      let a ← m1 rec
      let b ← m2 rec
      pure (a ++ b)) := by
  obtain ⟨k1, s1, h1⟩ := h1
  obtain ⟨k2, s2, h2⟩ := h2
  exact ⟨_, _, fun rec => (h1 rec).append (h2 rec)⟩

theorem BodyEx.congr {l : List Str} {m m' : Rec → TokM (List Str)} (h : BodyEx l m) (e : ∀ rec, m' rec = m rec) : BodyEx l m' := by
  rw [show m' = m from funext e]
  exact h

theorem bodyEx_plain (ls : List Str) (h : ∀ l ∈ ls, PlainLine l) : BodyEx ls (fun _ => pure ls) := by
  induction ls with
  | nil => exact bodyEx_nil
  | cons l ls ih =>
    obtain ⟨k, s, h1⟩ := ih fun x hx => h x (by simp [hx])
    exact ⟨_, _, fun rec => (h1 rec).cons (h l (by simp))⟩

theorem plainLine_mark {indent : Str} (hi : Padding indent) {x y : Byte} (hx : x = 0x7C ∨ x = 0x21) (hy : 33 ≤ y ∧ y ≤ 126) (h2 : y ≠ 0x7D) (t : Str) :
    PlainLine (indent ++ x :: y :: t) := by
  have e : trimSpace (indent ++ x :: y :: t) = x :: y :: trimSpaceRight t := by
    rw [trimSpace_front (by rcases hx with rfl | rfl <;> decide) hi]
    exact congrArg _ (trimSpaceRight_visible hy [] t)
  rw [PlainLine, e]
  rcases hx with rfl | rfl <;> simp [h2.symm]

theorem plainLine_further {l : Str} (h : FurtherLine l) : PlainLine l := by
  have : ∀ p : Str, (0x7C : Byte) ∈ p → ¬ p <+: trimSpace l := fun p hp hh => h.bar (mem_of_mem_trimSpace (hh.subset hp))
  exact ⟨this _ (by decide), this _ (by decide), this _ (by decide)⟩

theorem trimSpaceRight_prefix (s : Str) : trimSpaceRight s <+: s := by
  obtain ⟨w, -, e⟩ := (trimLeftBy_spec (chars := spaceChars.map List.reverse) (by decide) s.reverse).2
  refine ⟨w.reverse, ?_⟩
  rw [trimSpaceRight, ← List.reverse_append, ← e, List.reverse_reverse]

theorem plainLine_cells {α : Type} {p : α → Prop} (l : CellLine α) (h : l.WellFormed p) : PlainLine l.line := by
  have e : trimSpace l.line = cellMark l.heading ::
      trimSpaceRight (join [cellMark l.heading, cellMark l.heading] (l.cells.map TableCell.written)) :=
    trimSpace_front (by cases l.heading <;> decide) h.indent _
  have hpre := trimSpaceRight_prefix (join [cellMark l.heading, cellMark l.heading] (l.cells.map TableCell.written))
  rw [PlainLine, e]
  cases hh : l.heading with
  | true => simp [cellMark]
  | false =>
    rw [hh] at hpre
    refine ⟨by simp [cellMark], by simp [cellMark], fun hp => ?_⟩
    have h2 := (List.cons_prefix_cons.mp hp).2.trans hpre
    have hhead := (h.cells l.first (by simp [CellLine.cells])).2
    rw [CellLine.cells, List.map_cons] at h2
    cases hw : l.first.written with
    | cons x t =>
      rw [hw] at h2 hhead
      have hx : x = 0x7D := by
        cases hm : l.others.map TableCell.written with
        | nil => rw [hm] at h2; exact (List.cons_prefix_cons.mp h2).1.symm
        | cons y r =>
          rw [hm, join_cons_of_ne_nil (by simp)] at h2
          exact (List.cons_prefix_cons.mp h2).1.symm
      exact ((hhead x rfl).2 hh).2.2 hx
    | nil =>
      rw [hw] at h2
      cases hm : l.others.map TableCell.written with
      | nil => rw [hm] at h2; simp [join] at h2
      | cons y r =>
        rw [hm, join_cons_of_ne_nil (by simp)] at h2
        simp [cellMark] at h2

theorem bodyEx_more {α : Type} {p : α → Prop} {f : Rec → α → TokM Str} {g : α → List Str}
    (hf : ∀ x, p x → BodyEx (g x) (fun rec => do let y ← f rec x; pure [y])) : ∀ (more : List α), (∀ x ∈ more, p x) →
      BodyEx (more.flatMap g) (fun rec => mapLines (f rec) more)
  | [], _ => bodyEx_nil
  | x :: more, h => by
    refine ((hf x (h x (by simp))).append (bodyEx_more hf more fun y hy => h y (by simp [hy]))).congr fun rec => ?_
    rw [bind_assoc, mapLines]
    simp only [pure_bind]
    rfl

theorem bodyEx_lines {α : Type} {p : α → Prop} {f : Rec → α → TokM Str} {g : α → List Str}
    (hf : ∀ x, p x → BodyEx (g x) (fun rec => do let y ← f rec x; pure [y])) : ∀ (lines : List (CellLine α)), (∀ x ∈ lines, x.WellFormed p) →
      BodyEx (lines.flatMap (CellLine.lines g)) (fun rec => do
        let r ← mapCellLines (f rec) lines
        pure (r.flatMap (CellLine.lines fun s => [s])))
  | [], _ => by
    refine bodyEx_nil.congr fun rec => ?_
    rw [mapCellLines, pure_bind]
    rfl
  | l :: lines, h => by
    have hl := h l (by simp)
    have h1 := (bodyEx_plain [l.line] (by simpa using plainLine_cells l hl)).append (bodyEx_more hf l.more hl.more)
    have := h1.append (bodyEx_lines hf lines fun y hy => h y (by simp [hy]))
    rw [List.flatMap_cons, CellLine.lines]
    refine this.congr fun rec => ?_
    rw [mapCellLines, pure_bind]
    simp only [bind_assoc, pure_bind]
    congr 1
    funext more
    congr 1
    funext r
    rw [List.flatMap_cons, CellLine.lines]
    simp [CellLine.line, CellLine.cells]

theorem bodyEx_rows {α : Type} {p : α → Prop} {f : Rec → α → TokM Str} {g : α → List Str}
    (hf : ∀ x, p x → BodyEx (g x) (fun rec => do let y ← f rec x; pure [y])) : ∀ (rows : List (TableRow α)),
      (∀ r ∈ rows, separatorWellFormed r.separator ∧ ∀ l ∈ r.lines, l.WellFormed p) →
      BodyEx (rows.flatMap (TableRow.allLines g)) (fun rec => do
        let r ← mapRows (f rec) rows
        pure (r.flatMap (TableRow.allLines fun s => [s])))
  | [], _ => by
    refine bodyEx_nil.congr fun rec => ?_
    rw [mapRows, pure_bind]
    rfl
  | row :: rows, h => by
    obtain ⟨hs, hl⟩ := h row (by simp)
    have h0 : BodyEx (separatorLines row.separator) (fun _ => pure (separatorLines row.separator)) := by
      apply bodyEx_plain
      intro l hm
      cases hsep : row.separator with
      | none => rw [hsep] at hm; simp [separatorLines] at hm
      | some x =>
        rw [hsep] at hm hs
        obtain ⟨indent, text⟩ := x
        simp only [separatorLines, List.mem_singleton] at hm
        subst hm
        have := plainLine_mark hs.1 (x := 0x7C) (y := 0x2D) (.inl rfl) (by decide) (by decide) text
        simpa using this
    have h1 := h0.append (bodyEx_lines hf row.lines hl)
    have := h1.append (bodyEx_rows hf rows fun y hy => h y (by simp [hy]))
    rw [List.flatMap_cons, TableRow.allLines]
    refine this.congr fun rec => ?_
    rw [mapRows, pure_bind]
    simp only [bind_assoc, pure_bind]
    congr 1

theorem plainLine_caption (c : TableCaption) (h : c.WellFormed) : ∀ l ∈ captionsLines (some c), PlainLine l := by
  intro l hl
  rw [captionsLines, List.mem_cons] at hl
  rcases hl with rfl | hl
  · have := plainLine_mark h.indent (x := 0x7C) (y := 0x2B) (.inl rfl) (by decide) (by decide) (c.body ++ c.after)
    simpa using this
  · exact plainLine_further (h.more l hl)

/-- All lines of a table behind the first one. -/
theorem tableBody_ok {α : Type} {p : α → Prop} {f : Rec → α → TokM Str} {g : α → List Str}
    (hf : ∀ x, p x → BodyEx (g x) (fun rec => do let y ← f rec x; pure [y])) (t : WikiTable α) (h : t.WellFormed p) :
    ∃ steps, ∀ rec fuel, steps ≤ fuel → ∀ rest, tableBody rec fuel (t.body g ++ t.last :: rest) = (do
      let rows ← mapRows (f rec) t.rows
      pure (({ t with rows := rows } : WikiTable Str).body (fun s => [s]) ++ [t.last], rest)) := by
  have h1 : BodyEx (captionsLines t.caption) (fun _ => pure (captionsLines t.caption)) := by
    apply bodyEx_plain
    cases hc : t.caption with
    | none => simp [captionsLines]
    | some c => exact plainLine_caption c (h.caption c (by rw [hc]; rfl))
  obtain ⟨k, steps, hb⟩ := h1.append (bodyEx_rows hf t.rows (rowsWellFormed_mem h.rows))
  refine ⟨max steps 1 + k, fun rec fuel hfu rest => ?_⟩
  obtain ⟨fuel, rfl⟩ : ∃ n, fuel = (n + 1) + k := ⟨fuel - k - 1, by omega⟩
  have := hb rec (fuel + 1) (by omega) (t.last :: rest)
  rw [WikiTable.body, this]
  simp only [bind_assoc, pure_bind]
  congr 1
  funext rows
  have e : trimSpace t.last = b!"|}" ++ trimSpaceRight t.after := by
    have := trimSpace_two h.indent (x := 0x7D) (by decide) t.after
    rw [WikiTable.last]
    simpa using this
  rw [tableBody]
  simp only [e]
  have e2 : hasPrefix (b!"|}" ++ trimSpaceRight t.after) b!"{|" = false := by simp [hasPrefix, List.isPrefixOf]
  have e3 : hasPrefix (b!"|}" ++ trimSpaceRight t.after) b!":{|" = false := by simp [hasPrefix, List.isPrefixOf]
  have e4 : hasPrefix (b!"|}" ++ trimSpaceRight t.after) b!"|}" = true := by simp [hasPrefix, List.isPrefixOf]
  rw [e2, e3, e4]
  simp [WikiTable.body]

/-- A table with its first line. -/
theorem tokenizeTables_ok {α : Type} {p : α → Prop} {f : Rec → α → TokM Str} {g : α → List Str}
    (hf : ∀ x, p x → BodyEx (g x) (fun rec => do let y ← f rec x; pure [y])) (hr : ∀ rec x, p x → Returns (f rec x) FurtherLine)
    {indent colons : Str} (hi : Padding indent) (hc : ∀ c ∈ colons, c = 0x3A) (t : WikiTable α) (h : t.WellFormed p) :
    ∃ steps, ∀ rec fuel, steps ≤ fuel → ∀ rest, tokenizeTables rec fuel (tableFirst indent colons t.attributes) (t.body g ++ t.last :: rest) = (do
      let key ← tokenizedTable rec (f rec) t
      pure (key, rest)) := by
  obtain ⟨steps, hb⟩ := tableBody_ok hf t h
  refine ⟨max steps (rowsCount t.rows + 4) + 1, fun rec fuel hfu rest => ?_⟩
  obtain ⟨fuel, rfl⟩ : ∃ n, fuel = n + 1 := ⟨fuel - 1, by omega⟩
  rw [tokenizeTables, hb rec fuel (by omega) rest, tokenizedTable, bind_assoc, bind_assoc]
  refine (mapRows_returns (hr rec) t.indent t.rows h.rows).bind_congr fun rows hrows => ?_
  rw [pure_bind]
  simp only
  have hflat := tokenizeTable_flat rec hi hc ({ t with rows := rows } : WikiTable Str)
    ⟨h.attributes, h.caption, hrows.1, h.indent, h.after⟩ fuel (by
      rw [length_rowSegments]
      have := hrows.2.1
      show rowsCount rows + 3 < fuel
      omega)
  have e : (({ t with rows := rows } : WikiTable Str).last) = t.last := rfl
  rw [e] at hflat
  rw [hflat]
  simp only [newToken, bind_assoc, pure_bind]

theorem bodyEx_item : ∀ (n : Nat) (x : CellItem n), x.WellFormed n →
    BodyEx (x.lines n) (fun rec => do let y ← tokenizedCellItem rec n x; pure [y])
  | 0, s, h => bodyEx_plain [s] (by
      intro l hl
      have : l = s := (List.mem_singleton (α := Str)).mp hl
      subst this
      exact plainLine_further h)
  | _ + 1, .inl s, h => bodyEx_plain [s] (by
      intro l hl
      have : l = s := (List.mem_singleton (α := Str)).mp hl
      subst this
      exact plainLine_further h)
  | n + 1, .inr t, h => by
    have h : t.WellFormed (CellItem.WellFormed n) := h
    obtain ⟨steps, ht⟩ := tokenizeTables_ok (bodyEx_item n) (fun rec => tokenizedCellItem_returns rec n) (indent := []) (colons := [])
      (by simp [Padding]) (by simp) t h
    refine ⟨1, steps, fun rec fuel hfu rest => ?_⟩
    obtain ⟨s, hs⟩ := trimSpace_tableFirst (indent := []) (colons := []) (by simp [Padding]) (by simp) t.attributes
    have e : CellItem.lines (n + 1) (.inr t) ++ rest =
        tableFirst [] [] t.attributes :: (t.body (CellItem.lines n) ++ t.last :: rest) := by
      rw [CellItem.lines, WikiTable.lines, tableFirst]
      simp
    rw [e, tableBody]
    simp only [hs]
    rw [if_pos (by simp [hasPrefix, List.isPrefixOf]), ht rec fuel hfu rest, tokenizedCellItem]
    simp only [bind_assoc, pure_bind, List.singleton_append]

end Verif.Model
