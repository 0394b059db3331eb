import Verif.Lemmas.DocLists
import Verif.Props.Tables

/-!
# The tables of an article
-/

namespace Verif.Model
open Verif.Go Verif.Spec Verif.Lemmas Verif.Props
open scoped List

/-! ### Tables as they are written -/

def cellText (c : DocCell Leaf) : Str :=
  (match c.attributes with
    | none => []
    | some a => spaces a.2) ++
  match c.text with
    | none => []
    | some x => srcs x.1

def cellWiki (c : DocCell Leaf) : TableCell :=
  { before := spaces c.before, attributes := c.attributes.map Prod.fst, text := cellText c, after := spaces c.after }

def cellsWiki (α : Type) (l : DocCells Leaf) : CellLine α :=
  { heading := l.heading, first := cellWiki l.first, others := l.others.map cellWiki }

def rowWiki (α : Type) (r : DocRow Leaf) : TableRow α :=
  { separator := r.separator.map fun s => ([], s), lines := r.lines.map (cellsWiki α) }

def captionWiki (c : Nat × Leaf) : TableCaption := { text := spaces c.1 ++ srcs c.2.1 }

def tableWiki (t : DocTable Leaf) : WikiTable (CellItem 0) :=
  { attributes := t.attributes, caption := t.caption.map captionWiki, rows := t.rows.map (rowWiki (CellItem 0)) }

theorem cellWiki_written (c : DocCell Leaf) : (cellWiki c).written = c.source fun x => srcs x.1 := by
  obtain ⟨before, attributes, text, after⟩ := c
  cases attributes <;> cases text <;>
    simp [cellWiki, TableCell.written, TableCell.body, cellText, DocCell.source, DocCell.front]

theorem cellsWiki_line (α : Type) (l : DocCells Leaf) : (cellsWiki α l).line = l.source fun x => srcs x.1 := by
  rw [CellLine.line, DocCells.source, CellLine.cells, DocCells.cells, cellsWiki, List.map_cons, List.map_cons, List.map_map, cellWiki_written]
  have : TableCell.written ∘ cellWiki = DocCell.source fun x : Leaf => srcs x.1 := by
    funext c
    exact cellWiki_written c
  rw [this]
  rfl

theorem rowWiki_lines (r : DocRow Leaf) : (rowWiki (CellItem 0) r).allLines (CellItem.lines 0) = r.source fun x => srcs x.1 := by
  obtain ⟨separator, lines⟩ := r
  have : (lines.map (cellsWiki (CellItem 0))).flatMap (CellLine.lines (CellItem.lines 0)) = lines.map (DocCells.source fun x => srcs x.1) := by
    induction lines with
    | nil => rfl
    | cons l lines ih =>
      rw [List.map_cons, List.flatMap_cons, ih, CellLine.lines, cellsWiki_line]
      simp [cellsWiki]
  rw [TableRow.allLines, rowWiki, this, DocRow.source]
  cases separator <;> simp [separatorLines]

theorem tableWiki_lines (t : DocTable Leaf) : (TableBlock.table [] [] 0 (tableWiki t)).lines = (tableDlines t).map lineStr := by
  rw [lineStr_eq, table_source, TableBlock.lines, WikiTable.body, WikiTable.last]
  have : (t.rows.map (rowWiki (CellItem 0))).flatMap (TableRow.allLines (CellItem.lines 0)) = t.rows.flatMap (DocRow.source fun x => srcs x.1) := by
    rw [List.flatMap_map]
    congr 1
    funext r
    exact rowWiki_lines r
  rw [show (tableWiki t).rows = t.rows.map (rowWiki (CellItem 0)) from rfl, this, DocTable.source, tableWiki]
  cases t.caption <;> simp [captionsLines, captionWiki, TableCaption.body]

/-! ### Conditions for cells -/

/-- A text without marks of cells that is not taken for another part of the table. -/
structure CellGood (env : ParserEnv) (atMark : Bool) (x : Leaf) : Prop where
  leaf : LeafOk env x
  marks : ∀ t, .text t ∈ x.1 → (0x7C : Byte) ∉ t ∧ (0x21 : Byte) ∉ t
  start : atMark = true → ∀ c, (leadText x.1).head? = some c → c ∉ b!"-+}"

structure CellFinal (env : ParserEnv) (html : HtmlEnv) (tokens : List (Str × Token)) (atMark : Bool) (x : Leaf) : Prop where
  good : CellGood env atMark x
  final : LeafFinal env html tokens x

theorem texts_step {as bs : List Atom} {p : Str → Prop} (h : ∀ t, .text t ∈ as → p t) (hs : List.Forall₂ SameShape as bs) :
    ∀ t, .text t ∈ bs → p t := by
  induction hs with
  | nil => exact h
  | cons e _ ih =>
    intro t ht
    rcases List.mem_cons.mp ht with rfl | ht
    · rcases e with ⟨t', rfl, e2⟩ | ⟨-, e2⟩
      · cases e2
        exact h _ (by simp)
      · simp [Atom.isText] at e2
    · exact ih (fun t ht => h t (by simp [ht])) t ht

theorem CellGood.head {env : ParserEnv} {x : Leaf} (h : CellGood env true x) : ∀ c, (srcs x.1).head? = some c → c ∉ b!"-+}" := by
  intro c hc
  obtain ⟨r, e, hr⟩ := srcs_lead x.1
  cases hl : leadText x.1 with
  | cons d t =>
    refine h.start rfl c ?_
    rw [e, hl] at hc
    rw [hl]
    simpa using hc
  | nil =>
    rw [e, hl, List.nil_append] at hc
    rcases hr with rfl | ⟨d, r', rfl, hd⟩
    · simp at hc
    · simp at hc
      subst hc
      rcases hd with rfl | rfl | rfl <;> decide

theorem CellFinal.not_mem {env : ParserEnv} {html : HtmlEnv} {tokens : List (Str × Token)} {atMark : Bool} {x : Leaf}
    (h : CellFinal env html tokens atMark x) {c : Byte} (hc : c = 0x7C ∨ c = 0x21) : c ∉ srcs x.1 := by
  rw [mem_srcs]
  rintro ⟨a, ha, hm⟩
  have h1 : c ≠ 0x24 ∧ tokenChar c = false := by rcases hc with rfl | rfl <;> decide
  have hok := h.final.leaf.ok a ha
  have hp := h.final.plain a ha
  cases a with
  | text t => rcases hc with rfl | rfl
              · exact (h.good.marks t ha).1 hm
              · exact (h.good.marks t ha).2 hm
  | mark m => exact not_mem_keyed (marker_chars m) h1.1 h1.2 hm
  | key type n => exact not_mem_keyed (tokenKey_chars n hok.2) h1.1 h1.2 hm
  | _ => simp [Atom.isPlain] at hp

/-! ### Well-formed tables -/

theorem plain_not_mem {s : Str} (h : PlainAttributes s) {c : Byte} (hc : c ∈ b!"\n[]{<_'$|!") : c ∉ s := fun hm => h c hm hc

theorem plain_noMarks {s : Str} (h : PlainAttributes s) {c d : Byte} (hc : c = 0x7B ∨ c = 0x7C) (hd : d = 0x7C ∨ d = 0x2D) (he : ¬ (c = 0x7C ∧ d = 0x7C)) :
    NoMarks ([c, d] ++ s) := by
  have h1 : (0x0A : Byte) ∉ s := plain_not_mem h (by decide)
  have h2 : (0x7C : Byte) ∉ s := plain_not_mem h (by decide)
  have h3 : (0x21 : Byte) ∉ s := plain_not_mem h (by decide)
  have h4 : s.head? ≠ some 0x7C := fun e => h2 (List.mem_of_mem_head? e)
  refine ⟨?_, ?_, ?_⟩
  · rcases hc with rfl | rfl <;> rcases hd with rfl | rfl <;> simp [h1]
  · refine no_pair_append ?_ (Or.inr h4) (no_pair_of_not_mem h2)
    rcases hc with rfl | rfl <;> rcases hd with rfl | rfl <;> first | exact absurd ⟨rfl, rfl⟩ he | decide
  · refine no_pair_of_not_mem ?_
    rcases hc with rfl | rfl <;> rcases hd with rfl | rfl <;> simp [h3]

theorem padding_spaces (n : Nat) : Padding (spaces n) := fun _ hc => Or.inl (List.eq_of_mem_replicate hc)

theorem not_mem_spaces (n : Nat) {c : Byte} (hc : c ≠ 0x20) : c ∉ spaces n := fun h => hc (List.eq_of_mem_replicate h)

theorem bar_not_space : ∀ sp ∈ spaceChars, (0x7C : Byte) ∉ sp := by decide

theorem space_single : ∀ sp ∈ spaceChars, (0x20 : Byte) ∈ sp → sp = [0x20] := by decide

/-- A space at the end of a text with spaces in front of it. -/
theorem suffix_spaces {s : Str} (hs : s ≠ []) (n : Nat) {u : Str} {sp : Str} (hsp : sp ∈ spaceChars) (h : sp <:+ u ++ b!"|" ++ spaces n ++ s) :
    sp <:+ s := by
  have key : ∀ (c : Byte) (v : Str), (c ∉ sp ∨ sp = [c]) → sp <:+ v ++ c :: s → sp <:+ s := by
    intro c v hc h
    rcases hc with hc | rfl
    · exact suffix_of_suffix_sep hc h
    · obtain ⟨t, d, rfl⟩ : ∃ t d, s = t ++ [d] := ⟨s.dropLast, s.getLast hs, (List.dropLast_append_getLast hs).symm⟩
      have h1 : (v ++ c :: (t ++ [d])).getLast? = some c := by
        obtain ⟨w, e⟩ := h
        rw [← e]
        simp
      have h2 : (v ++ c :: (t ++ [d])).getLast? = some d := by
        rw [← List.cons_append, ← List.append_assoc, List.getLast?_append]
        rfl
      have h3 : c = d := by
        rw [h1] at h2
        exact Option.some.inj h2
      subst h3
      exact ⟨t, rfl⟩
  cases n with
  | zero => exact key 0x7C u (Or.inl (bar_not_space sp hsp)) (by simpa [spaces] using h)
  | succ n =>
    refine key 0x20 (u ++ b!"|" ++ spaces n) ?_ (by simpa [spaces, List.replicate_succ'] using h)
    by_cases hm : (0x20 : Byte) ∈ sp
    · exact Or.inr (space_single sp hsp hm)
    · exact Or.inl hm

theorem letter_not_space {c : Byte} (h1 : 0x41 ≤ c) (h2 : c ≤ 0x7A) (s : Str) : ∀ sp ∈ spaceChars, ¬ sp <+: c :: s := by
  have hall : ∀ sp ∈ spaceChars, ∀ d ∈ sp.head?, ¬ (0x41 ≤ d ∧ d ≤ 0x7A) := by decide
  intro sp hsp hp
  obtain ⟨d, r, rfl⟩ := List.exists_cons_of_ne_nil (spaceChars_ne sp hsp)
  rw [List.cons_prefix_cons] at hp
  exact hall _ hsp d rfl (hp.1 ▸ ⟨h1, h2⟩)

/-- A cell as it is written, without the space around it. -/
theorem cellWiki_body {env : ParserEnv} {html : HtmlEnv} {tokens : List (Str × Token)} {c : DocCell Leaf}
    (h : c.WellFormed (CellFinal env html tokens)) :
    (c.text = none ∧ (cellWiki c).body = [] ∧ c.attributes = none) ∨
    (∃ x, c.text = some x ∧ c.attributes = none ∧ (cellWiki c).body = srcs x.1 ∧ CellFinal env html tokens (c.before == 0) x) ∨
    (∃ x a n, c.text = some x ∧ c.attributes = some (a, n) ∧ (cellWiki c).body = a.written ++ b!"|" ++ spaces n ++ srcs x.1 ∧ CellAttributes a ∧
      CellFinal env html tokens false x) := by
  obtain ⟨before, attributes, text, after⟩ := c
  obtain ⟨h1, h2⟩ := h
  cases attributes with
  | none =>
    cases text with
    | none => exact Or.inl ⟨rfl, rfl, rfl⟩
    | some x => exact Or.inr (Or.inl ⟨x, rfl, rfl, by simp [cellWiki, TableCell.body, cellText], by simpa using h2 x rfl⟩)
  | some a =>
    obtain ⟨h3, h4⟩ := h1 a rfl
    cases text with
    | none => exact absurd rfl h4
    | some x =>
      exact Or.inr (Or.inr ⟨x, a.1, a.2, rfl, rfl, by simp [cellWiki, TableCell.body, cellText], h3, by simpa using h2 x rfl⟩)

theorem cellWiki_wellFormed {env : ParserEnv} {html : HtmlEnv} {tokens : List (Str × Token)} {c : DocCell Leaf}
    (h : c.WellFormed (CellFinal env html tokens)) : (cellWiki c).WellFormed := by
  have key : trimSpace (cellWiki c).body = (cellWiki c).body ∧ (0x0A : Byte) ∉ (cellWiki c).body ∧ (0x7C : Byte) ∉ (cellWiki c).text := by
    rcases cellWiki_body h with ⟨h1, h2, h3⟩ | ⟨x, h1, h3, h2, hx⟩ | ⟨x, a, n, h1, h3, h2, ha, hx⟩
    · rw [h2]
      refine ⟨by decide, by simp, ?_⟩
      simp [cellWiki, cellText, h1, h3]
    · rw [h2]
      refine ⟨hx.final.leaf.edges.trimmed, hx.final.leaf.oneLine, ?_⟩
      simp [cellWiki, cellText, h1, h3, hx.not_mem (Or.inl rfl)]
    · rw [h2]
      refine ⟨trimSpace_of_clean ?_ ?_, ?_, ?_⟩
      · obtain ⟨l, r, e, hl1, hl2⟩ := ha.start
        rw [e]
        exact letter_not_space hl1 hl2 _
      · intro sp hsp hp
        exact hx.final.leaf.edges.suffix sp hsp (suffix_spaces hx.final.leaf.srcs_ne n hsp hp)
      · simp [plain_not_mem ha.plain (c := 0x0A) (by decide), not_mem_spaces n (c := 0x0A) (by decide), hx.final.leaf.oneLine]
      · simp [cellWiki, cellText, h1, h3, not_mem_spaces n (c := 0x7C) (by decide), hx.not_mem (Or.inl rfl)]
  refine ⟨padding_spaces _, padding_spaces _, key.1, key.2.2, key.2.1, ?_⟩
  intro a ha
  simp only [cellWiki, Option.mem_def, Option.map_eq_some_iff] at ha
  obtain ⟨y, hy, rfl⟩ := ha
  exact ⟨(h.1 y hy).1.wellFormed, plain_not_mem (h.1 y hy).1.plain (by decide)⟩

/-- The beginning, the end and the marks of a cell. -/
theorem cellWiki_marks {env : ParserEnv} {html : HtmlEnv} {tokens : List (Str × Token)} {c : DocCell Leaf}
    (h : c.WellFormed (CellFinal env html tokens)) : (∀ m ∈ (cellWiki c).written.head?, m ∉ b!"!-+}|") ∧
      (∀ m ∈ b!"!|", ¬ [m, m] <:+: (cellWiki c).written ∧ (cellWiki c).written.getLast? ≠ some m) ∧
      ((cellWiki c).written = [] → c.text = none ∧ c.before + c.after = 0) := by
  have hsp : ∀ n, (∀ m ∈ (spaces n).head?, m ∉ b!"!-+}|") := by
    intro n m hm
    rw [List.eq_of_mem_replicate (List.mem_of_mem_head? hm)]
    decide
  have happ : ∀ (x y : Str), (∀ m ∈ x.head?, m ∉ b!"!-+}|") → (x = [] → ∀ m ∈ y.head?, m ∉ b!"!-+}|") → ∀ m ∈ (x ++ y).head?, m ∉ b!"!-+}|" := by
    intro x y h1 h2
    cases x with
    | nil => exact h2 rfl
    | cons c x => exact h1
  have hw : (cellWiki c).written = spaces c.before ++ ((cellWiki c).body ++ spaces c.after) := by simp [TableCell.written, cellWiki]
  have he : spaces c.before = [] → c.before = 0 := by
    intro e
    simpa [spaces] using e
  refine ⟨?_, ?_, ?_⟩
  · rw [hw]
    refine happ _ _ (hsp _) fun e0 => happ _ _ ?_ fun _ => hsp _
    rcases cellWiki_body h with ⟨h1, h2, h3⟩ | ⟨x, h1, h3, h2, hx⟩ | ⟨x, a, n, h1, h3, h2, ha, hx⟩
    · rw [h2]
      simp
    · rw [h2]
      intro m hm hc
      rw [he e0] at hx
      have h4 := hx.good.head m hm
      have h5 : m ∈ srcs x.1 := List.mem_of_mem_head? hm
      have h6 : m ≠ 0x7C := fun e => hx.not_mem (Or.inl rfl) (e ▸ h5)
      have h7 : m ≠ 0x21 := fun e => hx.not_mem (Or.inr rfl) (e ▸ h5)
      revert hc h4 h6 h7
      simp only [List.mem_cons, List.not_mem_nil, or_false]
      tauto
    · rw [h2]
      obtain ⟨l, r, e, hl1, hl2⟩ := ha.start
      rw [e]
      intro m hm
      obtain rfl : l = m := by simpa using hm
      have hall : ∀ d ∈ b!"!-+}|", ¬ (0x41 ≤ d ∧ d ≤ 0x7A) := by decide
      exact fun hc => hall _ hc ⟨hl1, hl2⟩
  · intro m hm
    have hm20 : m ≠ 0x20 := by rintro rfl; revert hm; decide
    have hmm : m = 0x7C ∨ m = 0x21 := by revert hm; simp only [List.mem_cons, List.not_mem_nil, or_false]; tauto
    have hb : ¬ [m, m] <:+: (cellWiki c).body ∧ (cellWiki c).body.getLast? ≠ some m := by
      rcases cellWiki_body h with ⟨h1, h2, h3⟩ | ⟨x, h1, h3, h2, hx⟩ | ⟨x, a, n, h1, h3, h2, ha, hx⟩
      · rw [h2]
        simp
      · rw [h2]
        exact ⟨no_pair_of_not_mem (hx.not_mem hmm), last_of_not_mem (hx.not_mem hmm)⟩
      · rw [h2]
        have hw : m ∉ a.written := plain_not_mem ha.plain (by rcases hmm with rfl | rfl <;> decide)
        have hs := not_mem_spaces n hm20
        have hx := hx.not_mem hmm
        have hr : m ∉ spaces n ++ srcs x.1 := by simp [hs, hx]
        rw [List.append_assoc]
        refine ⟨no_pair_append (no_pair_append (no_pair_of_not_mem hw) (Or.inl (last_of_not_mem hw)) ?_)
          (Or.inr fun e => hr (List.mem_of_mem_head? e)) (no_pair_of_not_mem hr), ?_⟩
        · intro hi
          have := hi.length_le
          simp at this
        · rename_i hx'
          rw [List.getLast?_append_of_ne_nil _ (by simp [hx'.final.leaf.srcs_ne])]
          exact last_of_not_mem hr
    rw [hw]
    have hs1 := not_mem_spaces c.before hm20
    have hs2 := not_mem_spaces c.after hm20
    exact ⟨no_pair_append (no_pair_of_not_mem hs1) (Or.inl (last_of_not_mem hs1)) (no_pair_append hb.1 (Or.inl hb.2) (no_pair_of_not_mem hs2)),
      last_append (last_of_not_mem hs1) (last_append hb.2 (last_of_not_mem hs2))⟩
  · rw [hw]
    intro e
    simp only [List.append_eq_nil_iff] at e
    obtain ⟨e1, e2, e3⟩ := e
    have e1 : c.before = 0 := he e1
    have e3 : c.after = 0 := by simpa [spaces] using e3
    refine ⟨?_, by omega⟩
    rcases cellWiki_body h with ⟨h1, h2, h3⟩ | ⟨x, h1, h3, h2, hx⟩ | ⟨x, a, n, h1, h3, h2, ha, hx⟩
    · exact h1
    · exact absurd (h2 ▸ e2) hx.final.leaf.srcs_ne
    · rw [h2] at e2
      simp at e2

theorem separated_cells {m : Byte} : ∀ (ws : List Str), (∀ w ∈ ws, w.head? ≠ some m ∧ ¬ [m, m] <:+: w ∧ w.getLast? ≠ some m) → Separated m [] ws
  | [], _ => trivial
  | [w], h => (h w (by simp)).2.1
  | w :: w' :: rest, h => by
    refine ⟨?_, separated_cells (w' :: rest) fun x hx => h x (by simp [hx])⟩
    exact no_pair_append (h w (by simp)).2.1 (Or.inl (h w (by simp)).2.2) (fun hi => by simpa using hi.length_le)

theorem separated_line {m : Byte} {w : Str} {ws : List Str} (h : ∀ x ∈ w :: ws, x.head? ≠ some m ∧ ¬ [m, m] <:+: x ∧ x.getLast? ≠ some m)
    (hw : ws ≠ [] → w ≠ []) : Separated m [m] (w :: ws) := by
  obtain ⟨h1, h2, h3⟩ := h w (by simp)
  have hf : ¬ [m, m] <:+: [m] ++ w := no_pair_append (fun hi => by simpa using hi.length_le) (Or.inr h1) h2
  cases ws with
  | nil => exact hf
  | cons w' ws =>
    refine ⟨no_pair_append hf (Or.inl ?_) (fun hi => by simpa using hi.length_le), separated_cells _ fun x hx => h x (by simp [hx])⟩
    rw [List.getLast?_append_of_ne_nil _ (hw (by simp))]
    exact h3

theorem cellsWiki_wellFormed {env : ParserEnv} {html : HtmlEnv} {tokens : List (Str × Token)} {l : DocCells Leaf}
    (h : l.WellFormed (CellFinal env html tokens)) (p : CellItem 0 → Prop) : (cellsWiki (CellItem 0) l).WellFormed p := by
  have hm : ∀ b, cellMark b ∈ b!"!|" := by decide
  have hc : (cellsWiki (CellItem 0) l).cells = l.cells.map cellWiki := rfl
  have hall : ∀ b, ∀ w ∈ (cellsWiki (CellItem 0) l).cells.map TableCell.written,
      w.head? ≠ some (cellMark b) ∧ ¬ [cellMark b, cellMark b] <:+: w ∧ w.getLast? ≠ some (cellMark b) := by
    intro b w hw
    rw [hc, List.map_map] at hw
    obtain ⟨c, hc, rfl⟩ := List.mem_map.mp hw
    obtain ⟨h1, h2, -⟩ := cellWiki_marks (h.1 c hc)
    refine ⟨fun e => h1 _ e ?_, h2 _ (hm b)⟩
    cases b <;> decide
  refine ⟨padding_nil, ?_, ?_, ?_, fun _ => rfl, by simp [cellsWiki]⟩
  · intro x hx
    rw [hc] at hx
    obtain ⟨c, hc, rfl⟩ := List.mem_map.mp hx
    refine ⟨cellWiki_wellFormed (h.1 c hc), fun m hm => ?_⟩
    have := (cellWiki_marks (h.1 c hc)).1 m hm
    simp only [List.mem_cons, List.not_mem_nil, or_false, not_or] at this
    tauto
  · refine separated_line (hall _) ?_
    intro ho e
    obtain ⟨e1, e2⟩ := (cellWiki_marks (h.1 l.first (by simp [DocCells.cells]))).2.2 e
    have := h.2 (by rintro e; exact ho (by simp [cellsWiki, e])) e1
    omega
  · intro x hx
    exact (hall _ _ (List.mem_map_of_mem hx)).2.1

theorem rowsWiki_wellFormed {env : ParserEnv} {html : HtmlEnv} {tokens : List (Str × Token)} (p : CellItem 0 → Prop) : ∀ (rows : List (DocRow Leaf)),
    (∀ r ∈ rows, r.WellFormed (CellFinal env html tokens)) → (∀ r ∈ rows.tail, r.separator ≠ none) →
    rowsWellFormed p [] (rows.map (rowWiki (CellItem 0)))
  | [], _, _ => trivial
  | r :: rows, h, hs => by
    rw [List.map_cons, rowsWellFormed]
    obtain ⟨h1, h2, h3⟩ := h r (by simp)
    refine ⟨?_, by simpa [rowWiki] using h2, ?_, ?_, rowsWiki_wellFormed p rows (fun x hx => h x (by simp [hx]))
      fun x hx => hs x (List.mem_of_mem_tail hx)⟩
    · rw [rowWiki]
      cases hr : r.separator with
      | none => trivial
      | some s => exact ⟨padding_nil, plain_noMarks (h1 s hr) (Or.inr rfl) (Or.inr rfl) (by decide)⟩
    · rw [rowWiki]
      generalize rowIndent _ _ = next
      generalize r.lines = lines at h3
      induction lines with
      | nil => trivial
      | cons l lines ih => exact ⟨cellsWiki_wellFormed (h3 l (by simp)) p, fun e => absurd rfl e, ih fun x hx => h3 x (by simp [hx])⟩
    · intro x hx
      cases rows with
      | nil => simp at hx
      | cons r' rows =>
        simp only [List.map_cons, List.head?_cons, Option.mem_def, Option.some.injEq] at hx
        subst hx
        simpa [rowWiki] using hs r' (by simp)

theorem tableWiki_wellFormed {env : ParserEnv} {html : HtmlEnv} {tokens : List (Str × Token)} {t : DocTable Leaf}
    (h : t.WellFormed (CellFinal env html tokens)) : (TableBlock.table [] [] 0 (tableWiki t)).WellFormed := by
  refine ⟨padding_nil, by simp, plain_noMarks h.attributes (Or.inl rfl) (Or.inl rfl) (by decide), ?_, ?_, padding_nil, padding_nil⟩
  · intro c hc
    simp only [tableWiki, Option.mem_def, Option.map_eq_some_iff] at hc
    obtain ⟨y, hy, rfl⟩ := hc
    have hf := h.caption y hy
    have hb : (captionWiki y).body = spaces y.1 ++ srcs y.2.1 := rfl
    refine ⟨padding_nil, padding_nil, ?_, ?_, by simp [captionWiki], ?_, ?_, by simp [captionWiki]⟩
    · rw [hb]
      refine trimSpace_of_clean ?_ ?_
      · have hall : ∀ sp ∈ spaceChars, sp.head? ≠ some 0x7C := by decide
        intro sp hsp hp
        obtain ⟨d, r, rfl⟩ := List.exists_cons_of_ne_nil (spaceChars_ne sp hsp)
        rw [List.cons_append, List.cons_prefix_cons] at hp
        exact hall _ hsp (by rw [hp.1]; rfl)
      · intro sp hsp hp
        have key := hf.final.leaf.edges.suffix sp hsp
        have hne := hf.final.leaf.srcs_ne
        cases hy : y.1 with
        | zero =>
          rw [hy] at hp
          have hall : ∀ sp ∈ spaceChars, (0x2B : Byte) ∉ sp := by decide
          exact key (suffix_of_suffix_sep (c := 0x2B) (b := b!"|") (hall sp hsp) (by simpa [spaces] using hp))
        | succ n =>
          rw [hy] at hp
          have := suffix_spaces (u := b!"|+") hne 0 hsp
          by_cases hm : (0x20 : Byte) ∈ sp
          · have e := space_single sp hsp hm
            subst e
            obtain ⟨w, hw⟩ := hp
            have : (srcs y.2.1).getLast? = some 0x20 := by
              rw [← List.getLast?_append_of_ne_nil (b!"|+" ++ spaces (n + 1)) hne, List.append_assoc, ← hw]
              simp
            obtain ⟨t, d, e⟩ : ∃ t d, srcs y.2.1 = t ++ [d] :=
              ⟨(srcs y.2.1).dropLast, (srcs y.2.1).getLast hne, (List.dropLast_append_getLast hne).symm⟩
            rw [e] at this
            have : d = 0x20 := by simpa using this
            exact key (by rw [e, this]; exact ⟨t, rfl⟩)
          · exact key (suffix_of_suffix_sep (c := 0x20) (b := b!"|+" ++ spaces n) hm (by simpa [spaces, List.replicate_succ'] using hp))
    · simp [captionWiki, hf.not_mem (Or.inl rfl), not_mem_spaces y.1 (c := 0x7C) (by decide)]
    · rw [hb]
      simp [hf.final.leaf.oneLine, not_mem_spaces y.1 (c := 0x0A) (by decide)]
    · rw [hb]
      exact no_pair_of_not_mem (by simp [hf.not_mem (Or.inr rfl), not_mem_spaces y.1 (c := 0x21) (by decide)])
  · exact rowsWiki_wellFormed _ _ h.rows h.separators

/-! ### The token of a table -/

theorem tokenizeContent_nil (env : ParserEnv) : ∃ k, ∀ n, k ≤ n → tokenizeContent env n [] = pure [] := by
  refine ⟨3, fun n hn => ?_⟩
  obtain ⟨m, rfl⟩ : ∃ m, n = m + 1 := ⟨n - 1, by omega⟩
  have hc : CalmLine [] := by
    refine ⟨by simp, ?_, ?_, ?_, by simp, by simp, tagFree_of_no_lt (by simp), by simp⟩ <;> decide
  have := tokenizePass_calm env (tokenizeContent env m) (ls := [[]]) (by simp) (by simpa using hc) m (by simp [join]; omega)
  rw [show join b!"\n" [[]] = [] from rfl] at this
  rw [tokenizeContent, this, pure_bind, if_pos (by decide)]
  congr 1

def leafText : Option Leaf → Str
  | none => []
  | some x => srcs x.1

def cellEntry (heading : Bool) (c : DocCell Leaf) : TableCol :=
  { attributes := (cellWiki c).kept, content := leafText c.text, isHeading := heading }

def cellsEntries (l : DocCells Leaf) : List TableCol := l.cells.map (cellEntry l.heading)
def rowEntries (r : DocRow Leaf) : List TableCol := r.lines.flatMap cellsEntries

/-- With enough fuel it ends with this result and does not change the state. -/
abbrev Settles {α : Type} (f : Nat → TokM α) (a : α) : Prop := ∃ k, ∀ n, k ≤ n → f n = pure a

theorem Settles.bind {α β : Type} {f : Nat → TokM α} {g : Nat → α → TokM β} {a : α} {b : β} (hf : Settles f a) (hg : Settles (fun n => g n a) b) :
    Settles (fun n => f n >>= g n) b := by
  obtain ⟨k1, h1⟩ := hf
  obtain ⟨k2, h2⟩ := hg
  refine ⟨max k1 k2, fun n hn => ?_⟩
  show f n >>= g n = _
  rw [h1 n (by omega), pure_bind]
  exact h2 n (by omega)

theorem settles_pure {α : Type} (a : α) : Settles (fun _ => (pure a : TokM α)) a := ⟨0, fun _ _ => rfl⟩

theorem tokenizedCell_settles {env : ParserEnv} {html : HtmlEnv} {tokens : List (Str × Token)} {c : DocCell Leaf}
    (h : c.WellFormed (CellFinal env html tokens)) (heading : Bool) :
    Settles (fun n => tokenizedCell (tokenizeContent env n) heading (cellWiki c) []) (cellEntry heading c) := by
  obtain ⟨h1, h2⟩ : ∃ r, Settles (fun n => tokenizeContent env n (cellText c ++ furtherText [])) r ∧ trimSpace r = leafText c.text := by
    rw [furtherText, List.append_nil, cellText]
    cases ht : c.text with
    | none =>
      have : c.attributes = none := by
        cases ha : c.attributes with
        | none => rfl
        | some a => exact absurd ht (h.1 a ha).2
      rw [this]
      exact ⟨[], tokenizeContent_nil env, by decide⟩
    | some x =>
      have hx := (h.2 x ht).final
      have hne := hx.leaf.srcs_ne
      cases ha : c.attributes with
      | none => exact ⟨_, tokenizeContent_calm env (hx.calm 0) (by simp [hne]), trimSpace_spaces hx.leaf.edges.prefix hx.leaf.edges.trimmed 0⟩
      | some a => exact ⟨_, tokenizeContent_calm env (hx.calm a.2) (by simp [hne]), trimSpace_spaces hx.leaf.edges.prefix hx.leaf.edges.trimmed a.2⟩
  refine Settles.bind (b := cellEntry heading c)
    (g := fun _ content => pure ({ attributes := (cellWiki c).kept, content := trimSpace content, isHeading := heading } : TableCol)) h2.1 ?_
  rw [h2.2]
  exact settles_pure _

theorem tokenizedCells_settles {env : ParserEnv} {html : HtmlEnv} {tokens : List (Str × Token)} (heading : Bool) : ∀ (others : List (DocCell Leaf))
    (c : DocCell Leaf), (∀ x ∈ c :: others, x.WellFormed (CellFinal env html tokens)) →
    Settles (fun n => tokenizedCells (tokenizeContent env n) heading (cellWiki c) (others.map cellWiki) []) ((c :: others).map (cellEntry heading))
  | [], c, h => (tokenizedCell_settles (h c (by simp)) heading).bind (g := fun _ col => pure [col]) (settles_pure _)
  | c' :: others, c, h => by
    refine (tokenizedCell_settles (h c (by simp)) heading).bind (g := fun n col => do
      let cols ← tokenizedCells (tokenizeContent env n) heading (cellWiki c') (others.map cellWiki) []
      pure (col :: cols)) ?_
    exact (tokenizedCells_settles heading others c' fun x hx => h x (by simp at hx ⊢; tauto)).bind
      (g := fun _ cols => pure (cellEntry heading c :: cols)) (settles_pure _)

theorem tokenizedCellLines_settles {env : ParserEnv} {html : HtmlEnv} {tokens : List (Str × Token)} : ∀ (lines : List (DocCells Leaf)),
    (∀ l ∈ lines, l.WellFormed (CellFinal env html tokens)) →
    Settles (fun n => tokenizedCellLines (tokenizeContent env n) (lines.map (cellsWiki Str))) (lines.flatMap cellsEntries)
  | [], _ => settles_pure _
  | l :: lines, h => by
    refine (tokenizedCells_settles l.heading l.others l.first (h l (by simp)).1).bind (g := fun n cols => do
      let r ← tokenizedCellLines (tokenizeContent env n) (lines.map (cellsWiki Str))
      pure (cols ++ r)) ?_
    exact (tokenizedCellLines_settles lines fun x hx => h x (by simp [hx])).bind (g := fun _ r => pure (_ ++ r)) (settles_pure _)

theorem tokenizedRows_settles {env : ParserEnv} {html : HtmlEnv} {tokens : List (Str × Token)} : ∀ (rows : List (DocRow Leaf)),
    (∀ r ∈ rows, r.WellFormed (CellFinal env html tokens)) →
    Settles (fun n => tokenizedRows (tokenizeContent env n) (rows.map (rowWiki Str))) (rows.map rowEntries)
  | [], _ => settles_pure _
  | r :: rows, h => by
    refine (tokenizedCellLines_settles r.lines (h r (by simp)).2.2).bind (g := fun n cols => do
      let r ← tokenizedRows (tokenizeContent env n) (rows.map (rowWiki Str))
      pure (cols :: r)) ?_
    exact (tokenizedRows_settles rows fun x hx => h x (by simp [hx])).bind (g := fun _ r => pure (_ :: r)) (settles_pure _)

theorem mapCellLines_pure (f : CellItem 0 → TokM Str) : ∀ (lines : List (DocCells Leaf)),
    mapCellLines f (lines.map (cellsWiki (CellItem 0))) = pure (lines.map (cellsWiki Str))
  | [] => rfl
  | l :: lines => by
    rw [List.map_cons, mapCellLines, mapCellLines_pure f lines]
    rfl

theorem mapRows_pure (f : CellItem 0 → TokM Str) : ∀ (rows : List (DocRow Leaf)),
    mapRows f (rows.map (rowWiki (CellItem 0))) = pure (rows.map (rowWiki Str))
  | [] => rfl
  | r :: rows => by
    rw [List.map_cons, mapRows, mapRows_pure f rows, rowWiki, mapCellLines_pure]
    rfl

def captionEntry (t : DocTable Leaf) : Str := leafText (t.caption.map Prod.snd)

/-- The token of a table. -/
theorem tokenizedTable_ends {env : ParserEnv} {html : HtmlEnv} {tokens : List (Str × Token)} {t : DocTable Leaf}
    (h : t.WellFormed (CellFinal env html tokens)) (s : TokState) :
    ∃ s', Ends (fun n => tokenizedTable (tokenizeContent env n) (tokenizedCellItem (tokenizeContent env n) 0) (tableWiki t)) s
        (tokenKey b!"TABLE" s.counter) s' ∧ Grows s s' ∧
      lookupToken s'.tokenMap (tokenKey b!"TABLE" s.counter) = some (.table (t.rows.map rowEntries) (captionEntry t)) := by
  obtain ⟨s', e, g, l⟩ := Ends.newToken b!"TABLE" (.table (t.rows.map rowEntries) (captionEntry t)) s
  refine ⟨s', ?_, g, l⟩
  have hcap : Settles (fun n => tokenizedCaption (tokenizeContent env n) (tableWiki t).caption) (captionEntry t) := by
    rw [captionEntry, tableWiki]
    cases hc : t.caption with
    | none => exact settles_pure _
    | some c =>
      have hx := (h.caption c hc).final
      have hne := hx.leaf.srcs_ne
      obtain ⟨k, hk⟩ := tokenizeContent_calm env (hx.calm c.1) (by simp [hne])
      refine ⟨k, fun n hn => ?_⟩
      have e : (captionWiki c).text ++ ((captionWiki c).more.flatMap fun l => b!"\n" ++ trimSpace l) = spaces c.1 ++ srcs c.2.1 := by
        simp [captionWiki]
      rw [Option.map_some, Option.map_some]
      simp only [tokenizedCaption]
      rw [e, hk n hn, pure_bind, trimSpace_spaces hx.leaf.edges.prefix hx.leaf.edges.trimmed]
      rfl
  unfold tokenizedTable
  refine Ends.bind (a := t.rows.map (rowWiki Str)) (s' := s) (Ends.noop s ⟨0, fun n _ => mapRows_pure _ _⟩) ?_
  refine Ends.bind (Ends.noop s hcap) ?_
  exact Ends.bind (Ends.noop s (tokenizedRows_settles t.rows h.rows)) e

/-! ### The HTML of a table -/

theorem kept_ne (a : TableAttrs) : ∀ k ∈ a.kept, k ≠ [] := by
  intro k hk
  rw [TableAttrs.kept, List.mem_append] at hk
  rcases hk with hk | hk
  · obtain ⟨x, -, hx⟩ := List.mem_filterMap.mp hk
    split at hx
    · rename_i row number quoted e
      cases hx
      rw [e, TableAttr.code]
      cases row <;> simp
    · cases hx
  · obtain ⟨x, -, hx⟩ := List.mem_filterMap.mp (List.mem_of_mem_take hk)
    split at hx
    · cases hx
    · cases hx
      simp

theorem join_spaced (ks : List Str) (h : ∀ k ∈ ks, k ≠ []) :
    (if join b!" " ks ≠ [] then b!" " ++ join b!" " ks else join b!" " ks) = ks.flatMap fun k => b!" " ++ k := by
  cases ks with
  | nil => rfl
  | cons k ks =>
    have e : ∀ (ks : List Str) (k : Str), b!" " ++ join b!" " (k :: ks) = (k :: ks).flatMap fun k => b!" " ++ k := by
      intro ks
      induction ks with
      | nil => intro k; simp [join]
      | cons k' ks ih =>
        intro k
        rw [join_cons_of_ne_nil (by simp), List.flatMap_cons, ← ih k']
        simp
    have hne : join b!" " (k :: ks) ≠ [] := by
      have := h k (by simp)
      cases ks with
      | nil => simpa [join] using this
      | cons k' ks => rw [join_cons_of_ne_nil (by simp)]; simp [this]
    rw [if_pos hne, e]

theorem expandLeaf {env : ParserEnv} {html : HtmlEnv} {tokens : List (Str × Token)} {x : Leaf} (h : LeafFinal env html tokens x) :
    ∃ k, ∀ fuel, k ≤ fuel → expandString html tokens fuel (srcs x.1) = pure x.2 := expandString_atoms h.leaf.ok h.plain h.shows

theorem expandString_nil (html : HtmlEnv) (tokens : List (Str × Token)) (fuel : Nat) (hf : 1 ≤ fuel) : expandString html tokens fuel [] = pure [] := by
  obtain ⟨f, rfl⟩ : ∃ f, fuel = f + 1 := ⟨fuel - 1, by omega⟩
  have := expandString_pieces html tokens f [] [] (by simp) (by simp)
  simpa [piecesText, expandPieces] using this

theorem expandCell {env : ParserEnv} {html : HtmlEnv} {tokens : List (Str × Token)} {c : DocCell Leaf}
    (h : c.WellFormed (CellFinal env html tokens)) (heading : Bool) :
    ∃ k, ∀ fuel, k ≤ fuel → expandCol (expandString html tokens fuel) (cellEntry heading c) = pure (c.html Prod.snd heading) := by
  obtain ⟨k, hk⟩ : ∃ k, ∀ fuel, k ≤ fuel → expandString html tokens fuel (leafText c.text) = pure (match c.text with
      | none => []
      | some x => x.2) := by
    cases ht : c.text with
    | none => exact ⟨1, expandString_nil html tokens⟩
    | some x => exact expandLeaf (h.2 x ht).final
  refine ⟨k, fun fuel hf => ?_⟩
  rw [expandCol, cellEntry]
  simp only [hk fuel hf]
  have ha : (if join b!" " (cellWiki c).kept ≠ [] then b!" " ++ join b!" " (cellWiki c).kept else join b!" " (cellWiki c).kept) =
      match c.attributes with
      | none => []
      | some (a, _) => a.kept.flatMap fun k => b!" " ++ k := by
    rw [TableCell.kept, cellWiki]
    cases c.attributes with
    | none => rfl
    | some a => exact join_spaced _ (kept_ne a.1)
  show pure _ = _
  rw [ha, DocCell.html]
  congr 1
  cases heading <;> cases c.attributes <;> cases c.text <;> simp

theorem mapM_pure {α β : Type} {f : Nat → α → ExpM β} {g : α → β} (xs : List α) (h : ∀ x ∈ xs, ∃ k, ∀ n, k ≤ n → f n x = pure (g x)) :
    ∃ k, ∀ n, k ≤ n → ExpM.mapM (f n) xs = pure (xs.map g) := by
  induction xs with
  | nil => exact ⟨0, fun _ _ => rfl⟩
  | cons x xs ih =>
    obtain ⟨k1, h1⟩ := h x (by simp)
    obtain ⟨k2, h2⟩ := ih fun y hy => h y (by simp [hy])
    refine ⟨max k1 k2, fun n hn => ?_⟩
    rw [ExpM.mapM, h1 n (by omega), h2 n (by omega)]
    rfl

theorem expMapM_map {α β γ : Type} (f : β → ExpM γ) (g : α → β) (xs : List α) : ExpM.mapM f (xs.map g) = ExpM.mapM (fun x => f (g x)) xs := by
  induction xs with
  | nil => rfl
  | cons x xs ih => rw [List.map_cons, ExpM.mapM, ih, ExpM.mapM]

theorem expandRow_html {env : ParserEnv} {html : HtmlEnv} {tokens : List (Str × Token)} {r : DocRow Leaf}
    (h : r.WellFormed (CellFinal env html tokens)) :
    ∃ k, ∀ fuel, k ≤ fuel → expandRow (expandString html tokens fuel) (rowEntries r) = pure (r.html Prod.snd) := by
  have e1 : rowEntries r = (r.lines.flatMap fun l => l.cells.map fun c => (l.heading, c)).map fun p => cellEntry p.1 p.2 := by
    rw [rowEntries, List.map_flatMap]
    simp only [List.map_map, Function.comp_def]
    rfl
  have e2 : r.html Prod.snd = b!"<tr>\n" ++ join b!"\n" ((r.lines.flatMap fun l => l.cells.map fun c => (l.heading, c)).map fun p =>
      DocCell.html Prod.snd p.1 p.2) ++ b!"\n</tr>" := by
    rw [DocRow.html, List.map_flatMap]
    simp [Function.comp_def]
  obtain ⟨k, hk⟩ := mapM_pure (f := fun fuel (p : Bool × DocCell Leaf) => expandCol (expandString html tokens fuel) (cellEntry p.1 p.2))
    (g := fun p => DocCell.html Prod.snd p.1 p.2) (r.lines.flatMap fun l => l.cells.map fun c => (l.heading, c)) (by
      intro p hp
      obtain ⟨l, hl, hp⟩ := List.mem_flatMap.mp hp
      obtain ⟨c, hc, rfl⟩ := List.mem_map.mp hp
      exact expandCell ((h.2.2 l hl).1 c hc) l.heading)
  refine ⟨k, fun fuel hf => ?_⟩
  have := hk fuel hf
  rw [expandRow, e1, expMapM_map, this, e2]
  rfl

theorem expandTable_html {env : ParserEnv} {html : HtmlEnv} {tokens : List (Str × Token)} {t : DocTable Leaf}
    (h : t.WellFormed (CellFinal env html tokens)) :
    ∃ k, ∀ fuel, k ≤ fuel → expandTable (expandString html tokens fuel) (t.rows.map rowEntries) (captionEntry t) = pure (t.html Prod.snd) := by
  obtain ⟨k1, h1⟩ := mapM_pure (f := fun fuel (r : DocRow Leaf) => expandRow (expandString html tokens fuel) (rowEntries r))
    (g := fun r => DocRow.html Prod.snd r) t.rows fun r hr => expandRow_html (h.rows r hr)
  obtain ⟨k2, h2⟩ : ∃ k, ∀ fuel, k ≤ fuel → expandString html tokens fuel (captionEntry t) = pure (match t.caption with
      | none => []
      | some (_, x) => x.2) := by
    rw [captionEntry]
    cases hc : t.caption with
    | none => exact ⟨1, expandString_nil html tokens⟩
    | some c => exact expandLeaf (h.caption c hc).final
  refine ⟨max k1 k2, fun fuel hf => ?_⟩
  rw [expandTable, expMapM_map, h1 fuel (by omega), h2 fuel (by omega), DocTable.html]
  show pure _ = pure _
  congr 1
  cases t.caption <;> simp

end Verif.Model
