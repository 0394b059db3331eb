import Verif.Lemmas.TableNesting
import Verif.Lemmas.Tokens

/-! Helper lemmas about tables: the text, and what the tokens stand for. -/

namespace Verif.Model
open Verif.Go Verif.Spec
open scoped List

theorem takeWhile_colons (l : Str) : ∀ c ∈ l.takeWhile (· = 0x3A), c = 0x3A := by
  induction l with
  | nil => simp
  | cons x l ih =>
    intro c hc
    rw [List.takeWhile_cons] at hc
    split at hc
    · rename_i hx
      rcases List.mem_cons.mp hc with rfl | hc
      · simpa using hx
      · exact ih c hc
    · simp at hc

theorem matchTableStart_none {l : Str} (h : ¬ StartsTable l) : matchTableStart (trimSpace l) = none := by
  rw [matchTableStart, if_neg]
  intro hp
  refine h ⟨(trimSpace l).takeWhile (· = 0x3A), takeWhile_colons _, ?_⟩
  rw [hasPrefix_iff] at hp
  obtain ⟨t, ht⟩ := hp
  refine ⟨t, ?_⟩
  rw [List.append_assoc, ht, List.takeWhile_append_dropWhile]

theorem matchTableStart_some {colons : Str} (hc : ∀ c ∈ colons, c = 0x3A) (s : Str) :
    matchTableStart (colons ++ b!"{|" ++ s) = some colons := by
  have h1 : (colons ++ b!"{|" ++ s).takeWhile (· = 0x3A) = colons := by
    rw [List.append_assoc, List.takeWhile_append_of_pos (by simpa using hc)]
    simp
  have h2 : (colons ++ b!"{|" ++ s).dropWhile (· = 0x3A) = b!"{|" ++ s := by
    rw [List.append_assoc, List.dropWhile_append_of_pos (by simpa using hc)]
    simp
  rw [matchTableStart, h1, h2, if_pos]
  rw [hasPrefix_iff]
  exact List.prefix_append _ _

/-- The text with tables. -/
theorem tableLoop_ok : ∀ (blocks : List TableBlock), (∀ b ∈ blocks, b.WellFormed) → ∃ steps, ∀ rec fuel, steps ≤ fuel →
    tableLoop rec fuel (blocks.flatMap TableBlock.lines) = tokenizedTables rec blocks
  | [], _ => ⟨1, fun rec fuel hf => by
      obtain ⟨fuel, rfl⟩ : ∃ n, fuel = n + 1 := ⟨fuel - 1, by omega⟩
      rfl⟩
  | .line l :: rest, h => by
    obtain ⟨steps, ih⟩ := tableLoop_ok rest fun b hb => h b (by simp [hb])
    refine ⟨steps + 1, fun rec fuel hf => ?_⟩
    obtain ⟨fuel, rfl⟩ : ∃ n, fuel = n + 1 := ⟨fuel - 1, by omega⟩
    have hw : TableBlock.WellFormed (.line l) := h _ (by simp)
    rw [List.flatMap_cons, TableBlock.lines, List.singleton_append, tableLoop,
      matchTableStart_none (fun ⟨c, h1, h2⟩ => hw.2 c h1 h2), ih rec fuel (by omega), tokenizedTables]
  | .table indent colons n t :: rest, h => by
    obtain ⟨steps, ih⟩ := tableLoop_ok rest fun b hb => h b (by simp [hb])
    have hw : TableBlock.WellFormed (.table indent colons n t) := h _ (by simp)
    obtain ⟨hi, hc, ht⟩ := hw
    obtain ⟨steps', ht⟩ := tokenizeTables_ok (bodyEx_item n) (fun rec => tokenizedCellItem_returns rec n) hi hc t ht
    refine ⟨max steps steps' + 1, fun rec fuel hf => ?_⟩
    obtain ⟨fuel, rfl⟩ : ∃ n, fuel = n + 1 := ⟨fuel - 1, by omega⟩
    obtain ⟨s, hs⟩ := trimSpace_tableFirst hi hc t.attributes
    have e : List.flatMap TableBlock.lines (.table indent colons n t :: rest) =
        tableFirst indent colons t.attributes :: (t.body (CellItem.lines n) ++ t.last :: rest.flatMap TableBlock.lines) := by
      rw [List.flatMap_cons, TableBlock.lines, tableFirst]
      simp
    rw [e, tableLoop, hs, matchTableStart_some hc]
    simp only
    rw [ht rec fuel (by omega), tokenizedTables, bind_assoc]
    congr 1
    funext key
    rw [pure_bind]
    simp only
    rw [ih rec fuel (by omega)]

/-! ### Lines have no line breaks in them -/

theorem not_mem_join {c : Byte} {sep : Str} (hs : c ∉ sep) : ∀ (l : List Str), (∀ x ∈ l, c ∉ x) → c ∉ join sep l
  | [], _ => by simp [join]
  | [x], h => by simpa [join] using h x
  | x :: y :: l, h => by
    have := not_mem_join hs (y :: l) fun z hz => h z (by simp [hz])
    rw [join_cons_of_ne_nil (by simp)]
    simp [h x (by simp), hs, this]

theorem table_lines {α : Type} {p : α → Prop} {g : α → List Str} (hg : ∀ x, p x → ∀ l ∈ g x, (0x0A : Byte) ∉ l) (t : WikiTable α)
    (h : t.WellFormed p) : ∀ l ∈ t.body g ++ [t.last], (0x0A : Byte) ∉ l := by
  intro l hl
  rw [List.mem_append, WikiTable.body, List.mem_append] at hl
  rcases hl with (hl | hl) | hl
  · cases hc : t.caption with
    | none => rw [hc] at hl; simp [captionsLines] at hl
    | some c =>
      have hw := h.caption c (by rw [hc]; rfl)
      rw [hc, captionsLines, List.mem_cons] at hl
      rcases hl with rfl | hl
      · exact (noMarks_caption c hw).1
      · exact (hw.more l hl).line
  · obtain ⟨r, hr, hl⟩ := List.mem_flatMap.mp hl
    obtain ⟨h1, h2⟩ := rowsWellFormed_mem h.rows r hr
    rw [TableRow.allLines, List.mem_append] at hl
    rcases hl with hl | hl
    · cases hs : r.separator with
      | none => rw [hs] at hl; simp [separatorLines] at hl
      | some x =>
        rw [hs] at hl h1
        obtain ⟨indent, text⟩ := x
        simp only [separatorLines, List.mem_singleton] at hl
        subst hl
        rw [List.append_assoc]
        exact (noMarks_padding h1.1 h1.2).1
    · obtain ⟨cl, hcl, hl⟩ := List.mem_flatMap.mp hl
      have hw := h2 cl hcl
      rw [CellLine.lines, List.mem_cons] at hl
      rcases hl with rfl | hl
      · have h1 := mem_padding hw.indent (c := 0x0A) (by decide) (by decide)
        have hk : ∀ m : Bool, (0x0A : Byte) ≠ cellMark m := by decide
        have := not_mem_join (c := 0x0A) (sep := [cellMark cl.heading, cellMark cl.heading]) (by simp [hk])
          (cl.cells.map TableCell.written) (by
            intro x hx
            obtain ⟨c, hc, rfl⟩ := List.mem_map.mp hx
            exact written_line (hw.cells c hc).1)
        rw [CellLine.line]
        simp [h1, hk, this]
      · obtain ⟨x, hx, hl⟩ := List.mem_flatMap.mp hl
        exact hg x (hw.more x hx) l hl
  · have : l = t.last := by simpa using hl
    subst this
    have h1 := mem_padding h.indent (c := 0x0A) (by decide) (by decide)
    have h2 := mem_padding h.after (c := 0x0A) (by decide) (by decide)
    simp [WikiTable.last, h1, h2]

theorem item_lines : ∀ (n : Nat) (x : CellItem n), x.WellFormed n → ∀ l ∈ x.lines n, (0x0A : Byte) ∉ l
  | 0, s, h, l, hl => by
    have : l = s := (List.mem_singleton (α := Str)).mp hl
    subst this
    exact FurtherLine.line h
  | _ + 1, .inl s, h, l, hl => by
    have : l = s := (List.mem_singleton (α := Str)).mp hl
    subst this
    exact FurtherLine.line h
  | n + 1, .inr t, h, l, hl => by
    have h : t.WellFormed (CellItem.WellFormed n) := h
    have hl : l ∈ t.lines (CellItem.lines n) := hl
    rw [WikiTable.lines, List.mem_cons] at hl
    rcases hl with rfl | hl
    · exact h.attributes.1
    · exact table_lines (item_lines n) t h l hl

theorem block_lines (b : TableBlock) (h : b.WellFormed) : ∀ l ∈ b.lines, (0x0A : Byte) ∉ l := by
  intro l hl
  cases b with
  | line s =>
    have : l = s := (List.mem_singleton (α := Str)).mp hl
    subst this
    exact h.1
  | table indent colons n t =>
    obtain ⟨hi, hc, ht⟩ := h
    rw [TableBlock.lines, List.mem_cons] at hl
    rcases hl with rfl | hl
    · have h1 := mem_padding hi (c := 0x0A) (by decide) (by decide)
      have h2 : (0x0A : Byte) ∉ colons := fun hm => absurd (hc _ hm) (by decide)
      have h3 := ht.attributes.1
      simp only [List.append_assoc, List.mem_append, not_or] at h3 ⊢
      exact ⟨h1, h2, h3⟩
    · exact table_lines (item_lines n) t ht l hl

/-! ### The tokens -/

theorem growing_newToken (kind : Str) (t : Token) : Growing (newToken kind t) := by
  rw [newToken]
  exact Growing.token fun _ => Growing.pure _

theorem growing_mapLines {α : Type} {f : α → TokM Str} (hf : ∀ x, Growing (f x)) : ∀ l, Growing (mapLines f l)
  | [] => Growing.pure _
  | x :: l => (hf x).bind fun _ => (growing_mapLines hf l).bind fun _ => Growing.pure _

theorem growing_mapCellLines {α : Type} {f : α → TokM Str} (hf : ∀ x, Growing (f x)) : ∀ l, Growing (mapCellLines f l)
  | [] => Growing.pure _
  | x :: l => (growing_mapLines hf x.more).bind fun _ => (growing_mapCellLines hf l).bind fun _ => Growing.pure _

theorem growing_mapRows {α : Type} {f : α → TokM Str} (hf : ∀ x, Growing (f x)) : ∀ l, Growing (mapRows f l)
  | [] => Growing.pure _
  | x :: l => (growing_mapCellLines hf x.lines).bind fun _ => (growing_mapRows hf l).bind fun _ => Growing.pure _

section
variable {rec : Rec} (h : ∀ c, Growing (rec c))
include h

theorem growing_tokenizedCell (heading : Bool) (c : TableCell) (more : List Str) : Growing (tokenizedCell rec heading c more) :=
  (h _).bind fun _ => Growing.pure _

theorem growing_tokenizedCells (heading : Bool) (more : List Str) : ∀ others c, Growing (tokenizedCells rec heading c others more)
  | [], c => (growing_tokenizedCell h heading c more).bind fun _ => Growing.pure _
  | c' :: others, c => (growing_tokenizedCell h heading c []).bind fun _ =>
      (growing_tokenizedCells heading more others c').bind fun _ => Growing.pure _

theorem growing_tokenizedCellLines : ∀ l, Growing (tokenizedCellLines rec l)
  | [] => Growing.pure _
  | l :: rest => (growing_tokenizedCells h l.heading l.more l.others l.first).bind fun _ =>
      (growing_tokenizedCellLines rest).bind fun _ => Growing.pure _

theorem growing_tokenizedRows : ∀ l, Growing (tokenizedRows rec l)
  | [] => Growing.pure _
  | l :: rest => (growing_tokenizedCellLines h l.lines).bind fun _ => (growing_tokenizedRows rest).bind fun _ => Growing.pure _

theorem growing_tokenizedCaption : ∀ c, Growing (tokenizedCaption rec c)
  | none => Growing.pure _
  | some _ => (h _).bind fun _ => Growing.pure _

theorem growing_tokenizedTable {α : Type} {f : α → TokM Str} (hf : ∀ x, Growing (f x)) (t : WikiTable α) : Growing (tokenizedTable rec f t) :=
  (growing_mapRows hf t.rows).bind fun _ => (growing_tokenizedCaption h t.caption).bind fun _ =>
    (growing_tokenizedRows h _).bind fun _ => growing_newToken _ _

theorem growing_tokenizedCellItem : ∀ n x, Growing (tokenizedCellItem rec n x)
  | 0, _ => Growing.pure _
  | _ + 1, .inl _ => Growing.pure _
  | n + 1, .inr t => growing_tokenizedTable h (growing_tokenizedCellItem n) t
end

theorem matched_mono {α β : Type} {p q : α → β → Prop} (h : ∀ a b, p a b → q a b) {l : List α} {r : List β} (hl : Matched p l r) :
    Matched q l r := by
  induction hl with
  | nil => exact .nil
  | cons h1 _ ih => exact .cons (h _ _ h1) ih

theorem WikiTable.StandsFor.mono {α : Type} {rec : Rec} {m m' : List (Str × Token)} {p p' : α → Str → Prop} {t : WikiTable α} {key : Str}
    (hm : ∀ key token, lookupToken m key = some token → lookupToken m' key = some token) (hp : ∀ x l, p x l → p' x l)
    (h : t.StandsFor rec m p key) : t.StandsFor rec m' p' key := by
  obtain ⟨rows, entries, caption, h1, h2, h3, h4⟩ := h
  refine ⟨rows, entries, caption, matched_mono ?_ h1, h2, h3, hm _ _ h4⟩
  intro r r' hr
  refine matched_mono ?_ hr
  intro l l' ⟨a, b, c, d⟩
  exact ⟨a, b, c, matched_mono hp d⟩

theorem CellItem.StandsFor.mono {rec : Rec} {m m' : List (Str × Token)}
    (hm : ∀ key token, lookupToken m key = some token → lookupToken m' key = some token) :
    ∀ (n : Nat) (x : CellItem n) (line : Str), x.StandsFor rec m n line → x.StandsFor rec m' n line
  | 0, _, _, h => h
  | _ + 1, .inl _, _, h => h
  | n + 1, .inr _, _, h => WikiTable.StandsFor.mono hm (CellItem.StandsFor.mono hm n) h

theorem matched_append {α β : Type} {p : α → β → Prop} {l l' : List α} {r r' : List β} (h : Matched p l r) (h' : Matched p l' r') :
    Matched p (l ++ l') (r ++ r') := by
  induction h with
  | nil => exact h'
  | cons h1 _ ih => exact .cons h1 ih

theorem tokenizedCell_entry {rec : Rec} {heading : Bool} {c : TableCell} {more : List Str} {s s' : TokState} {col : TableCol}
    (h : tokenizedCell rec heading c more s = some (.ok (col, s'))) : c.Entry rec heading more col := by
  rw [tokenizedCell] at h
  obtain ⟨a, s1, h1, h2⟩ := TokM.bind_ok.mp h
  cases h2
  exact ⟨rfl, rfl, a, ⟨_, _, h1⟩, rfl⟩

theorem tokenizedCells_entries {rec : Rec} {heading : Bool} {more : List Str} : ∀ {others : List TableCell} {c : TableCell} {s s' : TokState}
    {cols : List TableCol}, tokenizedCells rec heading c others more s = some (.ok (cols, s')) →
    Matched (fun x col => x.2.1.Entry rec x.1 x.2.2 col)
      (((c :: others).dropLast.map fun c => (heading, c, ([] : List Str))) ++ [(heading, (c :: others).getLastD c, more)]) cols
  | [], c, s, s', cols, h => by
    rw [tokenizedCells] at h
    obtain ⟨col, s1, h1, h2⟩ := TokM.bind_ok.mp h
    cases h2
    exact .cons (tokenizedCell_entry h1) .nil
  | c' :: others, c, s, s', cols, h => by
    rw [tokenizedCells] at h
    obtain ⟨col, s1, h1, h2⟩ := TokM.bind_ok.mp h
    obtain ⟨cols', s2, h3, h4⟩ := TokM.bind_ok.mp h2
    cases h4
    have ih := tokenizedCells_entries h3
    have e : (c :: c' :: others).getLastD c = (c' :: others).getLastD c' := by simp only [List.getLastD_cons]
    rw [e]
    exact .cons (tokenizedCell_entry h1) ih

theorem tokenizedCellLines_entries {rec : Rec} : ∀ {lines : List (CellLine Str)} {s s' : TokState} {cols : List TableCol},
    tokenizedCellLines rec lines s = some (.ok (cols, s')) →
    Matched (fun x col => x.2.1.Entry rec x.1 x.2.2 col) (lines.flatMap CellLine.withLines) cols
  | [], s, s', cols, h => by
    cases h
    exact .nil
  | l :: rest, s, s', cols, h => by
    rw [tokenizedCellLines] at h
    obtain ⟨cols, s1, h1, h2⟩ := TokM.bind_ok.mp h
    obtain ⟨cols', s2, h3, h4⟩ := TokM.bind_ok.mp h2
    cases h4
    exact matched_append (tokenizedCells_entries h1) (tokenizedCellLines_entries h3)

theorem tokenizedRows_entries {rec : Rec} : ∀ {rows : List (TableRow Str)} {s s' : TokState} {entries : List (List TableCol)},
    tokenizedRows rec rows s = some (.ok (entries, s')) → Matched (TableRow.Entries rec) rows entries
  | [], s, s', cols, h => by
    cases h
    exact .nil
  | l :: rest, s, s', cols, h => by
    rw [tokenizedRows] at h
    obtain ⟨cols, s1, h1, h2⟩ := TokM.bind_ok.mp h
    obtain ⟨cols', s2, h3, h4⟩ := TokM.bind_ok.mp h2
    cases h4
    exact .cons (tokenizedCellLines_entries h1) (tokenizedRows_entries h3)

theorem tokenizedCaption_text {rec : Rec} {c : Option TableCaption} {s s' : TokState} {text : Str}
    (h : tokenizedCaption rec c s = some (.ok (text, s'))) : TableCaption.Text rec c text := by
  cases c with
  | none => cases h; rfl
  | some c =>
    rw [tokenizedCaption] at h
    obtain ⟨a, s1, h1, h2⟩ := TokM.bind_ok.mp h
    cases h2
    exact ⟨a, ⟨_, _, h1⟩, rfl⟩

/-- All that holds at the time of creation holds later. -/
def Stable {α : Type} (p : List (Str × Token) → α → Str → Prop) : Prop :=
  ∀ s s', Grows s s' → KeysCreated s → ∀ x l, p s.tokenMap x l → p s'.tokenMap x l

section
variable {α : Type} {f : α → TokM Str} (hf : ∀ x, Growing (f x)) {p : List (Str × Token) → α → Str → Prop} (hp : Stable p)
  (hfp : ∀ x s l s', KeysCreated s → f x s = some (.ok (l, s')) → p s'.tokenMap x l)
include hf hp hfp

theorem mapLines_stand : ∀ (l : List α) (s s' : TokState) (r : List Str), KeysCreated s → mapLines f l s = some (.ok (r, s')) →
    Matched (p s'.tokenMap) l r
  | [], s, s', r, _, h => by
    cases h
    exact .nil
  | x :: l, s, s', r, hk, h => by
    rw [mapLines] at h
    obtain ⟨y, s1, h1, h2⟩ := TokM.bind_ok.mp h
    obtain ⟨r', s2, h3, h4⟩ := TokM.bind_ok.mp h2
    cases h4
    have g1 := hf x _ _ _ h1
    have g2 := growing_mapLines hf l _ _ _ h3
    exact .cons (hp _ _ g2 (g1.keysCreated hk) _ _ (hfp x _ _ _ hk h1)) (mapLines_stand l _ _ _ (g1.keysCreated hk) h3)

theorem mapCellLines_stand : ∀ (l : List (CellLine α)) (s s' : TokState) (r : List (CellLine Str)), KeysCreated s →
    mapCellLines f l s = some (.ok (r, s')) → Matched (CellLine.Replaced (p s'.tokenMap)) l r
  | [], s, s', r, _, h => by
    cases h
    exact .nil
  | x :: l, s, s', r, hk, h => by
    rw [mapCellLines] at h
    obtain ⟨more, s1, h1, h2⟩ := TokM.bind_ok.mp h
    obtain ⟨r', s2, h3, h4⟩ := TokM.bind_ok.mp h2
    cases h4
    have g1 := growing_mapLines hf _ _ _ _ h1
    have g2 := growing_mapCellLines hf l _ _ _ h3
    refine .cons ⟨rfl, rfl, rfl, ?_⟩ (mapCellLines_stand l _ _ _ (g1.keysCreated hk) h3)
    exact matched_mono (hp _ _ g2 (g1.keysCreated hk)) (mapLines_stand hf hp hfp _ _ _ _ hk h1)

theorem mapRows_stand : ∀ (l : List (TableRow α)) (s s' : TokState) (r : List (TableRow Str)), KeysCreated s →
    mapRows f l s = some (.ok (r, s')) → Matched (TableRow.Replaced (p s'.tokenMap)) l r
  | [], s, s', r, _, h => by
    cases h
    exact .nil
  | x :: l, s, s', r, hk, h => by
    rw [mapRows] at h
    obtain ⟨more, s1, h1, h2⟩ := TokM.bind_ok.mp h
    obtain ⟨r', s2, h3, h4⟩ := TokM.bind_ok.mp h2
    cases h4
    have g1 := growing_mapCellLines hf _ _ _ _ h1
    have g2 := growing_mapRows hf l _ _ _ h3
    refine .cons ?_ (mapRows_stand l _ _ _ (g1.keysCreated hk) h3)
    refine matched_mono ?_ (mapCellLines_stand hf hp hfp _ _ _ _ hk h1)
    intro a b ⟨e1, e2, e3, e4⟩
    exact ⟨e1, e2, e3, matched_mono (hp _ _ g2 (g1.keysCreated hk)) e4⟩

theorem tokenizedTable_stands {rec : Rec} (h : ∀ c, Growing (rec c)) (t : WikiTable α) (s s' : TokState) (key : Str) (hk : KeysCreated s)
    (ht : tokenizedTable rec f t s = some (.ok (key, s'))) : t.StandsFor rec s'.tokenMap (p s'.tokenMap) key := by
  rw [tokenizedTable] at ht
  obtain ⟨rows, s1, h1, ht⟩ := TokM.bind_ok.mp ht
  obtain ⟨caption, s2, h2, ht⟩ := TokM.bind_ok.mp ht
  obtain ⟨entries, s3, h3, ht⟩ := TokM.bind_ok.mp ht
  have g1 := growing_mapRows hf _ _ _ _ h1
  have g2 := growing_tokenizedCaption h _ _ _ _ h2
  have g3 := growing_tokenizedRows h _ _ _ _ h3
  have g4 := growing_newToken _ _ _ _ _ ht
  have k1 := g1.keysCreated hk
  have hm := hp _ _ ((g2.trans g3).trans g4) k1
  refine ⟨rows, entries, caption, ?_, tokenizedRows_entries h3, tokenizedCaption_text h2, ?_⟩
  · refine matched_mono ?_ (mapRows_stand hf hp hfp _ _ _ _ hk h1)
    intro r r' hr
    refine matched_mono ?_ hr
    intro a b ⟨e1, e2, e3, e4⟩
    exact ⟨e1, e2, e3, matched_mono hm e4⟩
  · cases ht
    exact lookup_head _ _ _
end

theorem stable_item (rec : Rec) (n : Nat) : Stable fun m x l => CellItem.StandsFor rec m n x l := by
  intro s s' g hk x l hx
  exact CellItem.StandsFor.mono (fun _ _ => g.lookup hk) n x l hx

theorem tokenizedCellItem_stands {rec : Rec} (h : ∀ c, Growing (rec c)) : ∀ (n : Nat) (x : CellItem n) (s : TokState) (l : Str) (s' : TokState),
    KeysCreated s → tokenizedCellItem rec n x s = some (.ok (l, s')) → x.StandsFor rec s'.tokenMap n l
  | 0, x, s, l, s', _, e => by
    cases e
    rfl
  | _ + 1, .inl x, s, l, s', _, e => by
    cases e
    rfl
  | n + 1, .inr t, s, l, s', hk, e =>
    tokenizedTable_stands (growing_tokenizedCellItem h n) (stable_item rec n) (tokenizedCellItem_stands h n) h t s s' l hk e

theorem tokenizedTables_stand {rec : Rec} (h : ∀ c, Growing (rec c)) : ∀ (blocks : List TableBlock) (s s' : TokState) (lines : List Str),
    KeysCreated s → tokenizedTables rec blocks s = some (.ok (lines, s')) → Matched (TableBlock.StandsFor rec s'.tokenMap) blocks lines ∧ Grows s s'
  | [], s, s', lines, _, e => by
    cases e
    exact ⟨.nil, Grows.refl _⟩
  | .line l :: rest, s, s', lines, hk, e => by
    rw [tokenizedTables] at e
    obtain ⟨r, s1, h1, e⟩ := TokM.bind_ok.mp e
    cases e
    obtain ⟨h2, h3⟩ := tokenizedTables_stand h rest _ _ _ hk h1
    exact ⟨.cons rfl h2, h3⟩
  | .table indent colons n t :: rest, s, s', lines, hk, e => by
    rw [tokenizedTables] at e
    obtain ⟨key, s1, h1, e⟩ := TokM.bind_ok.mp e
    obtain ⟨r, s2, h2, e⟩ := TokM.bind_ok.mp e
    cases e
    have g1 := growing_tokenizedTable h (growing_tokenizedCellItem h n) t _ _ _ h1
    obtain ⟨h3, h4⟩ := tokenizedTables_stand h rest _ _ _ (g1.keysCreated hk) h2
    refine ⟨.cons ⟨key, rfl, ?_⟩ h3, g1.trans h4⟩
    have := tokenizedTable_stands (growing_tokenizedCellItem h n) (stable_item rec n) (tokenizedCellItem_stands h n) h t _ _ _ hk h1
    have hl : ∀ key token, lookupToken s1.tokenMap key = some token → lookupToken s'.tokenMap key = some token :=
      fun _ _ => h4.lookup (g1.keysCreated hk)
    exact WikiTable.StandsFor.mono hl (CellItem.StandsFor.mono hl n) this

end Verif.Model
