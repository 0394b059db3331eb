import Verif.Lemmas.DocPass

/-!
# The tables of an article become keys
-/

namespace Verif.Model
open Verif.Go Verif.Spec Verif.Lemmas Verif.Props
open scoped List

def blkTables : Blk Leaf → List TableBlock
  | .table t => [.table [] [] 0 (tableWiki t)]
  | b => (b.dlines.map lineStr).map .line

def docTables (d : List (Nat × Blk Leaf)) : List TableBlock := d.flatMap fun b => (List.replicate b.1 []).map TableBlock.line ++ blkTables b.2

theorem tableLines_lines (ls : List Str) : (ls.map TableBlock.line).flatMap TableBlock.lines = ls := by
  induction ls with
  | nil => rfl
  | cons l ls ih => rw [List.map_cons, List.flatMap_cons, ih]; rfl

theorem docTables_lines (d : List (Nat × Blk Leaf)) : (docTables d).flatMap TableBlock.lines = (docLines d).map lineStr := by
  induction d with
  | nil => rfl
  | cons b d ih =>
    rw [docTables, List.flatMap_cons, docLines, List.flatMap_cons, List.flatMap_append, List.map_append, List.flatMap_append, List.map_append,
      tableLines_lines]
    have e2 : (blkTables b.2).flatMap TableBlock.lines = b.2.dlines.map lineStr := by
      cases b.2 with
      | table t => rw [blkTables, List.flatMap_singleton, tableWiki_lines]; rfl
      | _ => exact tableLines_lines _
    rw [e2, List.map_replicate]
    exact congrArg _ ih

/-- There are no lists. -/
def NoLists (d : List (Nat × Blk Leaf)) : Prop := ∀ b ∈ d, ∀ t, b.2 ≠ .list t

theorem LeafFinal.no_brace {env : ParserEnv} {html : HtmlEnv} {tokens : List (Str × Token)} {x : Leaf} (h : LeafFinal env html tokens x) :
    (0x7B : Byte) ∉ srcs x.1 := srcs_no_brace h.leaf.ok h.leaf.braces fun a ha => Atom.plain_not_math (h.plain a ha)

theorem tableBlock_line {l : Str} (h1 : (0x0A : Byte) ∉ l) (h2 : (0x7B : Byte) ∉ l) : (TableBlock.line l).WellFormed := by
  refine ⟨h1, fun colons _ hp => h2 (mem_of_mem_trimSpace (hp.subset ?_))⟩
  simp

theorem docTables_wellFormed {env : ParserEnv} {html : HtmlEnv} {tokens : List (Str × Token)} {d : List (Nat × Blk Leaf)}
    (h : ∀ b ∈ d, BlkFinal env html tokens b.2) (hl : NoLists d) : ∀ b ∈ docTables d, b.WellFormed := by
  intro b hb
  obtain ⟨⟨n, a⟩, ha, hb⟩ := List.mem_flatMap.mp hb
  rcases List.mem_append.mp hb with hb | hb
  · obtain ⟨l, hl, rfl⟩ := List.mem_map.mp hb
    rw [List.eq_of_mem_replicate hl]
    exact tableBlock_line (by simp) (by simp)
  · have hf := h _ ha
    cases a with
    | heading _ _ _ _ => exact hf.elim
    | element x =>
      obtain rfl : b = .line (srcs x.1) := by simpa [blkTables, Blk.dlines, lineStr] using hb
      exact tableBlock_line hf.leaf.oneLine hf.no_brace
    | paragraph xs =>
      obtain ⟨x, hx, rfl⟩ : ∃ x ∈ xs, b = .line (srcs x.1) := by
        simp only [blkTables, Blk.dlines, List.map_map, List.mem_map] at hb
        obtain ⟨x, hx, rfl⟩ := hb
        exact ⟨x, hx, by simp [lineStr]⟩
      exact tableBlock_line (hf x hx).leaf.oneLine (hf x hx).no_brace
    | list t => exact absurd rfl (hl _ ha t)
    | table t =>
      rw [show b = _ from List.mem_singleton.mp hb]
      exact tableWiki_wellFormed hf

theorem tokenizedTables_append (rec : Rec) (a b : List TableBlock) : tokenizedTables rec (a ++ b) = (do
    let x ← tokenizedTables rec a
    let y ← tokenizedTables rec b
    pure (x ++ y)) := by
  induction a with
  | nil => simp [tokenizedTables]
  | cons l a ih =>
    cases l with
    | line l => simp [tokenizedTables, ih]
    | table i c n t => simp [tokenizedTables, ih]

theorem tokenizedTables_lines (rec : Rec) (ls : List Str) : tokenizedTables rec (ls.map TableBlock.line) = pure ls := by
  induction ls with
  | nil => rfl
  | cons l ls ih => rw [List.map_cons, tokenizedTables, ih]; rfl

/-- A table has become a line with its key; the other blocks have not been changed. -/
def TableStep (env : ParserEnv) (html : HtmlEnv) (tokens : List (Str × Token)) (a b : Nat × Blk Leaf) : Prop :=
  a.1 = b.1 ∧ ((∃ t y, a.2 = .table t ∧ b.2 = .element y ∧ y.2 = t.html Prod.snd ∧ (∃ type n, y.1 = [.key type n]) ∧ LeafFinal env html tokens y) ∨
    ((∀ t, a.2 ≠ .table t) ∧ b.2 = a.2 ∧ BlkFinal env html tokens b.2))

theorem TableStep.extend {env : ParserEnv} {html : HtmlEnv} {tokens tokens' : List (Str × Token)} {a b : Nat × Blk Leaf}
    (h : TableStep env html tokens a b) (he : TokensExtend tokens tokens') : TableStep env html tokens' a b := by
  obtain ⟨h0, ⟨t, y, h1, h2, h3, h4, h5⟩ | ⟨h1, h2, h3⟩⟩ := h
  · exact ⟨h0, Or.inl ⟨t, y, h1, h2, h3, h4, h5.extend he⟩⟩
  · exact ⟨h0, Or.inr ⟨h1, h2, h3.extend he⟩⟩

theorem table_key_ok : b!"TABLE" ≠ [] ∧ ∀ c ∈ b!"TABLE", tokenChar c = true := by decide

theorem tables_step (env : ParserEnv) (html : HtmlEnv) (d : List (Nat × Blk Leaf)) : ∀ (s : TokState) (_ : KeysCreated s)
    (_ : ∀ b ∈ d, BlkFinal env html s.tokenMap b.2),
    ∃ d' s', Ends (fun n => tokenizedTables (tokenizeContent env n) (docTables d)) s ((docLines d').map lineStr) s' ∧ Grows s s' ∧
      List.Forall₂ (TableStep env html s'.tokenMap) d d' := by
  induction d with
  | nil => exact fun s _ _ => ⟨[], s, Ends.pure _ s, Grows.refl s, .nil⟩
  | cons b d ih =>
    intro s hs h
    obtain ⟨n, b⟩ := b
    have hb : BlkFinal env html s.tokenMap b := h (n, b) (by simp)
    have hblk : ∃ b' s', Ends (fun n => tokenizedTables (tokenizeContent env n) (blkTables b)) s (b'.dlines.map lineStr) s' ∧ Grows s s' ∧
        TableStep env html s'.tokenMap (n, b) (n, b') := by
      have same : (∀ t, b ≠ .table t) → blkTables b = (b.dlines.map lineStr).map .line →
          ∃ b' s', Ends (fun n => tokenizedTables (tokenizeContent env n) (blkTables b)) s (b'.dlines.map lineStr) s' ∧ Grows s s' ∧
            TableStep env html s'.tokenMap (n, b) (n, b') := by
        intro ht e
        refine ⟨b, s, Ends.noop s ⟨0, fun n _ => ?_⟩, Grows.refl s, rfl, Or.inr ⟨ht, rfl, hb⟩⟩
        rw [e, tokenizedTables_lines]
      cases b with
      | table t =>
        obtain ⟨s', e, g, l⟩ := tokenizedTable_ends (t := t) hb s
        have hk : KeyShows html s'.tokenMap b!"TABLE" s.counter (t.html Prod.snd) := by
          intro tokens' ht
          have hb' : BlkFinal env html tokens' (.table t) := BlkFinal.extend hb ((g.extend hs).trans ht)
          obtain ⟨k, hk⟩ := expandTable_html (t := t) hb'
          exact ⟨k, _, ht _ _ l, fun fuel hf => hk fuel hf⟩
        refine ⟨.element ([.key b!"TABLE" s.counter], t.html Prod.snd), s', ?_, g, rfl,
          Or.inl ⟨t, _, rfl, rfl, rfl, ⟨_, _, rfl⟩, leafFinal_key table_key_ok hk⟩⟩
        have := e.bind (g := fun _ r => pure [r]) (Ends.pure _ _)
        simpa [blkTables, tokenizedTables, Blk.dlines, lineStr, Atom.src] using this
      | heading _ _ _ _ => exact hb.elim
      | _ => exact same (by simp) rfl
    obtain ⟨b', s1, e1, g1, h1⟩ := hblk
    obtain ⟨d', s2, e2, g2, h2⟩ := ih s1 (g1.keysCreated hs) fun x hx => (h x (by simp [hx])).extend (g1.extend hs)
    refine ⟨(n, b') :: d', s2, ?_, g1.trans g2, .cons (h1.extend (g2.extend (g1.keysCreated hs))) h2⟩
    have e3 := e1.bind (e2.bind (Ends.pure _ _) (g := fun n y => pure (b'.dlines.map lineStr ++ y)))
      (g := fun n x => do
        let y ← tokenizedTables (tokenizeContent env n) (docTables d)
        pure (x ++ y))
    have e4 := (Ends.pure (List.replicate n ([] : Str)) s).bind (g := fun k x => do
        let y ← (do
          let x ← tokenizedTables (tokenizeContent env k) (blkTables b)
          let y ← tokenizedTables (tokenizeContent env k) (docTables d)
          pure (x ++ y))
        pure (x ++ y)) (e3.bind (Ends.pure _ _) (g := fun _ y => pure (List.replicate n [] ++ y)))
    refine Ends.congr ⟨0, fun k _ => ?_⟩ (by
      have e : List.replicate n [] ++ (b'.dlines.map lineStr ++ (docLines d').map lineStr) = (docLines ((n, b') :: d')).map lineStr := by
        simp [docLines, lineStr]
      rw [e] at e4
      exact e4)
    rw [show docTables ((n, b) :: d) = (List.replicate n []).map TableBlock.line ++ (blkTables b ++ docTables d) by simp [docTables],
      tokenizedTables_append, tokenizedTables_lines, tokenizedTables_append]

end Verif.Model
