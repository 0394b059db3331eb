import Verif.Lemmas.AtomLinks
import Verif.Spec.Document

/-!
# The lines of an article
-/

namespace Verif.Model
open Verif.Go Verif.Spec Verif.Lemmas
open scoped List

/-- A line: empty, a text with something in front of it and behind it, or several texts with something between them. -/
inductive DLine (α : Type) where
  | blank
  | one (pre : Str) (x : α) (post : Str)
  | pieces (ps : List (Str ⊕ α))

/-- A block in any stage of the tokenizer. -/
inductive Blk (α : Type) where
  | heading (level before after : Nat) (x : α)
  | element (x : α)
  | paragraph (xs : List α)
  | list (t : TreeList (Nat × α))
  | table (t : DocTable α)

mutual
def TreeList.dlines {α : Type} (pre : Str) : TreeList (Nat × α) → List (DLine α)
  | .mk _ items => treeItemsDlines pre items
def treeItemsDlines {α : Type} (pre : Str) : List (TreeItem (Nat × α)) → List (DLine α)
  | [] => []
  | .mk c text subs :: rest =>
    .one (pre ++ c.char :: spaces text.1) text.2 [] :: (treesDlines (pre ++ [c.char]) subs ++ treeItemsDlines pre rest)
def treesDlines {α : Type} (pre : Str) : List (TreeList (Nat × α)) → List (DLine α)
  | [] => []
  | l :: rest => TreeList.dlines pre l ++ treesDlines pre rest
end

def headPre (level before : Nat) : Str := List.replicate level 0x3D ++ spaces before
def headPost (level after : Nat) : Str := spaces after ++ List.replicate level 0x3D

def cellPieces {α : Type} (c : DocCell α) : List (Str ⊕ α) :=
  .inl c.front :: (c.text.toList.map .inr ++ [.inl (spaces c.after)])

def otherPieces {α : Type} (heading : Bool) (c : DocCell α) : List (Str ⊕ α) :=
  .inl [cellMark heading, cellMark heading] :: cellPieces c

def cellsPieces {α : Type} (l : DocCells α) : List (Str ⊕ α) :=
  .inl [cellMark l.heading] :: (cellPieces l.first ++ l.others.flatMap (otherPieces l.heading))

def rowDlines {α : Type} (r : DocRow α) : List (DLine α) :=
  (r.separator.toList.map fun s => .pieces [.inl (b!"|-" ++ s)]) ++ r.lines.flatMap fun l => [.pieces (cellsPieces l)]

def captionDline {α : Type} (c : Nat × α) : DLine α := .pieces [.inl (b!"|+" ++ spaces c.1), .inr c.2]

def tableDlines {α : Type} (t : DocTable α) : List (DLine α) :=
  .pieces [.inl (b!"{|" ++ t.attributes)] :: (t.caption.toList.map captionDline ++ (t.rows.flatMap rowDlines ++ [.pieces [.inl b!"|}"]]))

def Blk.dlines {α : Type} : Blk α → List (DLine α)
  | .heading level before after x => [.one (headPre level before) x (headPost level after)]
  | .element x => [.one [] x []]
  | .paragraph xs => xs.map fun x => .one [] x []
  | .list t => TreeList.dlines [] t
  | .table t => tableDlines t

def docLines {α : Type} (d : List (Nat × Blk α)) : List (DLine α) := d.flatMap fun b => List.replicate b.1 .blank ++ b.2.dlines

/-! ### Articles of the same structure -/

mutual
def TreeRel {α β : Type} (R : α → β → Prop) : TreeList α → TreeList β → Prop
  | .mk m items, .mk m' items' => m = m' ∧ ItemsRel R items items'
def ItemsRel {α β : Type} (R : α → β → Prop) : List (TreeItem α) → List (TreeItem β) → Prop
  | [], [] => True
  | .mk c x subs :: rest, .mk c' y subs' :: rest' => c = c' ∧ R x y ∧ TreesRel R subs subs' ∧ ItemsRel R rest rest'
  | _, _ => False
def TreesRel {α β : Type} (R : α → β → Prop) : List (TreeList α) → List (TreeList β) → Prop
  | [], [] => True
  | l :: rest, l' :: rest' => TreeRel R l l' ∧ TreesRel R rest rest'
  | _, _ => False
end

/-- The same number of spaces and related texts. -/
def Spaced {α β : Type} (R : α → β → Prop) (p : Nat × α) (q : Nat × β) : Prop := p.1 = q.1 ∧ R p.2 q.2

structure CellRel {α β : Type} (R : α → β → Prop) (c : DocCell α) (c' : DocCell β) : Prop where
  before : c.before = c'.before
  attributes : c.attributes = c'.attributes
  text : Option.Rel R c.text c'.text
  after : c.after = c'.after

structure CellsRel {α β : Type} (R : α → β → Prop) (l : DocCells α) (l' : DocCells β) : Prop where
  heading : l.heading = l'.heading
  first : CellRel R l.first l'.first
  others : List.Forall₂ (CellRel R) l.others l'.others

structure RowRel {α β : Type} (R : α → β → Prop) (r : DocRow α) (r' : DocRow β) : Prop where
  separator : r.separator = r'.separator
  lines : List.Forall₂ (CellsRel R) r.lines r'.lines

structure TableRel {α β : Type} (R : α → β → Prop) (t : DocTable α) (t' : DocTable β) : Prop where
  attributes : t.attributes = t'.attributes
  caption : Option.Rel (Spaced R) t.caption t'.caption
  rows : List.Forall₂ (RowRel R) t.rows t'.rows

def BlkRel {α β : Type} (R : α → β → Prop) : Blk α → Blk β → Prop
  | .heading level before after x, .heading level' before' after' y => level = level' ∧ before = before' ∧ after = after' ∧ R x y
  | .element x, .element y => R x y
  | .paragraph xs, .paragraph ys => List.Forall₂ R xs ys
  | .list t, .list t' => TreeRel (Spaced R) t t'
  | .table t, .table t' => TableRel R t t'
  | _, _ => False

def DocRel {α β : Type} (R : α → β → Prop) : List (Nat × Blk α) → List (Nat × Blk β) → Prop :=
  List.Forall₂ fun a b => a.1 = b.1 ∧ BlkRel R a.2 b.2

def PieceRel {α β : Type} (R : α → β → Prop) : Str ⊕ α → Str ⊕ β → Prop
  | .inl s, .inl s' => s = s'
  | .inr x, .inr y => R x y
  | _, _ => False

def DLineRel {α β : Type} (R : α → β → Prop) : DLine α → DLine β → Prop
  | .blank, .blank => True
  | .one pre x post, .one pre' y post' => pre = pre' ∧ R x y ∧ post = post'
  | .pieces ps, .pieces qs => List.Forall₂ (PieceRel R) ps qs
  | _, _ => False

theorem forall₂_append_left {α β : Type} {R : α → β → Prop} {a b : List α} {c : List β} (h : List.Forall₂ R (a ++ b) c) :
    ∃ c₁ c₂, c = c₁ ++ c₂ ∧ List.Forall₂ R a c₁ ∧ List.Forall₂ R b c₂ := by
  induction a generalizing c with
  | nil => exact ⟨[], c, rfl, .nil, h⟩
  | cons x a ih =>
    cases h with
    | cons h1 h2 =>
      obtain ⟨c₁, c₂, rfl, h3, h4⟩ := ih h2
      exact ⟨_ :: c₁, c₂, rfl, .cons h1 h3, h4⟩

theorem DLineRel.one_left {α β : Type} {R : α → β → Prop} {pre : Str} {x : α} {post : Str} {l : DLine β} (h : DLineRel R (.one pre x post) l) :
    ∃ y, l = .one pre y post ∧ R x y := by
  cases l with
  | blank => exact h.elim
  | one pre' y post' =>
    obtain ⟨rfl, h, rfl⟩ := h
    exact ⟨y, rfl, h⟩
  | pieces qs => exact h.elim

theorem DLineRel.pieces_left {α β : Type} {R : α → β → Prop} {ps : List (Str ⊕ α)} {l : DLine β} (h : DLineRel R (.pieces ps) l) :
    ∃ qs, l = .pieces qs ∧ List.Forall₂ (PieceRel R) ps qs := by
  cases l with
  | blank => exact h.elim
  | one pre' y post' => exact h.elim
  | pieces qs => exact ⟨qs, rfl, h⟩

theorem PieceRel.inl_left {α β : Type} {R : α → β → Prop} {s : Str} {q : Str ⊕ β} (h : PieceRel R (.inl s : Str ⊕ α) q) : q = .inl s := by
  cases q with
  | inl s' => rw [show s = s' from h]
  | inr y => exact h.elim

theorem PieceRel.inr_left {α β : Type} {R : α → β → Prop} {x : α} {q : Str ⊕ β} (h : PieceRel R (.inr x) q) : ∃ y, q = .inr y ∧ R x y := by
  cases q with
  | inl s' => exact h.elim
  | inr y => exact ⟨y, rfl, h⟩

theorem flatMap_unflatten {γ γ' δ δ' : Type} {f : γ → List δ} {f' : γ' → List δ'} {Q : δ → δ' → Prop} {R : γ → γ' → Prop}
    (h : ∀ c ps, List.Forall₂ Q (f c) ps → ∃ c', R c c' ∧ f' c' = ps) : ∀ (cs : List γ) (ps : List δ'),
    List.Forall₂ Q (cs.flatMap f) ps → ∃ cs', List.Forall₂ R cs cs' ∧ cs'.flatMap f' = ps
  | [], ps, hp => by cases hp; exact ⟨[], .nil, rfl⟩
  | c :: cs, ps, hp => by
    rw [List.flatMap_cons] at hp
    obtain ⟨c₁, c₂, rfl, h1, h2⟩ := forall₂_append_left hp
    obtain ⟨c', h3, rfl⟩ := h c c₁ h1
    obtain ⟨cs', h4, rfl⟩ := flatMap_unflatten h cs c₂ h2
    exact ⟨c' :: cs', .cons h3 h4, rfl⟩

theorem cell_unflatten {α β : Type} {R : α → β → Prop} (c : DocCell α) (ps : List (Str ⊕ β)) (h : List.Forall₂ (PieceRel R) (cellPieces c) ps) :
    ∃ c', CellRel R c c' ∧ cellPieces c' = ps := by
  rw [cellPieces] at h
  cases h with
  | cons h1 h2 =>
    obtain ⟨c₁, c₂, rfl, h3, h4⟩ := forall₂_append_left h2
    cases h4 with
    | cons h4 h5 =>
      cases h5
      rw [h1.inl_left, h4.inl_left]
      obtain ⟨before, attributes, text, after⟩ := c
      cases text with
      | none =>
        cases h3
        exact ⟨⟨before, attributes, none, after⟩, ⟨rfl, rfl, .none, rfl⟩, rfl⟩
      | some x =>
        cases h3 with
        | cons h6 h7 =>
          cases h7
          obtain ⟨y, rfl, hy⟩ := h6.inr_left
          exact ⟨⟨before, attributes, some y, after⟩, ⟨rfl, rfl, .some hy, rfl⟩, rfl⟩

theorem cells_unflatten {α β : Type} {R : α → β → Prop} (l : DocCells α) (ps : List (Str ⊕ β)) (h : List.Forall₂ (PieceRel R) (cellsPieces l) ps) :
    ∃ l', CellsRel R l l' ∧ cellsPieces l' = ps := by
  rw [cellsPieces] at h
  cases h with
  | cons h1 h2 =>
    obtain ⟨c₁, c₂, rfl, h3, h4⟩ := forall₂_append_left h2
    obtain ⟨first, h5, rfl⟩ := cell_unflatten _ _ h3
    obtain ⟨others, h6, rfl⟩ := flatMap_unflatten (f' := otherPieces l.heading) (R := CellRel R) (fun c ps hp => by
      rw [otherPieces] at hp
      cases hp with
      | cons h1 h2 =>
        obtain ⟨c', h3, rfl⟩ := cell_unflatten _ _ h2
        rw [h1.inl_left]
        exact ⟨c', h3, rfl⟩) _ _ h4
    rw [h1.inl_left]
    exact ⟨⟨l.heading, first, others⟩, ⟨rfl, h5, h6⟩, rfl⟩

theorem pieces_inl_left {α β : Type} {R : α → β → Prop} {s : Str} {l : DLine β} (h : DLineRel R (.pieces [.inl s] : DLine α) l) :
    l = .pieces [.inl s] := by
  obtain ⟨qs, rfl, h⟩ := h.pieces_left
  cases h with
  | cons h1 h2 =>
    cases h2
    rw [h1.inl_left]

theorem row_unflatten {α β : Type} {R : α → β → Prop} (r : DocRow α) (ls : List (DLine β)) (h : List.Forall₂ (DLineRel R) (rowDlines r) ls) :
    ∃ r', RowRel R r r' ∧ rowDlines r' = ls := by
  rw [rowDlines] at h
  obtain ⟨c₁, c₂, rfl, h3, h4⟩ := forall₂_append_left h
  obtain ⟨lines, h6, rfl⟩ := flatMap_unflatten (f' := fun l : DocCells β => [DLine.pieces (cellsPieces l)]) (R := CellsRel R) (fun c ps hp => by
    cases hp with
    | cons h1 h2 =>
      cases h2
      obtain ⟨qs, rfl, h1⟩ := h1.pieces_left
      obtain ⟨c', h3, rfl⟩ := cells_unflatten _ _ h1
      exact ⟨c', h3, rfl⟩) _ _ h4
  obtain ⟨separator, _⟩ := r
  refine ⟨⟨separator, lines⟩, ⟨rfl, h6⟩, ?_⟩
  cases separator with
  | none => cases h3; rfl
  | some s =>
    cases h3 with
    | cons h1 h2 =>
      cases h2
      rw [pieces_inl_left h1]
      rfl

theorem table_unflatten {α β : Type} {R : α → β → Prop} (t : DocTable α) (ls : List (DLine β)) (h : List.Forall₂ (DLineRel R) (tableDlines t) ls) :
    ∃ t', TableRel R t t' ∧ tableDlines t' = ls := by
  rw [tableDlines] at h
  cases h with
  | cons h1 h2 =>
    obtain ⟨c₁, c₂, rfl, h3, h4⟩ := forall₂_append_left h2
    obtain ⟨c₂, c₃, rfl, h4, h5⟩ := forall₂_append_left h4
    obtain ⟨rows, hr, rfl⟩ := flatMap_unflatten row_unflatten _ _ h4
    obtain ⟨attributes, caption, _⟩ := t
    rw [pieces_inl_left h1]
    have e : c₃ = [.pieces [.inl b!"|}"]] := by
      clear h2
      cases h5 with
      | cons h1 h2 =>
        cases h2
        rw [pieces_inl_left h1]
    subst e
    cases caption with
    | none => cases h3; exact ⟨⟨attributes, none, rows⟩, ⟨rfl, .none, hr⟩, rfl⟩
    | some c =>
      clear h2
      cases h3 with
      | cons h1 h2 =>
        obtain rfl := List.forall₂_nil_left_iff.mp h2
        obtain ⟨qs, rfl, h3⟩ := DLineRel.pieces_left h1
        cases h3 with
        | cons h5 h6 =>
          cases h6 with
          | cons h6 h7 =>
            cases h7
            obtain ⟨y, rfl, hy⟩ := h6.inr_left
            rw [h5.inl_left]
            exact ⟨⟨attributes, some (c.1, y), rows⟩, ⟨rfl, .some ⟨rfl, hy⟩, hr⟩, rfl⟩

mutual
theorem tree_unflatten {α β : Type} {R : α → β → Prop} (pre : Str) : ∀ (t : TreeList (Nat × α)) (ls : List (DLine β)),
    List.Forall₂ (DLineRel R) (TreeList.dlines pre t) ls → ∃ t', TreeRel (Spaced R) t t' ∧ TreeList.dlines pre t' = ls
  | .mk m items, ls, h => by
    obtain ⟨items', h1, h2⟩ := items_unflatten pre items ls (by rwa [TreeList.dlines] at h)
    exact ⟨.mk m items', ⟨rfl, h1⟩, by rw [TreeList.dlines, h2]⟩
theorem items_unflatten {α β : Type} {R : α → β → Prop} (pre : Str) : ∀ (items : List (TreeItem (Nat × α))) (ls : List (DLine β)),
    List.Forall₂ (DLineRel R) (treeItemsDlines pre items) ls → ∃ items', ItemsRel (Spaced R) items items' ∧ treeItemsDlines pre items' = ls
  | [], ls, h => by
    rw [treeItemsDlines] at h
    cases h
    exact ⟨[], trivial, rfl⟩
  | .mk c text subs :: rest, ls, h => by
    rw [treeItemsDlines] at h
    cases h with
    | cons h1 h2 =>
      obtain ⟨y, rfl, hy⟩ := h1.one_left
      obtain ⟨c₁, c₂, rfl, h3, h4⟩ := forall₂_append_left h2
      obtain ⟨subs', h5, h6⟩ := trees_unflatten _ subs c₁ h3
      obtain ⟨rest', h7, h8⟩ := items_unflatten pre rest c₂ h4
      refine ⟨.mk c (text.1, y) subs' :: rest', ⟨rfl, ⟨rfl, hy⟩, h5, h7⟩, ?_⟩
      rw [treeItemsDlines, h6, h8]
theorem trees_unflatten {α β : Type} {R : α → β → Prop} (pre : Str) : ∀ (subs : List (TreeList (Nat × α))) (ls : List (DLine β)),
    List.Forall₂ (DLineRel R) (treesDlines pre subs) ls → ∃ subs', TreesRel (Spaced R) subs subs' ∧ treesDlines pre subs' = ls
  | [], ls, h => by
    rw [treesDlines] at h
    cases h
    exact ⟨[], trivial, rfl⟩
  | l :: rest, ls, h => by
    rw [treesDlines] at h
    obtain ⟨c₁, c₂, rfl, h3, h4⟩ := forall₂_append_left h
    obtain ⟨l', h5, h6⟩ := tree_unflatten pre l c₁ h3
    obtain ⟨rest', h7, h8⟩ := trees_unflatten pre rest c₂ h4
    exact ⟨l' :: rest', ⟨h5, h7⟩, by rw [treesDlines, h6, h8]⟩
end

theorem blk_unflatten {α β : Type} {R : α → β → Prop} (b : Blk α) (ls : List (DLine β)) (h : List.Forall₂ (DLineRel R) b.dlines ls) :
    ∃ b', BlkRel R b b' ∧ b'.dlines = ls := by
  cases b with
  | heading level before after x =>
    cases h with
    | cons h1 h2 =>
      cases h2
      obtain ⟨y, rfl, hy⟩ := h1.one_left
      exact ⟨.heading level before after y, ⟨rfl, rfl, rfl, hy⟩, rfl⟩
  | element x =>
    cases h with
    | cons h1 h2 =>
      cases h2
      obtain ⟨y, rfl, hy⟩ := h1.one_left
      exact ⟨.element y, hy, rfl⟩
  | paragraph xs =>
    suffices ∃ ys, List.Forall₂ R xs ys ∧ ys.map (fun x => DLine.one [] x []) = ls by
      obtain ⟨ys, h1, h2⟩ := this
      exact ⟨.paragraph ys, h1, h2⟩
    rw [Blk.dlines] at h
    induction xs generalizing ls with
    | nil => cases h; exact ⟨[], .nil, rfl⟩
    | cons x xs ih =>
      cases h with
      | cons h1 h2 =>
        obtain ⟨y, rfl, hy⟩ := h1.one_left
        obtain ⟨ys, h3, rfl⟩ := ih _ h2
        exact ⟨y :: ys, .cons hy h3, rfl⟩
  | list t =>
    obtain ⟨t', h1, h2⟩ := tree_unflatten [] t ls h
    exact ⟨.list t', h1, h2⟩
  | table t =>
    obtain ⟨t', h1, h2⟩ := table_unflatten t ls h
    exact ⟨.table t', h1, h2⟩

theorem doc_unflatten {α β : Type} {R : α → β → Prop} (d : List (Nat × Blk α)) (ls : List (DLine β))
    (h : List.Forall₂ (DLineRel R) (docLines d) ls) : ∃ d', DocRel R d d' ∧ docLines d' = ls := by
  induction d generalizing ls with
  | nil => cases h; exact ⟨[], .nil, rfl⟩
  | cons b d ih =>
    rw [docLines, List.flatMap_cons, List.append_assoc] at h
    obtain ⟨c₁, c₂, rfl, h1, h2⟩ := forall₂_append_left h
    obtain ⟨c₂, c₃, rfl, h3, h4⟩ := forall₂_append_left h2
    obtain ⟨b', h5, rfl⟩ := blk_unflatten b.2 c₂ h3
    obtain ⟨d', h6, rfl⟩ := ih c₃ h4
    have : c₁ = List.replicate b.1 .blank := by
      clear h h2
      generalize b.1 = n at h1
      induction n generalizing c₁ with
      | zero => cases h1; rfl
      | succ n ihn =>
        rw [List.replicate_succ] at h1
        cases h1 with
        | @cons _ l _ _ h1 h2 =>
          rw [ihn _ h2, List.replicate_succ]
          cases l with
          | blank => rfl
          | one _ _ _ => exact h1.elim
          | pieces _ => exact h1.elim
    subst this
    exact ⟨(b.1, b') :: d', .cons ⟨rfl, h5⟩ h6, by simp [docLines]⟩

/-! ### Articles of atoms -/

/-- The atoms of a text and its HTML. -/
abbrev Leaf := List Atom × Str

def pieceAtoms : Str ⊕ Leaf → List Atom
  | .inl s => [.text s]
  | .inr x => x.1

def lineAtoms : DLine Leaf → List Atom
  | .blank => []
  | .one pre x post => .text pre :: (x.1 ++ [.text post])
  | .pieces ps => ps.flatMap pieceAtoms

def flatLines : List (DLine Leaf) → List Atom
  | [] => []
  | [l] => lineAtoms l
  | l :: l' :: ls => lineAtoms l ++ .text b!"\n" :: flatLines (l' :: ls)

def pieceStr : Str ⊕ Leaf → Str
  | .inl s => s
  | .inr x => srcs x.1

def lineStr : DLine Leaf → Str
  | .blank => []
  | .one pre x post => pre ++ srcs x.1 ++ post
  | .pieces ps => ps.flatMap pieceStr

theorem srcs_pieceAtoms (p : Str ⊕ Leaf) : srcs (pieceAtoms p) = pieceStr p := by
  cases p <;> simp [pieceAtoms, pieceStr, Atom.src]

theorem srcs_lineAtoms (l : DLine Leaf) : srcs (lineAtoms l) = lineStr l := by
  cases l with
  | pieces ps =>
    rw [lineAtoms, lineStr]
    induction ps with
    | nil => rfl
    | cons p ps ih => rw [List.flatMap_cons, srcs_append, ih, srcs_pieceAtoms, List.flatMap_cons]
  | _ => simp [lineAtoms, lineStr, Atom.src]

theorem srcs_flatLines (ls : List (DLine Leaf)) : srcs (flatLines ls) = join b!"\n" (ls.map lineStr) := by
  induction ls with
  | nil => rfl
  | cons l ls ih =>
    cases ls with
    | nil => rw [flatLines, srcs_lineAtoms]; rfl
    | cons l' ls =>
      rw [flatLines, srcs_append, srcs_cons, ih, srcs_lineAtoms, List.map_cons (a := l), join_cons_of_ne_nil (p := lineStr l) (by simp)]
      simp [Atom.src]

theorem mem_flatLines {ls : List (DLine Leaf)} {a : Atom} (h : a ∈ flatLines ls) : a = .text b!"\n" ∨ ∃ l ∈ ls, a ∈ lineAtoms l := by
  induction ls with
  | nil => simp [flatLines] at h
  | cons l ls ih =>
    cases ls with
    | nil => exact Or.inr ⟨l, by simp, h⟩
    | cons l' ls =>
      rw [flatLines, List.mem_append, List.mem_cons] at h
      rcases h with h | rfl | h
      · exact Or.inr ⟨l, by simp, h⟩
      · exact Or.inl rfl
      · rcases ih h with h | ⟨x, hx, h⟩
        · exact Or.inl h
        · exact Or.inr ⟨x, by simp at hx ⊢; tauto, h⟩

/-- The same HTML, and related atoms. -/
def LeafRel (S : Atom → Atom → Prop) (x y : Leaf) : Prop := List.Forall₂ S x.1 y.1 ∧ y.2 = x.2

theorem line_unflatten {S : Atom → Atom → Prop} (hS : ∀ t b, S (.text t) b → b = .text t) (l : DLine Leaf) (bs : List Atom)
    (h : List.Forall₂ S (lineAtoms l) bs) : ∃ l', DLineRel (LeafRel S) l l' ∧ lineAtoms l' = bs := by
  cases l with
  | blank => cases h; exact ⟨.blank, trivial, rfl⟩
  | one pre x post =>
    rw [lineAtoms] at h
    cases h with
    | cons h1 h2 =>
      obtain ⟨c₁, c₂, rfl, h3, h4⟩ := forall₂_append_left h2
      cases h4 with
      | cons h4 h5 =>
        cases h5
        rw [hS _ _ h1, hS _ _ h4]
        exact ⟨.one pre (c₁, x.2) post, ⟨rfl, ⟨h3, rfl⟩, rfl⟩, rfl⟩
  | pieces ps =>
    obtain ⟨qs, h1, rfl⟩ := flatMap_unflatten (f' := pieceAtoms) (R := PieceRel (LeafRel S)) (fun p as hp => by
      cases p with
      | inl s =>
        cases hp with
        | cons h1 h2 =>
          cases h2
          rw [hS _ _ h1]
          exact ⟨.inl s, rfl, rfl⟩
      | inr x => exact ⟨.inr (as, x.2), ⟨hp, rfl⟩, rfl⟩) ps bs h
    exact ⟨.pieces qs, h1, rfl⟩

theorem lines_unflatten {S : Atom → Atom → Prop} (hS : ∀ t b, S (.text t) b → b = .text t) (ls : List (DLine Leaf)) (bs : List Atom)
    (h : List.Forall₂ S (flatLines ls) bs) : ∃ ls', List.Forall₂ (DLineRel (LeafRel S)) ls ls' ∧ flatLines ls' = bs := by
  induction ls generalizing bs with
  | nil => cases h; exact ⟨[], .nil, rfl⟩
  | cons l ls ih =>
    cases ls with
    | nil =>
      obtain ⟨l', h1, h2⟩ := line_unflatten hS l bs h
      exact ⟨[l'], .cons h1 .nil, h2⟩
    | cons m ls =>
      rw [flatLines] at h
      obtain ⟨c₁, c₂, rfl, h3, h4⟩ := forall₂_append_left h
      cases h4 with
      | cons h4 h5 =>
        obtain ⟨l', h1, rfl⟩ := line_unflatten hS l c₁ h3
        obtain ⟨ls', h6, rfl⟩ := ih _ h5
        cases h6 with
        | @cons _ m' _ ms h6 h7 =>
          exact ⟨l' :: m' :: ms, .cons h1 (.cons h6 h7), by rw [hS _ _ h4, flatLines]⟩

/-- The text of an article as atoms. -/
def flatDoc (d : List (Nat × Blk Leaf)) : List Atom := flatLines (docLines d)

theorem flatDoc_unflatten {S : Atom → Atom → Prop} (hS : ∀ t b, S (.text t) b → b = .text t) (d : List (Nat × Blk Leaf)) (bs : List Atom)
    (h : List.Forall₂ S (flatDoc d) bs) : ∃ d', DocRel (LeafRel S) d d' ∧ flatDoc d' = bs ∧
      List.Forall₂ (DLineRel (LeafRel S)) (docLines d) (docLines d') := by
  obtain ⟨ls', h1, h2⟩ := lines_unflatten hS _ _ h
  obtain ⟨d', h3, rfl⟩ := doc_unflatten d ls' h1
  exact ⟨d', h3, h2, h1⟩

/-! ### Conditions for all texts of an article -/

def DLine.All {α : Type} (p : α → Prop) : DLine α → Prop
  | .blank => True
  | .one _ x _ => p x
  | .pieces ps => ∀ x, .inr x ∈ ps → p x

mutual
theorem treeWellFormed_rel {α β : Type} {R : α → β → Prop} {p : ListMark → α → Prop} {q : ListMark → β → Prop}
    (hpq : ∀ c a b, p c a → R a b → q c b) : ∀ (t : TreeList α) (t' : TreeList β), TreeRel R t t' → t.WellFormed p → t'.WellFormed q
  | .mk m items, .mk m' items', h, hw => by
    obtain ⟨rfl, h⟩ := h
    rw [TreeList.WellFormed] at hw ⊢
    refine ⟨?_, itemsWellFormed_rel hpq m true items items' h hw.2⟩
    rintro rfl
    cases items with
    | nil => exact hw.1 rfl
    | cons i _ => cases i; simp [ItemsRel] at h
theorem itemsWellFormed_rel {α β : Type} {R : α → β → Prop} {p : ListMark → α → Prop} {q : ListMark → β → Prop}
    (hpq : ∀ c a b, p c a → R a b → q c b) (m : ListMark) : ∀ (first : Bool) (items : List (TreeItem α)) (items' : List (TreeItem β)),
    ItemsRel R items items' → treeItemsWellFormed p m first items → treeItemsWellFormed q m first items'
  | _, [], [], _, _ => by rw [treeItemsWellFormed]; trivial
  | first, .mk c x subs :: rest, .mk c' y subs' :: rest', h, hw => by
    rw [ItemsRel] at h
    obtain ⟨rfl, h1, h2, h3⟩ := h
    rw [treeItemsWellFormed] at hw ⊢
    exact ⟨hw.1, hpq c x y hw.2.1 h1, treesWellFormed_rel hpq subs subs' h2 hw.2.2.1, itemsWellFormed_rel hpq m false rest rest' h3 hw.2.2.2⟩
  | _, [], _ :: _, h, _ => by simp [ItemsRel] at h
  | _, .mk _ _ _ :: _, [], h, _ => by simp [ItemsRel] at h
theorem treesWellFormed_rel {α β : Type} {R : α → β → Prop} {p : ListMark → α → Prop} {q : ListMark → β → Prop}
    (hpq : ∀ c a b, p c a → R a b → q c b) : ∀ (subs : List (TreeList α)) (subs' : List (TreeList β)),
    TreesRel R subs subs' → treesWellFormed p subs → treesWellFormed q subs'
  | [], [], _, _ => by rw [treesWellFormed]; trivial
  | l :: rest, l' :: rest', h, hw => by
    rw [TreesRel] at h
    rw [treesWellFormed] at hw ⊢
    refine ⟨treeWellFormed_rel hpq l l' h.1 hw.1, ?_, treesWellFormed_rel hpq rest rest' h.2 hw.2.2⟩
    have hm : ∀ (l : TreeList α) (l' : TreeList β), TreeRel R l l' → l.mark = l'.mark := by
      intro l l' h; cases l; cases l'; exact h.1
    intro x hx
    match rest, rest', h.2 with
    | [], [], _ => simp at hx
    | r :: _, r' :: _, h2 =>
      rw [TreesRel] at h2
      simp only [List.head?_cons, Option.mem_def, Option.some.injEq] at hx
      subst hx
      rw [← hm _ _ h.1, ← hm _ _ h2.1]
      exact hw.2.1 r (by simp)
    | [], _ :: _, h2 => simp [TreesRel] at h2
    | _ :: _, [], h2 => simp [TreesRel] at h2
  | [], _ :: _, h, _ => by simp [TreesRel] at h
  | _ :: _, [], h, _ => by simp [TreesRel] at h
end

theorem TreeRel.mark {α β : Type} {R : α → β → Prop} {l : TreeList α} {l' : TreeList β} (h : TreeRel R l l') : l.mark = l'.mark := by
  cases l; cases l'; exact h.1

mutual
theorem treeHtml_rel {α β : Type} {R : α → β → Prop} {f : α → Str} {g : β → Str} (hfg : ∀ a b, R a b → f a = g b) :
    ∀ (t : TreeList α) (t' : TreeList β), TreeRel R t t' → t.html f = t'.html g
  | .mk m items, .mk m' items', h => by
    obtain ⟨rfl, h⟩ := h
    rw [TreeList.html, TreeList.html, itemsHtml_rel hfg items items' h]
theorem itemsHtml_rel {α β : Type} {R : α → β → Prop} {f : α → Str} {g : β → Str} (hfg : ∀ a b, R a b → f a = g b) :
    ∀ (items : List (TreeItem α)) (items' : List (TreeItem β)), ItemsRel R items items' → treeItemsHtml f items = treeItemsHtml g items'
  | [], [], _ => by rw [treeItemsHtml, treeItemsHtml]
  | .mk c x subs :: rest, .mk c' y subs' :: rest', h => by
    rw [ItemsRel] at h
    obtain ⟨rfl, h1, h2, h3⟩ := h
    rw [treeItemsHtml, treeItemsHtml, hfg x y h1, treesHtml_rel hfg subs subs' h2, itemsHtml_rel hfg rest rest' h3]
  | [], _ :: _, h => by simp [ItemsRel] at h
  | .mk _ _ _ :: _, [], h => by simp [ItemsRel] at h
theorem treesHtml_rel {α β : Type} {R : α → β → Prop} {f : α → Str} {g : β → Str} (hfg : ∀ a b, R a b → f a = g b) :
    ∀ (subs : List (TreeList α)) (subs' : List (TreeList β)), TreesRel R subs subs' → treesHtml f subs = treesHtml g subs'
  | [], [], _ => by rw [treesHtml, treesHtml]
  | l :: rest, l' :: rest', h => by
    rw [TreesRel] at h
    rw [treesHtml, treesHtml, treeHtml_rel hfg l l' h.1, treesHtml_rel hfg rest rest' h.2]
  | [], _ :: _, h => by simp [TreesRel] at h
  | _ :: _, [], h => by simp [TreesRel] at h
end

mutual
/-- A condition for all texts of a list. -/
theorem tree_all {α : Type} {p : ListMark → Nat × α → Prop} {q : α → Prop} (hpq : ∀ c a, p c a → q a.2) (pre : Str) :
    ∀ (t : TreeList (Nat × α)), t.WellFormed p → ∀ l ∈ TreeList.dlines pre t, l.All q
  | .mk m items, hw => by
    rw [TreeList.WellFormed] at hw
    rw [TreeList.dlines]
    exact items_all hpq pre m true items hw.2
theorem items_all {α : Type} {p : ListMark → Nat × α → Prop} {q : α → Prop} (hpq : ∀ c a, p c a → q a.2) (pre : Str) (m : ListMark) :
    ∀ (first : Bool) (items : List (TreeItem (Nat × α))), treeItemsWellFormed p m first items → ∀ l ∈ treeItemsDlines pre items, l.All q
  | _, [], _ => by simp [treeItemsDlines]
  | first, .mk c x subs :: rest, hw => by
    rw [treeItemsWellFormed] at hw
    rw [treeItemsDlines]
    intro l hl
    rw [List.mem_cons, List.mem_append] at hl
    rcases hl with rfl | hl | hl
    · exact hpq c x hw.2.1
    · exact trees_all hpq _ subs hw.2.2.1 l hl
    · exact items_all hpq pre m false rest hw.2.2.2 l hl
theorem trees_all {α : Type} {p : ListMark → Nat × α → Prop} {q : α → Prop} (hpq : ∀ c a, p c a → q a.2) (pre : Str) :
    ∀ (subs : List (TreeList (Nat × α))), treesWellFormed p subs → ∀ l ∈ treesDlines pre subs, l.All q
  | [], _ => by simp [treesDlines]
  | t :: rest, hw => by
    rw [treesWellFormed] at hw
    rw [treesDlines]
    intro l hl
    rw [List.mem_append] at hl
    rcases hl with hl | hl
    · exact tree_all hpq pre t hw.1 l hl
    · exact trees_all hpq pre rest hw.2.2 l hl
end

/-! ### Tables -/

theorem mem_cellPieces {α : Type} {c : DocCell α} {x : α} (h : .inr x ∈ cellPieces c) : c.text = some x := by
  obtain ⟨before, attributes, text, after⟩ := c
  cases text <;> simp [cellPieces] at h ⊢
  exact h.symm

theorem mem_cellsPieces {α : Type} {l : DocCells α} {p : Str ⊕ α} (h : p ∈ cellsPieces l) :
    p = .inl [cellMark l.heading] ∨ p = .inl [cellMark l.heading, cellMark l.heading] ∨ ∃ c ∈ l.cells, p ∈ cellPieces c := by
  simp only [cellsPieces, List.mem_cons, List.mem_append, List.mem_flatMap, otherPieces] at h
  rcases h with h | h | ⟨c, hc, h | h⟩
  · exact Or.inl h
  · exact Or.inr (Or.inr ⟨l.first, by simp [DocCells.cells], h⟩)
  · exact Or.inr (Or.inl h)
  · exact Or.inr (Or.inr ⟨c, by simp [DocCells.cells, hc], h⟩)

/-- The lines of a table. -/
theorem mem_tableDlines {α : Type} {t : DocTable α} {l : DLine α} (h : l ∈ tableDlines t) :
    l = .pieces [.inl (b!"{|" ++ t.attributes)] ∨ (∃ c, t.caption = some c ∧ l = captionDline c) ∨
      (∃ r ∈ t.rows, ∃ s, r.separator = some s ∧ l = .pieces [.inl (b!"|-" ++ s)]) ∨ (∃ r ∈ t.rows, ∃ cs ∈ r.lines, l = .pieces (cellsPieces cs)) ∨
      l = .pieces [.inl b!"|}"] := by
  simp only [tableDlines, List.mem_cons, List.mem_append, List.mem_flatMap, rowDlines, List.mem_map, Option.mem_toList,
    List.not_mem_nil, or_false] at h
  rcases h with h | ⟨c, hc, rfl⟩ | ⟨r, hr, ⟨s, hs, rfl⟩ | ⟨cs, hcs, rfl⟩⟩ | h
  · exact Or.inl h
  · exact Or.inr (Or.inl ⟨c, hc, rfl⟩)
  · exact Or.inr (Or.inr (Or.inl ⟨r, hr, s, hs, rfl⟩))
  · exact Or.inr (Or.inr (Or.inr (Or.inl ⟨r, hr, cs, hcs, rfl⟩)))
  · exact Or.inr (Or.inr (Or.inr (Or.inr h)))

/-- A condition for all texts of a table. -/
theorem table_all {α : Type} {p : Bool → α → Prop} {q : α → Prop} (hpq : ∀ b a, p b a → q a) {t : DocTable α} (h : t.WellFormed p) :
    ∀ l ∈ tableDlines t, l.All q := by
  intro l hl
  rcases mem_tableDlines hl with rfl | ⟨c, hc, rfl⟩ | ⟨r, hr, s, hs, rfl⟩ | ⟨r, hr, cs, hcs, rfl⟩ | rfl
  · simp [DLine.All]
  · intro x hx
    simp only [List.mem_cons, reduceCtorEq, Sum.inr.injEq, List.not_mem_nil, or_false, false_or] at hx
    subst hx
    exact hpq _ _ (h.caption c hc)
  · simp [DLine.All]
  · intro x hx
    rcases mem_cellsPieces hx with hx | hx | ⟨c, hc, hx⟩
    · cases hx
    · cases hx
    · exact hpq _ _ ((((h.rows r hr).2.2 cs hcs).1 c hc).2 x (mem_cellPieces hx))
  · simp [DLine.All]

theorem CellRel.wellFormed {α β : Type} {R : α → β → Prop} {p : Bool → α → Prop} {q : Bool → β → Prop} (hpq : ∀ b x y, p b x → R x y → q b y)
    {c : DocCell α} {c' : DocCell β} (h : CellRel R c c') (hw : c.WellFormed p) : c'.WellFormed q := by
  obtain ⟨before, attributes, text, after⟩ := c
  obtain ⟨before', attributes', text', after'⟩ := c'
  obtain ⟨h1, h2, h3, h4⟩ := h
  cases h1
  cases h2
  cases h4
  cases h3 with
  | none => exact ⟨fun a ha => ⟨(hw.1 a ha).1, fun _ => (hw.1 a ha).2 rfl⟩, by simp⟩
  | some h =>
    refine ⟨fun a ha => ⟨(hw.1 a ha).1, by simp⟩, ?_⟩
    intro y hy
    cases hy
    exact hpq _ _ _ (hw.2 _ rfl) h

theorem forall₂_mem_right {α β : Type} {R : α → β → Prop} {as : List α} {bs : List β} (h : List.Forall₂ R as bs) {b : β} (hb : b ∈ bs) :
    ∃ a ∈ as, R a b := by
  induction h with
  | nil => simp at hb
  | cons h1 _ ih =>
    rcases List.mem_cons.mp hb with rfl | hb
    · exact ⟨_, by simp, h1⟩
    · obtain ⟨a, ha, h⟩ := ih hb
      exact ⟨a, by simp [ha], h⟩

theorem CellsRel.cells {α β : Type} {R : α → β → Prop} {l : DocCells α} {l' : DocCells β} (h : CellsRel R l l') :
    List.Forall₂ (CellRel R) l.cells l'.cells := .cons h.first h.others

theorem TableRel.wellFormed {α β : Type} {R : α → β → Prop} {p : Bool → α → Prop} {q : Bool → β → Prop} (hpq : ∀ b x y, p b x → R x y → q b y)
    {t : DocTable α} {t' : DocTable β} (h : TableRel R t t') (hw : t.WellFormed p) : t'.WellFormed q := by
  refine ⟨h.attributes ▸ hw.attributes, ?_, ?_, ?_⟩
  · intro y hy
    obtain ⟨-, h2, -⟩ := h
    rw [show t'.caption = some y from hy] at h2
    cases hc : t.caption with
    | none => rw [hc] at h2; cases h2
    | some x =>
      rw [hc] at h2
      cases h2 with
      | some h2 => exact hpq _ _ _ (hw.caption x hc) h2.2
  · intro r' hr'
    obtain ⟨r, hr, h1⟩ := forall₂_mem_right h.rows hr'
    refine ⟨h1.separator ▸ (hw.rows r hr).1, ?_, ?_⟩
    · intro e
      have := h1.lines
      rw [e] at this
      cases h2 : r.lines with
      | nil => exact (hw.rows r hr).2.1 h2
      | cons _ _ => rw [h2] at this; cases this
    · intro l' hl'
      obtain ⟨l, hl, h2⟩ := forall₂_mem_right h1.lines hl'
      refine ⟨?_, ?_⟩
      · intro c' hc'
        obtain ⟨c, hc, h3⟩ := forall₂_mem_right h2.cells hc'
        exact h3.wellFormed hpq (((hw.rows r hr).2.2 l hl).1 c hc)
      · intro ho ht
        rw [← h2.first.before, ← h2.first.after]
        refine ((hw.rows r hr).2.2 l hl).2 ?_ ?_
        · intro e
          have := h2.others
          rw [e] at this
          cases h4 : l'.others with
          | nil => exact ho h4
          | cons _ _ => rw [h4] at this; cases this
        · have := h2.first.text
          rw [ht] at this
          cases h4 : l.first.text with
          | none => rfl
          | some _ => rw [h4] at this; cases this
  · have h1 : List.Forall₂ (RowRel R) t.rows.tail t'.rows.tail := by
      have := h.rows
      generalize t.rows = a at this
      generalize t'.rows = b at this
      cases this with
      | nil => exact .nil
      | cons _ h => exact h
    intro r' hr'
    obtain ⟨r, hr, h2⟩ := forall₂_mem_right h1 hr'
    exact h2.separator ▸ hw.separators r hr

/-- A condition for all texts that holds besides another one. -/
theorem table_and {α : Type} {p : Bool → α → Prop} {q : α → Prop} {t : DocTable α} (h : t.WellFormed p) (hq : ∀ l ∈ tableDlines t, l.All q) :
    t.WellFormed fun b x => p b x ∧ q x := by
  refine ⟨h.attributes, ?_, ?_, h.separators⟩
  · intro c hc
    refine ⟨h.caption c hc, hq (captionDline c) ?_ c.2 (by simp)⟩
    simp only [tableDlines, List.mem_cons, List.mem_append, List.mem_map, Option.mem_toList]
    exact Or.inr (Or.inl ⟨c, hc, rfl⟩)
  · intro r hr
    obtain ⟨h1, h2, h3⟩ := h.rows r hr
    refine ⟨h1, h2, fun l hl => ⟨fun c hc => ⟨((h3 l hl).1 c hc).1, fun x hx => ⟨((h3 l hl).1 c hc).2 x hx, ?_⟩⟩, (h3 l hl).2⟩⟩
    refine hq (.pieces (cellsPieces l)) ?_ x ?_
    · simp only [tableDlines, List.mem_cons, List.mem_append, List.mem_flatMap, rowDlines]
      exact Or.inr (Or.inr (Or.inl ⟨r, hr, Or.inr ⟨l, hl, by simp⟩⟩))
    · have : .inr x ∈ cellPieces c := by
        rw [cellPieces, show c.text = some x from hx]
        simp
      rcases List.mem_cons.mp hc with rfl | hc
      · simp only [cellsPieces, List.mem_cons, List.mem_append]
        exact Or.inr (Or.inl this)
      · simp only [cellsPieces, List.mem_cons, List.mem_append, List.mem_flatMap, otherPieces]
        exact Or.inr (Or.inr ⟨c, hc, Or.inr this⟩)

theorem table_imp {α : Type} {p q : Bool → α → Prop} (hpq : ∀ b x, p b x → q b x) {t : DocTable α} (h : t.WellFormed p) : t.WellFormed q := by
  refine ⟨h.attributes, fun c hc => hpq _ _ (h.caption c hc), ?_, h.separators⟩
  intro r hr
  obtain ⟨h1, h2, h3⟩ := h.rows r hr
  exact ⟨h1, h2, fun l hl => ⟨fun c hc => ⟨((h3 l hl).1 c hc).1, fun x hx => hpq _ _ (((h3 l hl).1 c hc).2 x hx)⟩, (h3 l hl).2⟩⟩

theorem map_rel {γ δ ε : Type} {R : γ → δ → Prop} {f : γ → ε} {g : δ → ε} (h : ∀ a b, R a b → f a = g b) {as : List γ} {bs : List δ}
    (hr : List.Forall₂ R as bs) : as.map f = bs.map g := by
  induction hr with
  | nil => rfl
  | cons h1 _ ih => rw [List.map_cons, List.map_cons, h _ _ h1, ih]

theorem tableHtml_rel {α β : Type} {R : α → β → Prop} {f : α → Str} {g : β → Str} (hfg : ∀ a b, R a b → f a = g b)
    {t : DocTable α} {t' : DocTable β} (h : TableRel R t t') : t.html f = t'.html g := by
  have hcell : ∀ (b : Bool) (c : DocCell α) (c' : DocCell β), CellRel R c c' → c.html f b = c'.html g b := by
    rintro b ⟨before, attributes, text, after⟩ ⟨before', attributes', text', after'⟩ ⟨h1, h2, h3, h4⟩
    cases h1
    cases h2
    cases h4
    cases h3 with
    | none => rfl
    | some h => simp only [DocCell.html]; rw [hfg _ _ h]
  have hline : ∀ (l : DocCells α) (l' : DocCells β), CellsRel R l l' → l.cells.map (DocCell.html f l.heading) = l'.cells.map (DocCell.html g l'.heading) := by
    intro l l' h
    rw [← h.heading]
    exact map_rel (hcell _) h.cells
  have hrow : ∀ (r : DocRow α) (r' : DocRow β), RowRel R r r' → r.html f = r'.html g := by
    intro r r' h
    rw [DocRow.html, DocRow.html, List.flatMap_def, List.flatMap_def, map_rel hline h.lines]
  have hcap : (match t.caption with
      | none => []
      | some (_, x) => f x) = (match t'.caption with
      | none => []
      | some (_, x) => g x) := by
    have h2 := h.caption
    cases hc : t.caption with
    | none =>
      rw [hc] at h2
      cases hc' : t'.caption with
      | none => rfl
      | some _ => rw [hc'] at h2; cases h2
    | some x =>
      rw [hc] at h2
      cases hc' : t'.caption with
      | none => rw [hc'] at h2; cases h2
      | some y =>
        rw [hc'] at h2
        cases h2 with
        | some h2 => exact hfg _ _ h2.2
  rw [DocTable.html, DocTable.html, map_rel hrow h.rows]
  congr 2

end Verif.Model
