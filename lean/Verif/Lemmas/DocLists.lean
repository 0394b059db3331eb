import Verif.Lemmas.DocTree
import Verif.Props.Lists

/-!
# The lists of an article
-/

namespace Verif.Model
open Verif.Go Verif.Spec Verif.Lemmas Verif.Props
open scoped List

/-- A text of which all elements are known. -/
structure LeafOk (env : ParserEnv) (x : Leaf) : Prop where
  ok : ∀ a ∈ x.1, a.Ok env
  oneLine : (0x0A : Byte) ∉ srcs x.1
  edges : EdgesOk x.1
  texts : ∀ t, .text t ∈ x.1 → t ≠ []
  nonEmpty : x.1 ≠ []
  braces : NoBraces x.1

/-- A text in which all links have been replaced. -/
structure LeafFinal (env : ParserEnv) (html : HtmlEnv) (tokens : List (Str × Token)) (x : Leaf) : Prop where
  leaf : LeafOk env x
  plain : ∀ a ∈ x.1, a.isPlain = true
  shows : LineShows html tokens x.1 x.2

theorem LeafFinal.extend {env : ParserEnv} {html : HtmlEnv} {tokens tokens' : List (Str × Token)} {x : Leaf}
    (h : LeafFinal env html tokens x) (he : TokensExtend tokens tokens') : LeafFinal env html tokens' x := ⟨h.leaf, h.plain, h.shows.extend he⟩

theorem LeafFinal.calm {env : ParserEnv} {html : HtmlEnv} {tokens : List (Str × Token)} {x : Leaf}
    (h : LeafFinal env html tokens x) (n : Nat) : CalmLine (spaces n ++ srcs x.1) := calm_atoms h.leaf.ok h.leaf.braces h.plain h.leaf.edges h.leaf.oneLine n

theorem LeafOk.srcs_ne {env : ParserEnv} {x : Leaf} (h : LeafOk env x) : srcs x.1 ≠ [] := by
  obtain ⟨a, r, e⟩ := List.exists_cons_of_ne_nil h.nonEmpty
  rw [e, srcs_cons]
  have : a.src ≠ [] := by
    by_cases ht : a.isText = true
    · cases a with
      | text t => exact h.texts t (by simp [e])
      | _ => simp [Atom.isText] at ht
    · obtain ⟨c, r, e, _⟩ := Atom.src_head (a := a) (by simpa using ht)
      simp [e]
  simp [this]

theorem textOk_spaces (n : Nat) : TextOk (spaces n) := by
  have hm : ∀ c, c ∈ spaces n → c = 0x20 := fun c hc => List.eq_of_mem_replicate hc
  have hm' : ∀ c : Byte, c ≠ 0x20 → c ∉ spaces n := fun c hc h => hc (hm c h)
  refine ⟨?_, ?_, ?_, ?_, tagSafe_of_no_lt (hm' _ (by decide)), fun h => absurd h (hm' _ (by decide))⟩
  · intro c hc
    rw [hm c hc]
    decide
  · intro c hc
    exact no_pair_of_not_mem (hm' c (by rintro rfl; revert hc; decide))
  · intro h
    exact hm' 0x27 (by decide) (List.mem_of_mem_head? h)
  · intro c hc
    exact last_of_not_mem (hm' c (by rintro rfl; revert hc; decide))

/-! ### The beginning of an item -/

/-- The HTML does not begin with white space and not like an item of a list. -/
def ItemStart (h : Str) : Prop := (∀ sp ∈ spaceChars, ¬ sp <+: h) ∧ h ≠ [] ∧ ¬ b!"<l" <+: h

theorem trimSpaceLeft_spaces {s : Str} (h : ∀ sp ∈ spaceChars, ¬ sp <+: s) (n : Nat) : trimSpaceLeft (spaces n ++ s) = s := by
  rw [trimSpaceLeft]
  induction n with
  | zero => exact trimLeftBy_of_clean spaceChars_ne h
  | succ n ih =>
    rw [spaces, List.replicate_succ, List.cons_append, trimLeftBy, trimLeftGo]
    have : headLen spaceChars (0x20 :: (List.replicate n 0x20 ++ s)) = 1 := by
      simp [headLen, spaceChars, List.find?, List.isPrefixOf]
    rw [this, if_neg (by simp)]
    exact ih

theorem ItemStart.notLi {h : Str} (hs : ItemStart h) (rest : Str) (hr : rest = [] ∨ ∃ r, rest = 0x0A :: r) (n : Nat) :
    ¬ b!"<li" <+: trimSpace (spaces n ++ h ++ rest) := by
  obtain ⟨h1, hne, h2⟩ := hs
  have h3 : ∀ sp ∈ spaceChars, ¬ sp <+: h ++ rest := by
    intro sp hsp hp
    rcases hr with rfl | ⟨r, rfl⟩
    · exact h1 sp hsp (by simpa using hp)
    · by_cases hn : (0x0A : Byte) ∈ sp
      · have : sp = [0x0A] := by
          have hall : ∀ sp ∈ spaceChars, (0x0A : Byte) ∈ sp → sp = [0x0A] := by decide
          exact hall sp hsp hn
        subst this
        obtain ⟨c, r', rfl⟩ := List.exists_cons_of_ne_nil hne
        rw [List.cons_append, List.cons_prefix_cons] at hp
        exact h1 _ hsp (by rw [hp.1]; simp)
      · exact h1 sp hsp (prefix_of_prefix_sep hn hp)
  rw [trimSpace, List.append_assoc, trimSpaceLeft_spaces h3]
  intro hp
  have hp := hp.trans (trimSpaceRight_prefix _)
  have h5 : b!"<l" <+: h ++ rest := List.IsPrefix.trans ⟨b!"i", rfl⟩ hp
  match h, hne with
  | [c], _ =>
    rcases hr with rfl | ⟨r, rfl⟩
    · simp at h5
    · simp [List.cons_prefix_cons] at h5
  | c :: d :: h, _ =>
    refine h2 ?_
    simp only [List.cons_append, List.cons_prefix_cons] at h5
    rw [h5.1, h5.2.1]
    exact ⟨h, rfl⟩

/-! ### The HTML of a list -/

/-- An item as it is written. -/
def itemSrc (p : Nat × Leaf) : Str := spaces p.1 ++ srcs p.2.1

/-- An item as it is shown. -/
def itemShown (p : Nat × Leaf) : Str := spaces p.1 ++ p.2.2

theorem itemHtml_eq (c : ListMark) (h : Str) (n : Nat) (subs : List Str) (hs : ItemStart h) :
    itemHtml c.itemType (join b!"\n" ((spaces n ++ h) :: subs)) =
      c.itemOpen ++ b!"\n" ++ join b!"\n" ((spaces n ++ h) :: subs) ++ b!"\n" ++ c.itemClose := by
  have hn : hasPrefix (trimSpace (join b!"\n" ((spaces n ++ h) :: subs))) b!"<li" = false := by
    rw [← Bool.not_eq_true, hasPrefix_iff]
    cases subs with
    | nil =>
      have := hs.notLi [] (Or.inl rfl) n
      rwa [List.append_nil] at this
    | cons x subs =>
      have := hs.notLi (0x0A :: join b!"\n" (x :: subs)) (Or.inr ⟨_, rfl⟩) n
      rw [join_cons_of_ne_nil (by simp)]
      simpa using this
  cases c <;> simp [itemHtml, ListMark.itemType, ListMark.itemOpen, ListMark.itemClose, hn]

mutual
theorem expandList_tree {env : ParserEnv} {html : HtmlEnv} {tokens : List (Str × Token)} {p : ListMark → Nat × Leaf → Prop}
    (hp : ∀ c a, p c a → LeafFinal env html tokens a.2 ∧ ItemStart a.2.2) : ∀ (t : TreeList (Nat × Leaf)), t.WellFormed p →
    ∃ k, ∀ fuel, k ≤ fuel → expandList (expandString html tokens fuel) ((t.toWiki itemSrc).tree id) = pure (t.html itemShown)
  | .mk m items, hw => by
    rw [TreeList.WellFormed] at hw
    obtain ⟨k, hk⟩ := expandItems_tree hp m true items hw.2
    refine ⟨k, fun fuel hf => ?_⟩
    rw [TreeList.toWiki, WikiList.tree, expandList, hk fuel hf, TreeList.html]
    cases m <;> simp [listHtml, ListMark.kind, ListMark.listOpen, ListMark.listClose]
theorem expandItems_tree {env : ParserEnv} {html : HtmlEnv} {tokens : List (Str × Token)} {p : ListMark → Nat × Leaf → Prop}
    (hp : ∀ c a, p c a → LeafFinal env html tokens a.2 ∧ ItemStart a.2.2) (m : ListMark) : ∀ (first : Bool) (items : List (TreeItem (Nat × Leaf))),
    treeItemsWellFormed p m first items →
    ∃ k, ∀ fuel, k ≤ fuel → expandItems (expandString html tokens fuel) (itemsTree id m (treeItemsToWiki itemSrc items)) =
      pure (treeItemsHtml itemShown items)
  | _, [], _ => ⟨0, fun fuel _ => by rw [treeItemsToWiki, itemsTree, expandItems, treeItemsHtml]⟩
  | first, .mk c x subs :: rest, hw => by
    rw [treeItemsWellFormed] at hw
    obtain ⟨h1, h2⟩ := hp c x hw.2.1
    obtain ⟨k1, e1⟩ := expandString_atoms (html := html) (tokens := tokens) (as := .text (spaces x.1) :: x.2.1) (h := spaces x.1 ++ x.2.2)
      (env := env) (by
        intro a ha
        rcases List.mem_cons.mp ha with rfl | ha
        · exact textOk_spaces _
        · exact h1.leaf.ok a ha) (by
        intro a ha
        rcases List.mem_cons.mp ha with rfl | ha
        · rfl
        · exact h1.plain a ha) (LineShows.cons rfl h1.shows)
    obtain ⟨k2, e2⟩ := expandSubLists_tree hp subs hw.2.2.1
    obtain ⟨k3, e3⟩ := expandItems_tree hp m false rest hw.2.2.2
    refine ⟨max k1 (max k2 k3), fun fuel hf => ?_⟩
    have e1 : expandString html tokens fuel (itemSrc x) = pure (spaces x.1 ++ x.2.2) := e1 fuel (by omega)
    rw [treeItemsToWiki, itemsTree, expandItems, expandItem, e2 fuel (by omega), e3 fuel (by omega), id, e1, treeItemsHtml]
    show (pure (itemHtml c.itemType (join b!"\n" ((spaces x.1 ++ x.2.2) :: treesHtml itemShown subs)) :: treeItemsHtml itemShown rest) : ExpM _) = _
    rw [itemHtml_eq c _ _ _ h2]
    rfl
theorem expandSubLists_tree {env : ParserEnv} {html : HtmlEnv} {tokens : List (Str × Token)} {p : ListMark → Nat × Leaf → Prop}
    (hp : ∀ c a, p c a → LeafFinal env html tokens a.2 ∧ ItemStart a.2.2) : ∀ (subs : List (TreeList (Nat × Leaf))), treesWellFormed p subs →
    ∃ k, ∀ fuel, k ≤ fuel → expandSubLists (expandString html tokens fuel) (listsTree id (treesToWiki itemSrc subs)) =
      pure (treesHtml itemShown subs)
  | [], _ => ⟨0, fun fuel _ => by rw [treesToWiki, listsTree, expandSubLists, treesHtml]⟩
  | l :: rest, hw => by
    rw [treesWellFormed] at hw
    obtain ⟨k1, e1⟩ := expandList_tree hp l hw.1
    obtain ⟨k2, e2⟩ := expandSubLists_tree hp rest hw.2.2
    refine ⟨max k1 k2, fun fuel hf => ?_⟩
    rw [treesToWiki, listsTree, expandSubLists, e1 fuel (by omega), e2 fuel (by omega), treesHtml]
    rfl
end

/-! ### The token of a list -/

mutual
theorem tokenizedList_ends {env : ParserEnv} {p : ListMark → Nat × Leaf → Prop}
    (hp : ∀ c a, p c a → CalmLine (itemSrc a) ∧ itemSrc a ≠ []) : ∀ (t : TreeList (Nat × Leaf)) (_ : t.WellFormed p) (s : TokState) (_ : KeysCreated s),
    ∃ i s', Ends (fun n => tokenizedList (tokenizeContent env n) (t.toWiki itemSrc)) s ((t.toWiki itemSrc).tree id, tokenKey t.mark.kindName i) s' ∧
      Grows s s' ∧ lookupToken s'.tokenMap (tokenKey t.mark.kindName i) = some (.list ((t.toWiki itemSrc).tree id))
  | .mk m items, hw, s, hs => by
    rw [TreeList.WellFormed] at hw
    obtain ⟨s1, e1, g1⟩ := tokenizedItems_ends hp m true items hw.2 s hs
    obtain ⟨s2, e2, g2, l2⟩ := Ends.newToken m.kindName (.list (.mk m.kind (itemsTree id m (treeItemsToWiki itemSrc items)))) s1
    refine ⟨s1.counter, s2, ?_, g1.trans g2, l2⟩
    simp only [TreeList.toWiki, tokenizedList]
    exact e1.bind (e2.bind (Ends.pure _ _))
theorem tokenizedItems_ends {env : ParserEnv} {p : ListMark → Nat × Leaf → Prop}
    (hp : ∀ c a, p c a → CalmLine (itemSrc a) ∧ itemSrc a ≠ []) (m : ListMark) : ∀ (first : Bool) (items : List (TreeItem (Nat × Leaf)))
    (_ : treeItemsWellFormed p m first items) (s : TokState) (_ : KeysCreated s),
    ∃ s', Ends (fun n => tokenizedItems (tokenizeContent env n) m (treeItemsToWiki itemSrc items)) s (itemsTree id m (treeItemsToWiki itemSrc items)) s' ∧
      Grows s s'
  | _, [], _, s, _ => ⟨s, Ends.pure _ s, Grows.refl s⟩
  | first, .mk c x subs :: rest, hw, s, hs => by
    rw [treeItemsWellFormed] at hw
    obtain ⟨k, hk⟩ := tokenizeContent_calm env (hp c x hw.2.1).1 (hp c x hw.2.1).2
    obtain ⟨s1, e1, g1⟩ := tokenizedLists_ends hp subs hw.2.2.1 s hs
    obtain ⟨s2, e2, g2⟩ := tokenizedItems_ends hp m false rest hw.2.2.2 s1 (g1.keysCreated hs)
    refine ⟨s2, ?_, g1.trans g2⟩
    simp only [treeItemsToWiki, tokenizedItems, tokenizedItem, itemsTree]
    exact ((Ends.noop s ⟨k, hk⟩).bind (e1.bind (Ends.pure [_] _))).bind (e2.bind (Ends.pure (_ :: _) _))
theorem tokenizedLists_ends {env : ParserEnv} {p : ListMark → Nat × Leaf → Prop}
    (hp : ∀ c a, p c a → CalmLine (itemSrc a) ∧ itemSrc a ≠ []) : ∀ (subs : List (TreeList (Nat × Leaf)))
    (_ : treesWellFormed p subs) (s : TokState) (_ : KeysCreated s),
    ∃ s', Ends (fun n => tokenizedLists (tokenizeContent env n) (treesToWiki itemSrc subs)) s (listsTree id (treesToWiki itemSrc subs)) s' ∧
      Grows s s'
  | [], _, s, _ => ⟨s, Ends.pure _ s, Grows.refl s⟩
  | l :: rest, hw, s, hs => by
    rw [treesWellFormed] at hw
    obtain ⟨_, s1, e1, g1, _⟩ := tokenizedList_ends hp l hw.1 s hs
    obtain ⟨s2, e2, g2⟩ := tokenizedLists_ends hp rest hw.2.2 s1 (g1.keysCreated hs)
    refine ⟨s2, ?_, g1.trans g2⟩
    simp only [treesToWiki, tokenizedLists, listsTree]
    exact e1.bind (e2.bind (Ends.pure _ _))
end

/-! ### Well-formed lists -/

mutual
theorem toWiki_wellFormed {p : ListMark → Nat × Leaf → Prop}
    (hp : ∀ c a, p c a → ItemText (itemSrc a) ∧ (c = .semicolon → (0x3A : Byte) ∉ itemSrc a)) :
    ∀ (t : TreeList (Nat × Leaf)), t.WellFormed p → (t.toWiki itemSrc).WellFormed
  | .mk m items, hw => by
    rw [TreeList.WellFormed] at hw
    rw [TreeList.toWiki, WikiList.WellFormed]
    refine ⟨?_, itemsToWiki_wellFormed hp m true items hw.2⟩
    cases items with
    | nil => exact absurd rfl hw.1
    | cons i _ => cases i; simp [treeItemsToWiki]
theorem itemsToWiki_wellFormed {p : ListMark → Nat × Leaf → Prop}
    (hp : ∀ c a, p c a → ItemText (itemSrc a) ∧ (c = .semicolon → (0x3A : Byte) ∉ itemSrc a)) (m : ListMark) :
    ∀ (first : Bool) (items : List (TreeItem (Nat × Leaf))), treeItemsWellFormed p m first items →
      itemsWellFormed m first (treeItemsToWiki itemSrc items)
  | _, [], _ => by rw [treeItemsToWiki, itemsWellFormed]; trivial
  | first, .mk c x subs :: rest, hw => by
    rw [treeItemsWellFormed] at hw
    rw [treeItemsToWiki, itemsWellFormed, WikiItem.WellFormed]
    exact ⟨⟨hw.1, (hp c x hw.2.1).1, (hp c x hw.2.1).2, treesToWiki_wellFormed hp subs hw.2.2.1⟩,
      itemsToWiki_wellFormed hp m false rest hw.2.2.2⟩
theorem treesToWiki_wellFormed {p : ListMark → Nat × Leaf → Prop}
    (hp : ∀ c a, p c a → ItemText (itemSrc a) ∧ (c = .semicolon → (0x3A : Byte) ∉ itemSrc a)) :
    ∀ (subs : List (TreeList (Nat × Leaf))), treesWellFormed p subs → listsWellFormed (treesToWiki itemSrc subs)
  | [], _ => by rw [treesToWiki, listsWellFormed]; trivial
  | l :: rest, hw => by
    rw [treesWellFormed] at hw
    rw [treesToWiki, listsWellFormed]
    have hm : ∀ (l : TreeList (Nat × Leaf)), (l.toWiki itemSrc).mark = l.mark := by
      intro l; cases l; rw [TreeList.toWiki]; rfl
    refine ⟨toWiki_wellFormed hp l hw.1, ?_, treesToWiki_wellFormed hp rest hw.2.2⟩
    intro x hx
    match rest with
    | [] => simp [treesToWiki] at hx
    | r :: _ =>
      rw [treesToWiki] at hx
      simp only [List.head?_cons, Option.mem_def, Option.some.injEq] at hx
      rw [← hx, hm, hm]
      exact hw.2.1 r (by simp)
end

/-- A line as it is written; `g` is how its text is written. -/
def strOf {α : Type} (g : α → Str) : DLine α → Str
  | .blank => []
  | .one pre x post => pre ++ g x ++ post
  | .pieces ps => ps.flatMap (Sum.elim id g)

mutual
theorem toWiki_lines_of {α : Type} (g : α → Str) (pre : Str) : ∀ (t : TreeList (Nat × α)), (t.toWiki fun p => spaces p.1 ++ g p.2).lines.map (pre ++ ·) = (TreeList.dlines pre t).map (strOf g)
  | .mk m items => by rw [TreeList.toWiki, WikiList.lines, TreeList.dlines, itemsToWiki_lines g pre m items]
theorem itemsToWiki_lines {α : Type} (g : α → Str) (pre : Str) (m : ListMark) : ∀ (items : List (TreeItem (Nat × α))),
    (itemsLines m (treeItemsToWiki (fun p => spaces p.1 ++ g p.2) items)).map (pre ++ ·) = (treeItemsDlines pre items).map (strOf g)
  | [] => by rw [treeItemsToWiki, itemsLines, treeItemsDlines]; rfl
  | .mk c x subs :: rest => by
    rw [treeItemsToWiki, itemsLines, treeItemsDlines, WikiItem.lines, List.map_append, itemsToWiki_lines g pre m rest, List.map_cons, List.map_cons,
      List.map_append, ← treesToWiki_lines g (pre ++ [c.char]) subs, indented, List.map_map]
    simp [strOf, Function.comp_def]
theorem treesToWiki_lines {α : Type} (g : α → Str) (pre : Str) : ∀ (subs : List (TreeList (Nat × α))),
    (listsLines (treesToWiki (fun p => spaces p.1 ++ g p.2) subs)).map (pre ++ ·) = (treesDlines pre subs).map (strOf g)
  | [] => by rw [treesToWiki, listsLines, treesDlines]; rfl
  | l :: rest => by
    rw [treesToWiki, listsLines, treesDlines, List.map_append, List.map_append, toWiki_lines_of g pre l, treesToWiki_lines g pre rest]
end

theorem lineStr_eq : lineStr = strOf fun x : Leaf => srcs x.1 := by
  funext l
  cases l with
  | pieces ps =>
    rw [lineStr, strOf]
    congr 1
    funext p
    cases p <;> rfl
  | _ => rfl

theorem toWiki_lines (pre : Str) (t : TreeList (Nat × Leaf)) : (t.toWiki itemSrc).lines.map (pre ++ ·) = (TreeList.dlines pre t).map lineStr := by
  rw [lineStr_eq]
  exact toWiki_lines_of (fun x : Leaf => srcs x.1) pre t

/-! ### Tables -/

theorem cellPieces_str {α : Type} (g : α → Str) (c : DocCell α) : (cellPieces c).flatMap (Sum.elim id g) = c.source g := by
  obtain ⟨before, attributes, text, after⟩ := c
  cases text <;> simp [cellPieces, DocCell.source]

theorem cellsPieces_str {α : Type} (g : α → Str) (l : DocCells α) : (cellsPieces l).flatMap (Sum.elim id g) = l.source g := by
  obtain ⟨heading, first, others⟩ := l
  rw [DocCells.source, cellsPieces, List.flatMap_cons, List.flatMap_append, cellPieces_str]
  simp only [DocCells.cells, Sum.elim_inl, id_eq, List.cons_append, List.nil_append, List.cons.injEq, true_and]
  induction others generalizing first with
  | nil => simp [join]
  | cons c others ih =>
    rw [List.map_cons, join_cons_of_ne_nil (by simp), ← ih c]
    simp [otherPieces, cellPieces_str]

theorem row_source {α : Type} (g : α → Str) (r : DocRow α) : (rowDlines r).map (strOf g) = r.source g := by
  obtain ⟨separator, lines⟩ := r
  have : (lines.flatMap fun l => [DLine.pieces (cellsPieces l)]).map (strOf g) = lines.map (DocCells.source g) := by
    induction lines with
    | nil => rfl
    | cons l lines ih => rw [List.flatMap_cons, List.map_append, ih]; simp [strOf, cellsPieces_str]
  rw [rowDlines, List.map_append, this, DocRow.source]
  cases separator <;> simp [strOf]

/-- The lines of a table as they are written. -/
theorem table_source {α : Type} (g : α → Str) (t : DocTable α) : (tableDlines t).map (strOf g) = t.source g := by
  obtain ⟨attributes, caption, rows⟩ := t
  have : (rows.flatMap rowDlines).map (strOf g) = rows.flatMap (DocRow.source g) := by
    induction rows with
    | nil => rfl
    | cons r rows ih => rw [List.flatMap_cons, List.map_append, ih, row_source, List.flatMap_cons]
  rw [tableDlines, List.map_cons, List.map_append, List.map_append, this, DocTable.source]
  cases caption <;> simp [strOf, captionDline]

end Verif.Model
