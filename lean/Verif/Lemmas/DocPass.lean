import Verif.Lemmas.DocTables

/-!
# One pass of the tokenizer over an article
-/

namespace Verif.Model
open Verif.Go Verif.Spec Verif.Lemmas Verif.Props
open scoped List

/-! ### Steps that change nothing -/

theorem onlyMath_split {c : Str} (h : OnlyMath c) : ∀ l ∈ split c b!"\n", OnlyMath l :=
  fun _ hl => h.infix (infix_of_mem_split (by simp) hl)

theorem parseGalleries_noop (env : ParserEnv) {c : Str} (h : OnlyMath c) : parseGalleries env c = pure c := by
  rw [parseGalleries, galleryLines_calm env _ (onlyMath_split h), pure_bind, join_split_self c (by simp)]

theorem parseImageMaps_noop (env : ParserEnv) {c : Str} (h : OnlyMath c) : parseImageMaps env c = pure c := by
  rw [parseImageMaps, imageMapLines_calm env _ (onlyMath_split h), pure_bind, join_split_self c (by simp)]

theorem parseImages_noop (env : ParserEnv) (rec : Rec) {c : Str} (h : ¬ b!"[[" <:+: c) (n : Nat) (hn : 1 ≤ n) : parseImages env rec n c = pure c := by
  obtain ⟨f, rfl⟩ := Nat.exists_eq_add_of_le' hn
  rw [parseImages, imageLoop, findLinkStart_calm _ _ h]

theorem parseMath_noop {c : Str} (h : TagFree c) : parseMath c = pure c := by
  rw [parseMath, findMath_calm _ h]; rfl

theorem parseTables_noop (rec : Rec) {c : Str} (h : (0x7B : Byte) ∉ c) (n : Nat) (hn : (split c b!"\n").length < n) : parseTables rec n c = pure c := by
  rw [parseTables, tableLoop_calm rec _ ?_ n hn, pure_bind, join_split_self c (by simp)]
  intro l hl hp
  refine h ((infix_of_mem_split (by simp) hl).subset (mem_of_mem_trimSpace ?_))
  exact (List.dropWhile_sublist _).subset (hp.subset (by simp))

theorem parseReferences_noop (rec : Rec) {c : Str} (h : OnlyMath c) (n : Nat) (hn : c.length < n) : parseReferences rec n c = pure c :=
  refLoop_calm rec h _ n 0 (by omega) (by omega)

/-! ### Conditions for articles -/

/-- An item of a list. -/
structure ItemGood (env : ParserEnv) (c : ListMark) (p : Nat × Leaf) : Prop where
  leaf : LeafOk env p.2
  start : ItemStart p.2.2
  colon : c = .semicolon → ∀ t, .text t ∈ p.2.1 → (0x3A : Byte) ∉ t

def BlkGood (env : ParserEnv) : Blk Leaf → Prop
  | .heading _ _ _ _ => False
  | .element x => LeafOk env x
  | .paragraph xs => ∀ x ∈ xs, LeafOk env x
  | .list t => t.WellFormed (ItemGood env)
  | .table t => t.WellFormed (CellGood env)

/-- No list continues the one before it, and each block has a line. -/
def ListsApart {α : Type} : List (Nat × Blk α) → Prop
  | [] => True
  | a :: rest => ((a.2 = .paragraph [] → a.1 ≠ 0) ∧ ∀ b ∈ rest.head?, ∀ t t', a.2 = .list t → b.2 = .list t' → b.1 = 0 → ¬ t.mark.Allows t'.mark) ∧ ListsApart rest

/-- All texts are shown as they should be. -/
def DocShows (html : HtmlEnv) (tokens : List (Str × Token)) (d : List (Nat × Blk Leaf)) : Prop :=
  ∀ l ∈ docLines d, l.All fun x => LineShows html tokens x.1 x.2

theorem SameShape.text_left {t : Str} {b : Atom} (h : SameShape (.text t) b) : b = .text t := by
  rcases h with ⟨u, h, rfl⟩ | ⟨h, _⟩
  · cases h; rfl
  · simp [Atom.isText] at h

theorem Step.text {env : ParserEnv} {html : HtmlEnv} {tokens : List (Str × Token)} : ∀ t b, Step env html tokens (.text t) b → b = .text t :=
  fun _ _ h => h.shape.text_left

theorem SameShape.text {a : Atom} {t : Str} (h : SameShape a (.text t)) : a = .text t := by
  rcases h with ⟨u, rfl, h⟩ | ⟨_, h⟩
  · cases h; rfl
  · simp [Atom.isText] at h

theorem LeafOk.step {env : ParserEnv} {html : HtmlEnv} {tokens : List (Str × Token)}  {x y : Leaf} (h : LeafOk env x) (hr : LeafRel (Step env html tokens) x y) : LeafOk env y := by
  have hsh : List.Forall₂ SameShape x.1 y.1 := hr.1.imp fun _ _ h => h.shape
  have hok : ∀ a ∈ y.1, a.Ok env := by
    intro b hb
    obtain ⟨a, ha, h1⟩ := forall₂_mem_right hr.1 hb
    exact h1.ok (h.ok a ha)
  refine ⟨hok, ?_, h.edges.step hsh, ?_, ?_, h.braces.step hsh⟩
  · rw [mem_srcs]
    rintro ⟨b, hb, hn⟩
    by_cases ht : b.isText = true
    · cases b with
      | text t =>
        obtain ⟨a, ha, h1⟩ := forall₂_mem_right hsh hb
        rw [h1.text] at ha
        exact h.oneLine (mem_srcs.mpr ⟨_, ha, hn⟩)
      | _ => simp [Atom.isText] at ht
    · exact (hok b hb).no_newline (by simpa using ht) hn
  · intro t hb
    obtain ⟨a, ha, h1⟩ := forall₂_mem_right hsh hb
    exact h.texts t (h1.text ▸ ha)
  · intro he
    have := hr.1.length_eq
    rw [he] at this
    exact h.nonEmpty (List.length_eq_zero_iff.mp this)

theorem ItemGood.step {env : ParserEnv} {html : HtmlEnv} {tokens : List (Str × Token)}  {c : ListMark} {p q : Nat × Leaf} (h : ItemGood env c p) (hr : Spaced (LeafRel (Step env html tokens)) p q) : ItemGood env c q := by
  refine ⟨h.leaf.step hr.2, hr.2.2 ▸ h.start, fun hc t ht => ?_⟩
  obtain ⟨a, ha, h1⟩ := forall₂_mem_right hr.2.1 ht
  exact h.colon hc t (h1.shape.text ▸ ha)

theorem CellGood.step {env : ParserEnv} {html : HtmlEnv} {tokens : List (Str × Token)} {atMark : Bool} {x y : Leaf} (h : CellGood env atMark x)
    (hr : LeafRel (Step env html tokens) x y) : CellGood env atMark y := by
  have hsh : List.Forall₂ SameShape x.1 y.1 := hr.1.imp fun _ _ h => h.shape
  have h1 : leadText x.1 = leadText y.1 := by rw [leadText, takeWhile_sameShape hsh, leadText]
  exact ⟨h.leaf.step hr, texts_step h.marks hsh, h1 ▸ h.start⟩

theorem BlkGood.step {env : ParserEnv} {html : HtmlEnv} {tokens : List (Str × Token)}  {b b' : Blk Leaf} (h : BlkGood env b) (hr : BlkRel (LeafRel (Step env html tokens)) b b') : BlkGood env b' := by
  cases b <;> cases b' <;> first | exact hr.elim | skip
  · exact h.elim
  · exact LeafOk.step h hr
  · intro y hy
    obtain ⟨x, hx, h1⟩ := forall₂_mem_right hr hy
    exact LeafOk.step (h x hx) h1
  · exact treeWellFormed_rel (fun c a b h1 h2 => h1.step h2) _ _ hr h
  · exact TableRel.wellFormed (fun b x y h1 h2 => h1.step h2) hr h

theorem DocGood.step {env : ParserEnv} {html : HtmlEnv} {tokens : List (Str × Token)}  {d d' : List (Nat × Blk Leaf)} (h : ∀ b ∈ d, BlkGood env b.2) (hr : DocRel (LeafRel (Step env html tokens)) d d') :
    ∀ b ∈ d', BlkGood env b.2 := by
  intro b hb
  obtain ⟨a, ha, h1⟩ := forall₂_mem_right hr hb
  exact (h a ha).step h1.2

theorem ListsApart.step {α β : Type} {R : α → β → Prop} {d : List (Nat × Blk α)} {d' : List (Nat × Blk β)} (h : ListsApart d) (hr : DocRel R d d') :
    ListsApart d' := by
  induction hr with
  | nil => trivial
  | @cons a b d d' h1 h2 ih =>
    refine ⟨⟨?_, ?_⟩, ih h.2⟩
    · intro e
      rw [← h1.1]
      refine h.1.1 ?_
      have h3 := h1.2
      rw [e] at h3
      cases ha : a.2 with
      | paragraph xs =>
        rw [ha] at h3
        rw [List.forall₂_nil_right_iff.mp h3]
      | _ => rw [ha] at h3; exact h3.elim
    intro b' hb' t t' e e' e0
    cases h2 with
    | nil => simp at hb'
    | @cons a2 b2 _ _ h3 h4 =>
      simp only [List.head?_cons, Option.mem_def, Option.some.injEq] at hb'
      subst hb'
      have hl : ∀ {x : Nat × Blk α} {y : Nat × Blk β} {t}, BlkRel R x.2 y.2 → y.2 = .list t → ∃ u, x.2 = .list u ∧ u.mark = t.mark := by
        intro x y t hb e
        rw [e] at hb
        cases hx : x.2 with
        | list u => rw [hx] at hb; exact ⟨u, rfl, TreeRel.mark hb⟩
        | _ => rw [hx] at hb; exact hb.elim
      obtain ⟨u, e1, m1⟩ := hl h1.2 e
      obtain ⟨u', e2, m2⟩ := hl h3.2 e'
      rw [← m1, ← m2]
      exact h.1.2 a2 (by simp) u u' e1 e2 (h3.1.trans e0)

theorem DocShows.step {env : ParserEnv} {html : HtmlEnv} {tokens : List (Str × Token)}
    {d d' : List (Nat × Blk Leaf)} (h : DocShows html tokens d)
    (hr : List.Forall₂ (DLineRel (LeafRel (Step env html tokens))) (docLines d) (docLines d')) : DocShows html tokens d' := by
  intro l hl
  obtain ⟨a, ha, h1⟩ := forall₂_mem_right hr hl
  cases l with
  | blank => trivial
  | one pre y post =>
    cases a with
    | blank => exact h1.elim
    | one pre' x post' =>
      have h2 := h _ ha
      obtain ⟨-, ⟨h3, h4⟩, -⟩ := h1
      show LineShows html tokens y.1 y.2
      rw [h4]
      exact Step.line h3 h2
    | pieces ps => exact h1.elim
  | pieces qs =>
    cases a with
    | blank => exact h1.elim
    | one pre' x post' => exact h1.elim
    | pieces ps =>
      have h2 := h _ ha
      intro y hy
      obtain ⟨q, hq, h3⟩ := forall₂_mem_right h1 hy
      cases q with
      | inl s => exact h3.elim
      | inr x =>
        obtain ⟨h3, h4⟩ := h3
        show LineShows html tokens y.1 y.2
        rw [h4]
        exact Step.line h3 (h2 x hq)

theorem DocShows.extend {html : HtmlEnv} {tokens tokens' : List (Str × Token)} {d : List (Nat × Blk Leaf)} (h : DocShows html tokens d)
    (he : TokensExtend tokens tokens') : DocShows html tokens' d := by
  intro l hl
  have := h l hl
  cases l with
  | blank => trivial
  | one pre x post => exact LineShows.extend this he
  | pieces ps => exact fun x hx => LineShows.extend (this x hx) he

/-! ### The text around the texts -/

theorem textOk_frame {t : Str} (h : ∀ c ∈ t, c ∈ b!"*#;:= \n") : TextOk t := by
  have hm : ∀ c : Byte, c ∉ b!"*#;:= \n" → c ∉ t := fun c hc hm => hc (h c hm)
  refine ⟨?_, ?_, ?_, ?_, tagSafe_of_no_lt (hm _ (by decide)), fun h => absurd h (hm _ (by decide))⟩
  · intro c hc
    have := h c hc
    revert this
    simp only [List.mem_cons, List.not_mem_nil, or_false]
    rintro (rfl | rfl | rfl | rfl | rfl | rfl | rfl) <;> decide
  · intro c hc
    refine no_pair_of_not_mem (hm c ?_)
    simp only [List.mem_cons, List.not_mem_nil, or_false] at hc
    rcases hc with rfl | rfl <;> decide
  · intro h
    exact hm 0x27 (by decide) (List.mem_of_mem_head? h)
  · intro c hc
    refine last_of_not_mem (hm c ?_)
    simp only [List.mem_cons, List.not_mem_nil, or_false] at hc
    rcases hc with rfl | rfl <;> decide

/-- What stands between the texts of a table. -/
structure TableFrame (s : Str) : Prop where
  chars : ∀ c ∈ s, c ∉ b!"\n[]<_'$"
  braces : (0x7B : Byte) ∈ s → ∃ r, s = b!"{|" ++ r ∧ (0x7B : Byte) ∉ r

theorem TableFrame.not_mem {s : Str} (h : TableFrame s) {c : Byte} (hc : c ∈ b!"\n[]<_'$") : c ∉ s := fun hm => h.chars c hm hc

theorem TableFrame.textOk {s : Str} (h : TableFrame s) : TextOk s := by
  refine ⟨?_, ?_, ?_, ?_, tagSafe_of_no_lt (h.not_mem (by decide)), fun hu => absurd hu (h.not_mem (by decide))⟩
  · intro c hc hm
    refine h.chars c hc ?_
    revert hm
    simp only [List.mem_cons, List.not_mem_nil, or_false]
    tauto
  · intro c hc
    refine no_pair_of_not_mem (h.not_mem ?_)
    simp only [List.mem_cons, List.not_mem_nil, or_false] at hc
    rcases hc with rfl | rfl <;> decide
  · intro e
    exact h.not_mem (c := 0x27) (by decide) (List.mem_of_mem_head? e)
  · intro c hc
    refine last_of_not_mem (h.not_mem ?_)
    simp only [List.mem_cons, List.not_mem_nil, or_false] at hc
    rcases hc with rfl | rfl <;> decide

def DLine.Framed {α : Type} : DLine α → Prop
  | .blank => True
  | .one pre _ post => (∀ c ∈ pre, c ∈ b!"*#;:= ") ∧ ∀ c ∈ post, c ∈ b!"*#;:= "
  | .pieces ps => ∀ s, .inl s ∈ ps → TableFrame s

/-- The attributes of tables are plain. -/
def Blk.Plain {α : Type} : Blk α → Prop
  | .table t => t.WellFormed fun _ _ => True
  | _ => True

theorem tableFrame_chars {s : Str} (h : ∀ c ∈ s, c ∉ b!"\n[]<_'${") : TableFrame s := by
  refine ⟨fun c hc hm => h c hc ?_, fun hm => absurd (by decide) (h _ hm)⟩
  revert hm
  simp only [List.mem_cons, List.not_mem_nil, or_false]
  tauto

theorem plain_chars {s : Str} (h : PlainAttributes s) : ∀ c ∈ s, c ∉ b!"\n[]<_'${" := by
  intro c hc hm
  refine h c hc ?_
  revert hm
  simp only [List.mem_cons, List.not_mem_nil, or_false]
  tauto

theorem frameSpaces_chars (n : Nat) : ∀ c ∈ spaces n, c ∉ b!"\n[]<_'${" := by
  intro c hc
  rw [List.eq_of_mem_replicate hc]
  decide

theorem table_framed {α : Type} {p : Bool → α → Prop} {t : DocTable α} (h : t.WellFormed p) : ∀ l ∈ tableDlines t, l.Framed := by
  intro l hl
  have app : ∀ {a b : Str}, (∀ c ∈ a, c ∉ b!"\n[]<_'${") → (∀ c ∈ b, c ∉ b!"\n[]<_'${") → ∀ c ∈ a ++ b, c ∉ b!"\n[]<_'${" := by
    intro a b h1 h2 c hc
    rcases List.mem_append.mp hc with hc | hc
    · exact h1 c hc
    · exact h2 c hc
  rcases mem_tableDlines hl with rfl | ⟨c, hc, rfl⟩ | ⟨r, hr, s, hs, rfl⟩ | ⟨r, hr, cs, hcs, rfl⟩ | rfl
  · intro s hs
    obtain rfl : s = b!"{|" ++ t.attributes := by simpa using hs
    refine ⟨?_, fun _ => ⟨_, rfl, fun hm => plain_chars h.attributes _ hm (by decide)⟩⟩
    intro c hc hm
    rcases List.mem_append.mp hc with hc | hc
    · have : ∀ c ∈ b!"{|", c ∉ b!"\n[]<_'$" := by decide
      exact this c hc hm
    · refine plain_chars h.attributes c hc ?_
      revert hm
      simp only [List.mem_cons, List.not_mem_nil, or_false]
      tauto
  · intro s hs
    obtain rfl : s = b!"|+" ++ spaces c.1 := by simpa using hs
    exact tableFrame_chars (app (by decide) (frameSpaces_chars _))
  · intro u hu
    obtain rfl : u = b!"|-" ++ s := by simpa using hu
    exact tableFrame_chars (app (by decide) (plain_chars ((h.rows r hr).1 s hs)))
  · intro s hs
    have hm : ∀ b, ∀ c ∈ [cellMark b], c ∉ b!"\n[]<_'${" := by decide
    rcases mem_cellsPieces hs with hs | hs | ⟨c, hc, hs⟩
    · cases hs
      exact tableFrame_chars (hm _)
    · cases hs
      exact tableFrame_chars (app (a := [cellMark _]) (hm _) (hm _))
    · have hcw := ((h.rows r hr).2.2 cs hcs).1 c hc
      simp only [cellPieces, List.mem_cons, List.mem_append, List.mem_map, reduceCtorEq, and_false, exists_false, false_or,
        Sum.inl.injEq, List.not_mem_nil, or_false] at hs
      rcases hs with rfl | rfl
      · refine tableFrame_chars ?_
        rw [DocCell.front]
        refine app (frameSpaces_chars _) ?_
        cases ha : c.attributes with
        | none => simp
        | some a => exact app (app (plain_chars (hcw.1 a ha).1.plain) (by decide)) (frameSpaces_chars _)
      · exact tableFrame_chars (frameSpaces_chars _)
  · intro s hs
    obtain rfl : s = b!"|}" := by simpa using hs
    exact tableFrame_chars (by decide)

/-- The lines of a table begin with a mark. -/
theorem table_line_head {t : DocTable Leaf} : ∀ l ∈ tableDlines t, ∃ c r, lineStr l = c :: r ∧ c ∈ b!"{|!" := by
  intro l hl
  rcases mem_tableDlines hl with rfl | ⟨c, hc, rfl⟩ | ⟨r, hr, s, hs, rfl⟩ | ⟨r, hr, cs, hcs, rfl⟩ | rfl
  · exact ⟨_, _, rfl, by decide⟩
  · exact ⟨_, _, rfl, by decide⟩
  · exact ⟨_, _, rfl, by decide⟩
  · refine ⟨cellMark cs.heading, _, rfl, ?_⟩
    cases cs.heading <;> decide
  · exact ⟨_, _, rfl, by decide⟩

/-- A line that does not begin a list. -/
def NoListMark (l : Str) : Prop := ∀ (m : ListMark) (t : Str), trimSpace l ≠ m.char :: t

theorem table_line_noMark {t : DocTable Leaf} : ∀ l ∈ tableDlines t, NoListMark (lineStr l) := by
  intro l hl m u e
  obtain ⟨c, r, e1, hc⟩ := table_line_head l hl
  have hall : ∀ c ∈ b!"{|!", (33 ≤ c ∧ c ≤ 126) ∧ ∀ m : ListMark, c ≠ m.char := by
    intro c hc
    simp only [List.mem_cons, List.not_mem_nil, or_false] at hc
    rcases hc with rfl | rfl | rfl <;> exact ⟨by decide, fun m => by cases m <;> decide⟩
  have := trimSpace_front (hall c hc).1 padding_nil r
  rw [e1] at e
  rw [show c :: r = [] ++ c :: r from rfl, this, List.cons.injEq] at e
  exact (hall c hc).2 m e.1

theorem mark_mem (c : ListMark) : c.char ∈ b!"*#;:= " := by cases c <;> decide

theorem spaces_mem (n : Nat) : ∀ c ∈ spaces n, c ∈ b!"*#;:= " := by
  intro c hc
  rw [List.eq_of_mem_replicate hc]
  decide

mutual
theorem tree_framed {α : Type} {pre : Str} (hp : ∀ c ∈ pre, c ∈ b!"*#;:= ") : ∀ (t : TreeList (Nat × α)), ∀ l ∈ TreeList.dlines pre t, l.Framed
  | .mk _ items => by rw [TreeList.dlines]; exact items_framed hp items
theorem items_framed {α : Type} {pre : Str} (hp : ∀ c ∈ pre, c ∈ b!"*#;:= ") : ∀ (items : List (TreeItem (Nat × α))), ∀ l ∈ treeItemsDlines pre items, l.Framed
  | [] => by simp [treeItemsDlines]
  | .mk c x subs :: rest => by
    rw [treeItemsDlines]
    intro l hl
    rw [List.mem_cons, List.mem_append] at hl
    rcases hl with rfl | hl | hl
    · refine ⟨?_, by simp⟩
      intro d hd
      rw [List.mem_append, List.mem_cons] at hd
      rcases hd with hd | rfl | hd
      · exact hp d hd
      · exact mark_mem c
      · exact spaces_mem _ d hd
    · refine trees_framed ?_ subs l hl
      intro d hd
      rw [List.mem_append, List.mem_singleton] at hd
      rcases hd with hd | rfl
      · exact hp d hd
      · exact mark_mem c
    · exact items_framed hp rest l hl
theorem trees_framed {α : Type} {pre : Str} (hp : ∀ c ∈ pre, c ∈ b!"*#;:= ") : ∀ (subs : List (TreeList (Nat × α))), ∀ l ∈ treesDlines pre subs, l.Framed
  | [] => by simp [treesDlines]
  | t :: rest => by
    rw [treesDlines]
    intro l hl
    rw [List.mem_append] at hl
    rcases hl with hl | hl
    · exact tree_framed hp t l hl
    · exact trees_framed hp rest l hl
end

theorem docLines_framed {α : Type} (d : List (Nat × Blk α)) (h : ∀ b ∈ d, b.2.Plain) : ∀ l ∈ docLines d, l.Framed := by
  intro l hl
  rw [docLines, List.mem_flatMap] at hl
  obtain ⟨b, hbd, hl⟩ := hl
  rw [List.mem_append] at hl
  rcases hl with hl | hl
  · rw [List.eq_of_mem_replicate hl]; trivial
  · cases hb : b.2 with
    | heading level before after x =>
      rw [hb, Blk.dlines, List.mem_singleton] at hl
      subst hl
      constructor
      · intro c hc
        rw [headPre, List.mem_append] at hc
        rcases hc with hc | hc
        · rw [List.eq_of_mem_replicate hc]; decide
        · exact spaces_mem _ c hc
      · intro c hc
        rw [headPost, List.mem_append] at hc
        rcases hc with hc | hc
        · exact spaces_mem _ c hc
        · rw [List.eq_of_mem_replicate hc]; decide
    | element x =>
      rw [hb, Blk.dlines, List.mem_singleton] at hl
      subst hl
      exact ⟨by simp, by simp⟩
    | paragraph xs =>
      rw [hb, Blk.dlines, List.mem_map] at hl
      obtain ⟨x, _, rfl⟩ := hl
      exact ⟨by simp, by simp⟩
    | list t =>
      rw [hb] at hl
      exact tree_framed (by simp) t l hl
    | table t =>
      have := h b hbd
      rw [hb] at hl this
      exact table_framed this l hl

theorem BlkGood.plain {env : ParserEnv} {b : Blk Leaf} (h : BlkGood env b) : b.Plain := by
  cases b with
  | table t => exact table_imp (fun _ _ _ => trivial) h
  | _ => trivial

theorem flatDoc_ok {env : ParserEnv} {d : List (Nat × Blk Leaf)} (h : ∀ l ∈ docLines d, l.All (LeafOk env)) (hf : ∀ b ∈ d, b.2.Plain) : ∀ a ∈ flatDoc d, a.Ok env := by
  intro a ha
  rcases mem_flatLines ha with rfl | ⟨l, hl, ha⟩
  · exact textOk_frame (by decide)
  · cases l with
    | blank => simp [lineAtoms] at ha
    | one pre x post =>
      obtain ⟨h1, h2⟩ := docLines_framed d hf _ hl
      rw [lineAtoms, List.mem_cons, List.mem_append, List.mem_singleton] at ha
      rcases ha with rfl | ha | rfl
      · exact textOk_frame fun c hc => by have := h1 c hc; simp at this ⊢; tauto
      · exact (h _ hl).ok a ha
      · exact textOk_frame fun c hc => by have := h2 c hc; simp at this ⊢; tauto
    | pieces ps =>
      have h1 := docLines_framed d hf _ hl
      rw [lineAtoms, List.mem_flatMap] at ha
      obtain ⟨p, hp, ha⟩ := ha
      cases p with
      | inl s =>
        rw [pieceAtoms, List.mem_singleton] at ha
        subst ha
        exact (h1 s hp).textOk
      | inr x => exact (h _ hl x hp).ok a ha

theorem docGood_lines {env : ParserEnv} {d : List (Nat × Blk Leaf)} (h : ∀ b ∈ d, BlkGood env b.2) : ∀ l ∈ docLines d, l.All (LeafOk env) := by
  intro l hl
  rw [docLines, List.mem_flatMap] at hl
  obtain ⟨b, hm, hl⟩ := hl
  rw [List.mem_append] at hl
  have hg := h b hm
  rcases hl with hl | hl
  · rw [List.eq_of_mem_replicate hl]; trivial
  · cases hb : b.2 with
    | heading level before after x => rw [hb] at hg; exact hg.elim
    | element x =>
      rw [hb, Blk.dlines, List.mem_singleton] at hl
      subst hl
      rw [hb] at hg
      exact hg
    | paragraph xs =>
      rw [hb, Blk.dlines, List.mem_map] at hl
      obtain ⟨x, hx, rfl⟩ := hl
      rw [hb] at hg
      exact hg x hx
    | list t =>
      rw [hb] at hl hg
      exact tree_all (fun c a h => h.leaf) [] t hg l hl
    | table t =>
      rw [hb] at hl hg
      exact table_all (fun b a h => h.leaf) hg l hl

/-! ### Lists -/

def blkBlocks : Blk Leaf → List ListBlock
  | .heading _ _ _ _ => []
  | .element x => [.line (srcs x.1)]
  | .paragraph xs => xs.map fun x => .line (srcs x.1)
  | .list t => [.list (t.toWiki itemSrc) (t.toWiki itemSrc).lines]
  | .table t => ((tableDlines t).map lineStr).map .line

def docBlocks (d : List (Nat × Blk Leaf)) : List ListBlock := d.flatMap fun b => List.replicate b.1 (.line []) ++ blkBlocks b.2

theorem docBlocks_lines {env : ParserEnv} {d : List (Nat × Blk Leaf)} (h : ∀ b ∈ d, BlkGood env b.2) :
    (docBlocks d).flatMap ListBlock.lines = (docLines d).map lineStr := by
  induction d with
  | nil => rfl
  | cons b d ih =>
    rw [docBlocks, List.flatMap_cons, docLines, List.flatMap_cons, List.flatMap_append, List.map_append, List.flatMap_append, List.map_append]
    have hg := h b (by simp)
    have e1 : (List.replicate b.1 (ListBlock.line [])).flatMap ListBlock.lines = (List.replicate b.1 (DLine.blank : DLine Leaf)).map lineStr := by
      generalize b.1 = n
      induction n with
      | zero => rfl
      | succ n ih => rw [List.replicate_succ, List.flatMap_cons, ih, List.replicate_succ, List.map_cons]; rfl
    have e2 : (blkBlocks b.2).flatMap ListBlock.lines = b.2.dlines.map lineStr := by
      cases hb : b.2 with
      | heading level before after x => rw [hb] at hg; exact hg.elim
      | element x => simp [blkBlocks, Blk.dlines, ListBlock.lines, lineStr]
      | paragraph xs =>
        simp only [blkBlocks, Blk.dlines]
        clear hb
        induction xs with
        | nil => rfl
        | cons x xs ih => simp [ListBlock.lines, lineStr, ih]
      | list t =>
        have := toWiki_lines [] t
        simpa [blkBlocks, Blk.dlines, ListBlock.lines] using this
      | table t =>
        simp only [blkBlocks, Blk.dlines]
        generalize (tableDlines t).map lineStr = ls
        induction ls with
        | nil => rfl
        | cons x xs ih => simp [ListBlock.lines, ih]
    rw [e1, e2]
    exact congrArg _ (ih fun x hx => h x (by simp [hx]))

mutual
theorem treeWellFormed_and {α : Type} {p : ListMark → Nat × α → Prop} {q : α → Prop} (pre : Str) : ∀ (t : TreeList (Nat × α)),
    t.WellFormed p → (∀ l ∈ TreeList.dlines pre t, l.All q) → t.WellFormed fun c a => p c a ∧ q a.2
  | .mk m items, hw, h => by
    rw [TreeList.WellFormed] at hw ⊢
    rw [TreeList.dlines] at h
    exact ⟨hw.1, itemsWellFormed_and pre m true items hw.2 h⟩
theorem itemsWellFormed_and {α : Type} {p : ListMark → Nat × α → Prop} {q : α → Prop} (pre : Str) (m : ListMark) : ∀ (first : Bool)
    (items : List (TreeItem (Nat × α))), treeItemsWellFormed p m first items → (∀ l ∈ treeItemsDlines pre items, l.All q) →
    treeItemsWellFormed (fun c a => p c a ∧ q a.2) m first items
  | _, [], _, _ => by rw [treeItemsWellFormed]; trivial
  | first, .mk c x subs :: rest, hw, h => by
    rw [treeItemsWellFormed] at hw ⊢
    rw [treeItemsDlines] at h
    refine ⟨hw.1, ⟨hw.2.1, h _ List.mem_cons_self⟩, treesWellFormed_and (pre ++ [c.char]) subs hw.2.2.1 (fun l hl => h l ?_),
      itemsWellFormed_and pre m false rest hw.2.2.2 (fun l hl => h l ?_)⟩
    · exact List.mem_cons_of_mem _ (List.mem_append_left _ hl)
    · exact List.mem_cons_of_mem _ (List.mem_append_right _ hl)
theorem treesWellFormed_and {α : Type} {p : ListMark → Nat × α → Prop} {q : α → Prop} (pre : Str) : ∀ (subs : List (TreeList (Nat × α))),
    treesWellFormed p subs → (∀ l ∈ treesDlines pre subs, l.All q) → treesWellFormed (fun c a => p c a ∧ q a.2) subs
  | [], _, _ => by rw [treesWellFormed]; trivial
  | t :: rest, hw, h => by
    rw [treesWellFormed] at hw ⊢
    rw [treesDlines] at h
    exact ⟨treeWellFormed_and pre t hw.1 fun l hl => h l (List.mem_append_left _ hl), hw.2.1,
      treesWellFormed_and pre rest hw.2.2 fun l hl => h l (List.mem_append_right _ hl)⟩
end

/-- A block in which all links have been replaced. -/
def BlkFinal (env : ParserEnv) (html : HtmlEnv) (tokens : List (Str × Token)) : Blk Leaf → Prop
  | .heading _ _ _ _ => False
  | .element x => LeafFinal env html tokens x
  | .paragraph xs => ∀ x ∈ xs, LeafFinal env html tokens x
  | .list t => t.WellFormed fun c p => ItemGood env c p ∧ LeafFinal env html tokens p.2
  | .table t => t.WellFormed (CellFinal env html tokens)

theorem BlkFinal.extend {env : ParserEnv} {html : HtmlEnv} {tokens tokens' : List (Str × Token)} {b : Blk Leaf} (h : BlkFinal env html tokens b)
    (he : TokensExtend tokens tokens') : BlkFinal env html tokens' b := by
  cases b with
  | heading _ _ _ _ => exact h
  | element x => exact LeafFinal.extend h he
  | paragraph xs => exact fun x hx => (h x hx).extend he
  | list t =>
    refine treeWellFormed_rel (R := Eq) ?_ t t ?_ h
    · rintro c a _ h rfl
      exact ⟨h.1, h.2.extend he⟩
    · exact tree_refl t
  | table t => exact table_imp (fun _ _ h => ⟨h.good, h.final.extend he⟩) h
where
  tree_refl : ∀ t : TreeList (Nat × Leaf), TreeRel Eq t t
  | .mk m items => ⟨rfl, items_refl items⟩
  items_refl : ∀ items : List (TreeItem (Nat × Leaf)), ItemsRel Eq items items
  | [] => trivial
  | .mk c x subs :: rest => ⟨rfl, rfl, trees_refl subs, items_refl rest⟩
  trees_refl : ∀ subs : List (TreeList (Nat × Leaf)), TreesRel Eq subs subs
  | [] => trivial
  | l :: rest => ⟨tree_refl l, trees_refl rest⟩

theorem ItemGood.text {env : ParserEnv} {html : HtmlEnv} {tokens : List (Str × Token)} {c : ListMark} {p : Nat × Leaf} (h : ItemGood env c p)
    (hf : LeafFinal env html tokens p.2) : ItemText (itemSrc p) ∧ (c = .semicolon → (0x3A : Byte) ∉ itemSrc p) := by
  obtain ⟨n, x⟩ := p
  have he : EdgesOk x.1 := h.leaf.edges
  have hne : srcs x.1 ≠ [] := h.leaf.srcs_ne
  refine ⟨⟨?_, ?_⟩, ?_⟩
  · intro m t e
    cases n with
    | zero =>
      have e : srcs x.1 = m.char :: t := e
      have := he.head m.char (by rw [e]; rfl)
      revert this
      cases m <;> decide
    | succ n =>
      rw [itemSrc, spaces, List.replicate_succ, List.cons_append, List.cons.injEq] at e
      have := e.1
      revert this
      cases m <;> decide
  · intro sp hsp hs
    cases n with
    | zero => exact he.suffix sp hsp hs
    | succ n =>
      have e : itemSrc (n + 1, x) = spaces n ++ 0x20 :: srcs x.1 := by
        rw [itemSrc, spaces, List.replicate_succ', spaces]; simp
      rw [e] at hs
      by_cases h20 : (0x20 : Byte) ∈ sp
      · have : sp = [0x20] := by
          have hall : ∀ sp ∈ spaceChars, (0x20 : Byte) ∈ sp → sp = [0x20] := by decide
          exact hall sp hsp h20
        subst this
        refine he.suffix _ hsp ?_
        obtain ⟨r, l, e2⟩ : ∃ r l, srcs x.1 = r ++ [l] := ⟨_, _, (List.dropLast_append_getLast hne).symm⟩
        rw [e2] at hs ⊢
        obtain ⟨u, hu⟩ := hs
        rw [← List.cons_append, ← List.append_assoc] at hu
        have := (List.append_inj' hu rfl).2
        rw [this]
        exact ⟨r, rfl⟩
      · exact he.suffix sp hsp (suffix_of_suffix_sep h20 hs)
  · intro hc hm
    rw [itemSrc, List.mem_append] at hm
    rcases hm with hm | hm
    · exact absurd (List.eq_of_mem_replicate hm) (by decide)
    · obtain ⟨a, ha, hm⟩ := mem_srcs.mp hm
      have hok := h.leaf.ok a ha
      cases a with
      | text t => exact h.colon hc t ha hm
      | mark m => exact not_mem_keyed (marker_chars m) (by decide) (by decide) hm
      | key type n => exact not_mem_keyed (tokenKey_chars n hok.2) (by decide) (by decide) hm
      | link l => simpa [Atom.isPlain] using hf.plain _ ha
      | web u l => simpa [Atom.isPlain] using hf.plain _ ha
      | image i f c => simpa [Atom.isPlain] using hf.plain _ ha
      | math b f => simpa [Atom.isPlain] using hf.plain _ ha
      | ref _ _ _ _ => simpa [Atom.isPlain] using hf.plain _ ha

theorem docFinal_lines {env : ParserEnv} {html : HtmlEnv} {tokens : List (Str × Token)} {d : List (Nat × Blk Leaf)}
    (h : ∀ b ∈ d, BlkFinal env html tokens b.2) : ∀ l ∈ docLines d, l.All (LeafFinal env html tokens) := by
  intro l hl
  rw [docLines, List.mem_flatMap] at hl
  obtain ⟨b, hm, hl⟩ := hl
  rw [List.mem_append] at hl
  have hg := h b hm
  rcases hl with hl | hl
  · rw [List.eq_of_mem_replicate hl]; trivial
  · cases hb : b.2 with
    | heading level before after x => rw [hb] at hg; exact hg.elim
    | element x =>
      rw [hb, Blk.dlines, List.mem_singleton] at hl
      subst hl
      rw [hb] at hg
      exact hg
    | paragraph xs =>
      rw [hb, Blk.dlines, List.mem_map] at hl
      obtain ⟨x, hx, rfl⟩ := hl
      rw [hb] at hg
      exact hg x hx
    | list t =>
      rw [hb] at hl hg
      exact tree_all (fun c a h => h.2) [] t hg l hl
    | table t =>
      rw [hb] at hl hg
      exact table_all (fun b a h => h.final) hg l hl

/-- There are only texts, markers and keys. -/
theorem flatDoc_plain {env : ParserEnv} {html : HtmlEnv} {tokens : List (Str × Token)} {d : List (Nat × Blk Leaf)}
    (h : ∀ b ∈ d, BlkFinal env html tokens b.2) : ∀ a ∈ flatDoc d, a.isPlain = true := by
  intro a ha
  rcases mem_flatLines ha with rfl | ⟨l, hl, ha⟩
  · rfl
  · cases l with
    | blank => simp [lineAtoms] at ha
    | one pre x post =>
      rw [lineAtoms, List.mem_cons, List.mem_append, List.mem_singleton] at ha
      rcases ha with rfl | ha | rfl
      · rfl
      · exact (docFinal_lines h _ hl).plain a ha
      · rfl
    | pieces ps =>
      rw [lineAtoms, List.mem_flatMap] at ha
      obtain ⟨p, hp, ha⟩ := ha
      cases p with
      | inl s =>
        rw [pieceAtoms, List.mem_singleton] at ha
        subst ha
        rfl
      | inr x => exact (docFinal_lines h _ hl x hp).plain a ha

theorem CalmLine.noMark {l : Str} (h : CalmLine l) : NoListMark l := by
  intro m t e
  have := h.noList m.char (by rw [e]; rfl)
  revert this
  cases m <;> decide

/-- The first line of an article. -/
theorem docLines_head (d : List (Nat × Blk Leaf)) {env : ParserEnv} {html : HtmlEnv} {tokens : List (Str × Token)}
    (h : ∀ b ∈ d, BlkFinal env html tokens b.2) (hz : ∀ b ∈ d.head?, b.2 = .paragraph [] → b.1 ≠ 0) : ∀ l ∈ ((docLines d).map lineStr).head?, NoListMark l ∨
      ∃ b ∈ d.head?, b.1 = 0 ∧ ∃ t, b.2 = .list t ∧ ∃ r, trimSpace l = t.mark.char :: r := by
  intro l hl
  cases d with
  | nil => simp [docLines] at hl
  | cons b d =>
    obtain ⟨n, b⟩ := b
    rw [docLines, List.flatMap_cons] at hl
    cases n with
    | succ n =>
      rw [List.replicate_succ] at hl
      simp [lineStr] at hl
      exact Or.inl (hl ▸ calm_nil.noMark)
    | zero =>
      have hb := h (0, b) (by simp)
      cases b with
      | heading _ _ _ _ => exact hb.elim
      | element x =>
        simp [Blk.dlines, lineStr] at hl
        exact Or.inl (hl ▸ (hb.calm 0).noMark)
      | paragraph xs =>
        have hne : xs ≠ [] := fun e => hz (0, .paragraph xs) (by simp) (by rw [e]) rfl
        obtain ⟨x, xs, rfl⟩ := List.exists_cons_of_ne_nil hne
        simp [Blk.dlines, lineStr] at hl
        exact Or.inl (hl ▸ ((hb x (by simp)).calm 0).noMark)
      | list t =>
        have hwf : (t.toWiki itemSrc).WellFormed := toWiki_wellFormed (fun c p h => h.1.text h.2) t hb
        have e := toWiki_lines [] t
        obtain ⟨r, more, e2⟩ := lines_head _ hwf
        have e3 := map_trimSpace_lines hwf
        rw [e2] at e e3
        rw [List.replicate_zero, List.nil_append, List.map_append, Blk.dlines, ← e] at hl
        simp only [List.nil_append, List.map_cons, List.cons_append, List.head?_cons, Option.mem_def, Option.some.injEq] at hl e3
        refine Or.inr ⟨_, rfl, rfl, t, rfl, r, ?_⟩
        rw [← hl]
        have hm : (t.toWiki itemSrc).mark = t.mark := by cases t; rw [TreeList.toWiki]; rfl
        rw [← hm]
        exact (List.cons.inj e3).1
      | table t =>
        have hl : l = lineStr (.pieces [.inl (b!"{|" ++ t.attributes)]) := by
          simp [Blk.dlines, tableDlines] at hl
          exact hl.symm
        rw [hl]
        exact Or.inl (table_line_noMark (t := t) _ (by simp [tableDlines]))

theorem lineStr_oneLine {env : ParserEnv} {d : List (Nat × Blk Leaf)} (h : ∀ l ∈ docLines d, l.All (LeafOk env))
    (hf : ∀ b ∈ d, b.2.Plain) : ∀ w ∈ (docLines d).map lineStr, (0x0A : Byte) ∉ w := by
  intro w hw
  obtain ⟨l, hl, rfl⟩ := List.mem_map.mp hw
  cases l with
  | blank => simp [lineStr]
  | one pre x post =>
    obtain ⟨h1, h2⟩ := docLines_framed d hf _ hl
    have h3 : LeafOk env x := h _ hl
    simp only [lineStr, List.mem_append, not_or]
    refine ⟨⟨fun hm => ?_, h3.oneLine⟩, fun hm => ?_⟩
    · exact absurd (h1 _ hm) (by decide)
    · exact absurd (h2 _ hm) (by decide)
  | pieces ps =>
    have h1 := docLines_framed d hf _ hl
    have h3 := h _ hl
    intro hm
    rw [lineStr, List.mem_flatMap] at hm
    obtain ⟨p, hp, hm⟩ := hm
    cases p with
    | inl s => exact (h1 s hp).not_mem (by decide) hm
    | inr x => exact (h3 x hp).oneLine hm

theorem BlkFinal.good {env : ParserEnv} {html : HtmlEnv} {tokens : List (Str × Token)} {b : Blk Leaf} (h : BlkFinal env html tokens b) : BlkGood env b := by
  cases b with
  | heading _ _ _ _ => exact h
  | element x => exact h.leaf
  | paragraph xs => exact fun x hx => (h x hx).leaf
  | list t => exact treeWellFormed_rel (R := Eq) (by rintro c a _ h rfl; exact h.1) t t (BlkFinal.extend.tree_refl t) h
  | table t => exact table_imp (fun _ _ h => h.good) h

theorem blocksWellFormed_lines (ls : List Str) (rest : List ListBlock) (h : ∀ l ∈ ls, (0x0A : Byte) ∉ l ∧ NoListMark l) (hr : blocksWellFormed rest) :
    blocksWellFormed (ls.map ListBlock.line ++ rest) := by
  induction ls with
  | nil => exact hr
  | cons l ls ih =>
    have hl := h l (by simp)
    exact ⟨hl.1, hl.2, ih fun x hx => h x (by simp [hx])⟩

theorem blkBlocks_paragraph (xs : List Leaf) : blkBlocks (.paragraph xs) = (xs.map fun x => srcs x.1).map ListBlock.line := by
  simp [blkBlocks, Function.comp_def]

theorem docBlocks_cons (b : Nat × Blk Leaf) (d : List (Nat × Blk Leaf)) :
    docBlocks (b :: d) = (List.replicate b.1 []).map ListBlock.line ++ (blkBlocks b.2 ++ docBlocks d) := by
  simp [docBlocks]

theorem docBlocks_wellFormed {env : ParserEnv} {html : HtmlEnv} {tokens : List (Str × Token)} (d : List (Nat × Blk Leaf))
    (h : ∀ b ∈ d, BlkFinal env html tokens b.2) (ha : ListsApart d) : blocksWellFormed (docBlocks d) := by
  induction d with
  | nil => trivial
  | cons b d ih =>
    have ih := ih (fun x hx => h x (by simp [hx])) ha.2
    rw [docBlocks_cons]
    refine blocksWellFormed_lines _ _ (fun l hl => by rw [List.eq_of_mem_replicate hl]; exact ⟨by simp, calm_nil.noMark⟩) ?_
    obtain ⟨n, b⟩ := b
    have hb := h (n, b) (by simp)
    cases b with
    | heading _ _ _ _ => exact hb.elim
    | element x =>
      exact blocksWellFormed_lines [srcs x.1] _ (by simpa using ⟨(hb.calm 0).oneLine, (hb.calm 0).noMark⟩) ih
    | paragraph xs =>
      rw [blkBlocks_paragraph]
      refine blocksWellFormed_lines _ _ ?_ ih
      intro l hl
      obtain ⟨x, hx, rfl⟩ := List.mem_map.mp hl
      exact ⟨((hb x hx).calm 0).oneLine, ((hb x hx).calm 0).noMark⟩
    | table t =>
      refine blocksWellFormed_lines _ _ ?_ ih
      intro l hl
      refine ⟨lineStr_oneLine (env := env) (d := [(0, .table t)]) (docGood_lines (by simpa using BlkFinal.good hb))
        (by simpa using (BlkFinal.good hb).plain) l (by simpa [docLines, Blk.dlines] using hl), ?_⟩
      obtain ⟨x, hx, rfl⟩ := List.mem_map.mp hl
      exact table_line_noMark x hx
    | list t =>
      have hwf : (t.toWiki itemSrc).WellFormed := toWiki_wellFormed (fun c p h => h.1.text h.2) t hb
      refine ⟨hwf, ?_, map_trimSpace_lines hwf, ?_, ih⟩
      · have := lineStr_oneLine (env := env) (d := [(0, .list t)]) (docGood_lines (by simpa using BlkFinal.good hb))
          (by simpa using (BlkFinal.good hb).plain)
        have e := toWiki_lines [] t
        simp only [List.nil_append, List.map_id'] at e
        rw [e]
        simpa [docLines, Blk.dlines] using this
      · show ∀ next ∈ ((docBlocks d).flatMap ListBlock.lines).head?, NotContinued _ next
        rw [docBlocks_lines (env := env) (d := d) fun x hx => (h x (List.mem_cons_of_mem _ hx)).good]
        intro l hl c hc r e
        have hz : ∀ b ∈ d.head?, b.2 = .paragraph [] → b.1 ≠ 0 := by
          intro x hx
          cases d with
          | nil => simp at hx
          | cons y d =>
            cases hx
            exact ha.2.1.1
        rcases docLines_head d (fun x hx => h x (by simp [hx])) hz l hl with h1 | ⟨b', hb', h0, t', e', r', e2⟩
        · exact h1 c r e
        · rw [e2, List.cons.injEq] at e
          have hm : (t.toWiki itemSrc).mark = t.mark := by cases t; rw [TreeList.toWiki]; rfl
          refine ha.1.2 b' hb' t t' rfl e' h0 ?_
          have : c = t'.mark := by
            have := e.1
            revert this
            cases c <;> cases t'.mark <;> decide
          rw [← this, ← hm]
          exact hc

theorem tokenizedBlocks_append (rec : Rec) (a b : List ListBlock) : tokenizedBlocks rec (a ++ b) = (do
    let x ← tokenizedBlocks rec a
    let y ← tokenizedBlocks rec b
    pure (x ++ y)) := by
  induction a with
  | nil => simp [tokenizedBlocks]
  | cons l a ih =>
    cases l with
    | line l => simp [tokenizedBlocks, ih]
    | list l w => simp [tokenizedBlocks, ih]

theorem tokenizedBlocks_lines (rec : Rec) (ls : List Str) : tokenizedBlocks rec (ls.map ListBlock.line) = pure ls := by
  induction ls with
  | nil => rfl
  | cons l ls ih => rw [List.map_cons, tokenizedBlocks, ih]; rfl

/-- A list has become a line with its key; the other blocks have not been changed. -/
def ListStep (env : ParserEnv) (html : HtmlEnv) (tokens : List (Str × Token)) (a b : Nat × Blk Leaf) : Prop :=
  a.1 = b.1 ∧ ((∃ t y, a.2 = .list t ∧ b.2 = .element y ∧ y.2 = t.html itemShown ∧ (∃ type n, y.1 = [.key type n]) ∧ LeafFinal env html tokens y) ∨
    ((∀ t, a.2 ≠ .list t) ∧ b.2 = a.2 ∧ BlkFinal env html tokens b.2))

theorem ListStep.extend {env : ParserEnv} {html : HtmlEnv} {tokens tokens' : List (Str × Token)} {a b : Nat × Blk Leaf}
    (h : ListStep env html tokens a b) (he : TokensExtend tokens tokens') : ListStep env html tokens' a b := by
  obtain ⟨h0, ⟨t, y, h1, h2, h3, h4, h5⟩ | ⟨h1, h2, h3⟩⟩ := h
  · exact ⟨h0, Or.inl ⟨t, y, h1, h2, h3, h4, h5.extend he⟩⟩
  · exact ⟨h0, Or.inr ⟨h1, h2, h3.extend he⟩⟩

/-- A line with a key and nothing else. -/
theorem leafFinal_key {env : ParserEnv} {html : HtmlEnv} {tokens : List (Str × Token)} {type : Str} {n : Nat} {h : Str}
    (ht : type ≠ [] ∧ ∀ c ∈ type, tokenChar c = true) (hs : KeyShows html tokens type n h) : LeafFinal env html tokens ([.key type n], h) := by
  have hok : (Atom.key type n).Ok env := ht
  refine ⟨⟨by simpa using hok, ?_, ⟨?_, ?_, ?_⟩, by simp, by simp, by simp [NoBraces]⟩, by simp [Atom.isPlain], LineShows.single hs⟩
  · have := hok.no_newline rfl
    simpa [srcs] using this
  · intro sp hsp
    have := spaceChars_ne sp hsp
    simpa [leadText, Atom.isText] using this
  · simp [leadText, Atom.isText]
  · intro sp hsp
    have := spaceChars_ne sp hsp
    simpa [trailText, Atom.isText] using this

theorem kindName_ok (m : ListMark) : m.kindName ≠ [] ∧ ∀ c ∈ m.kindName, tokenChar c = true := by cases m <;> decide

theorem lists_step (env : ParserEnv) (html : HtmlEnv) (d : List (Nat × Blk Leaf)) : ∀ (s : TokState) (_ : KeysCreated s)
    (_ : ∀ b ∈ d, BlkFinal env html s.tokenMap b.2),
    ∃ d' s', Ends (fun n => tokenizedBlocks (tokenizeContent env n) (docBlocks d)) s ((docLines d').map lineStr) s' ∧ Grows s s' ∧
      List.Forall₂ (ListStep env html s'.tokenMap) d d' := by
  induction d with
  | nil => exact fun s _ _ => ⟨[], s, Ends.pure _ s, Grows.refl s, .nil⟩
  | cons b d ih =>
    intro s hs h
    obtain ⟨n, b⟩ := b
    have hb : BlkFinal env html s.tokenMap b := h (n, b) (by simp)
    -- the block
    have hblk : ∃ b' s', Ends (fun n => tokenizedBlocks (tokenizeContent env n) (blkBlocks b)) s (b'.dlines.map lineStr) s' ∧ Grows s s' ∧
        ListStep env html s'.tokenMap (n, b) (n, b') := by
      cases b with
      | heading _ _ _ _ => exact hb.elim
      | element x =>
        refine ⟨.element x, s, Ends.noop s ⟨0, fun n _ => tokenizedBlocks_lines _ [srcs x.1] |>.trans ?_⟩, Grows.refl s, rfl, Or.inr ⟨by simp, rfl, hb⟩⟩
        simp [Blk.dlines, lineStr]
      | paragraph xs =>
        refine ⟨.paragraph xs, s, Ends.noop s ⟨0, fun n _ => ?_⟩, Grows.refl s, rfl, Or.inr ⟨by simp, rfl, hb⟩⟩
        rw [blkBlocks_paragraph, tokenizedBlocks_lines]
        simp [Blk.dlines, lineStr, Function.comp_def]
      | table t =>
        refine ⟨.table t, s, Ends.noop s ⟨0, fun n _ => ?_⟩, Grows.refl s, rfl, Or.inr ⟨by simp, rfl, hb⟩⟩
        rw [blkBlocks, tokenizedBlocks_lines]
        rfl
      | list t =>
        obtain ⟨i, s', e, g, l⟩ := tokenizedList_ends (env := env) (p := fun c p => ItemGood env c p ∧ LeafFinal env html s.tokenMap p.2)
          (fun c p h => ⟨h.2.calm p.1, by simp [itemSrc, h.1.leaf.srcs_ne]⟩) t hb s hs
        have hk : KeyShows html s'.tokenMap t.mark.kindName i (t.html itemShown) := by
          intro tokens' ht
          have hb' : BlkFinal env html tokens' (.list t) := BlkFinal.extend hb ((g.extend hs).trans ht)
          obtain ⟨k, hk⟩ := expandList_tree (env := env) (html := html) (tokens := tokens') (fun c p h => ⟨h.2, h.1.start⟩) t hb'
          exact ⟨k, _, ht _ _ l, fun fuel hf => hk fuel hf⟩
        refine ⟨.element ([.key t.mark.kindName i], t.html itemShown), s', ?_, g, rfl,
          Or.inl ⟨t, _, rfl, rfl, rfl, ⟨_, _, rfl⟩, leafFinal_key (kindName_ok _) hk⟩⟩
        have := e.bind (g := fun _ r => pure [r.2]) (Ends.pure _ _)
        simpa [blkBlocks, tokenizedBlocks, Blk.dlines, lineStr, Atom.src] using this
    obtain ⟨b', s1, e1, g1, h1⟩ := hblk
    obtain ⟨d', s2, e2, g2, h2⟩ := ih s1 (g1.keysCreated hs) fun x hx => (h x (by simp [hx])).extend (g1.extend hs)
    refine ⟨(n, b') :: d', s2, ?_, g1.trans g2, .cons (h1.extend (g2.extend (g1.keysCreated hs))) h2⟩
    have e3 := e1.bind (e2.bind (Ends.pure _ _) (g := fun n y => pure (b'.dlines.map lineStr ++ y)))
      (g := fun n x => do
        let y ← tokenizedBlocks (tokenizeContent env n) (docBlocks d)
        pure (x ++ y))
    have e4 := (Ends.pure (List.replicate n ([] : Str)) s).bind (g := fun k x => do
        let y ← (do
          let x ← tokenizedBlocks (tokenizeContent env k) (blkBlocks b)
          let y ← tokenizedBlocks (tokenizeContent env k) (docBlocks d)
          pure (x ++ y))
        pure (x ++ y)) (e3.bind (Ends.pure _ _) (g := fun _ y => pure (List.replicate n [] ++ y)))
    refine Ends.congr ⟨0, fun k _ => ?_⟩ (by
      have e : List.replicate n [] ++ (b'.dlines.map lineStr ++ (docLines d').map lineStr) = (docLines ((n, b') :: d')).map lineStr := by
        simp [docLines, lineStr]
      rw [e] at e4
      exact e4)
    rw [docBlocks_cons, tokenizedBlocks_append, tokenizedBlocks_lines, tokenizedBlocks_append]

end Verif.Model
