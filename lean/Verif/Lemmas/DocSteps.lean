import Verif.Lemmas.DocTableStep
import Verif.Lemmas.AtomImages
import Verif.Lemmas.AtomMath

/-!
# The steps of the tokenizer behind the headings
-/

namespace Verif.Model
open Verif.Go Verif.Spec Verif.Lemmas Verif.Props
open scoped List

/-- The steps of `tokenizePass` from the references to the tables. -/
def midSteps (env : ParserEnv) (rec : Rec) (fuel : Nat) (content : Str) : TokM Str := do
  let content ← parseReferences rec fuel content
  let content ← parseInternalLinks env rec content
  let content ← parseGalleries env content
  let content ← parseImageMaps env content
  let content ← parseImages env rec fuel content
  let content ← parseExternalLinks env rec content
  let content ← parseMath content
  let content ← parseLists rec fuel content
  parseTables rec fuel content

theorem tokenizePass_steps (env : ParserEnv) (rec : Rec) (fuel : Nat) (content : Str) : tokenizePass env rec fuel content = (do
    let content ← parseNowiki fuel content
    let content ← parseBoldAndItalic fuel content
    let content ← parseHeadings rec content
    let content ← midSteps env rec fuel content
    pure (parseParagraphs content)) := by
  simp [tokenizePass, midSteps]

/-! ### What becomes of the blocks -/

/-- How an element may change: texts, markers and keys stay. -/
structure Next (a b : Atom) : Prop where
  shape : SameShape a b
  key : ∀ type n, a = .key type n → b = a
  mark : b.isMark = a.isMark

theorem Next.trans {a b c : Atom} (h : Next a b) (h' : Next b c) : Next a c := by
  refine ⟨h.shape.trans h'.shape, ?_, h'.mark.trans h.mark⟩
  rintro type n rfl
  have := h.key type n rfl
  subst this
  exact h'.key type n rfl

theorem Step.next {env : ParserEnv} {html : HtmlEnv} {tokens : List (Str × Token)} {a b : Atom} (h : Step env html tokens a b) : Next a b :=
  ⟨h.shape, h.key, h.mark⟩

theorem forall₂_trans {α : Type} {R : α → α → Prop} (hR : ∀ a b c, R a b → R b c → R a c) {x y z : List α} (h1 : List.Forall₂ R x y)
    (h2 : List.Forall₂ R y z) : List.Forall₂ R x z := by
  induction h1 generalizing z with
  | nil => exact h2
  | cons h3 _ ih =>
    cases h2 with
    | cons h4 h5 => exact .cons (hR _ _ _ h3 h4) (ih h5)

def LeafNext (x y : Leaf) : Prop := y.2 = x.2 ∧ List.Forall₂ Next x.1 y.1

theorem LeafNext.trans {x y z : Leaf} (h : LeafNext x y) (h' : LeafNext y z) : LeafNext x z :=
  ⟨h'.1.trans h.1, forall₂_trans (fun _ _ _ h h' => h.trans h') h.2 h'.2⟩

theorem LeafNext.of_rel {env : ParserEnv} {html : HtmlEnv} {tokens : List (Str × Token)} {x y : Leaf}
    (h : LeafRel (Step env html tokens) x y) : LeafNext x y := ⟨h.2, h.1.imp fun _ _ h => h.next⟩

def BlkNext : Blk Leaf → Blk Leaf → Prop
  | .element x, .element y => LeafNext x y
  | .paragraph xs, .paragraph ys => List.Forall₂ LeafNext xs ys
  | .list t, .list t' => t'.html itemShown = t.html itemShown
  | .table t, .table t' => t'.html Prod.snd = t.html Prod.snd
  | _, _ => False

theorem BlkNext.trans {a b c : Blk Leaf} (h : BlkNext a b) (h' : BlkNext b c) : BlkNext a c := by
  cases a <;> cases b <;> first | exact h.elim | skip
  · cases c <;> first | exact h'.elim | skip
    exact LeafNext.trans h h'
  · cases c <;> first | exact h'.elim | skip
    exact forall₂_trans (R := LeafNext) (fun _ _ _ h h' => h.trans h') h h'
  · cases c <;> first | exact h'.elim | skip
    exact Eq.trans h' h
  · cases c <;> first | exact h'.elim | skip
    exact Eq.trans h' h

theorem BlkNext.of_rel {env : ParserEnv} {html : HtmlEnv} {tokens : List (Str × Token)} {a b : Blk Leaf} (hg : BlkGood env a)
    (h : BlkRel (LeafRel (Step env html tokens)) a b) : BlkNext a b := by
  cases a <;> cases b <;> first | exact h.elim | skip
  · exact hg.elim
  · exact LeafNext.of_rel h
  · exact List.Forall₂.imp (fun _ _ => LeafNext.of_rel) h
  · exact (treeHtml_rel (fun a b h => by simp [itemShown, h.1, h.2.2]) _ _ h).symm
  · exact (tableHtml_rel (fun a b h => h.2.symm) h).symm

/-- The HTML of a block that becomes one line with a key. -/
def Blk.shown : Blk Leaf → Option Str
  | .list t => some (t.html itemShown)
  | .table t => some (t.html Prod.snd)
  | _ => none

theorem BlkNext.shown {a b : Blk Leaf} (h : BlkNext a b) : b.shown = a.shown := by
  cases a <;> cases b <;> first | exact h.elim | rfl | exact congrArg some h

/-- What becomes of a block: a list or table becomes one line with a key, links become keys. -/
def Became (env : ParserEnv) (html : HtmlEnv) (tokens : List (Str × Token)) (a b : Nat × Blk Leaf) : Prop :=
  a.1 = b.1 ∧ ((∃ y, a.2.shown = some y.2 ∧ b.2 = .element y ∧ (∃ type n, y.1 = [.key type n]) ∧ LeafFinal env html tokens y) ∨
    (BlkNext a.2 b.2 ∧ a.2.shown = none ∧ BlkFinal env html tokens b.2))

theorem BlkFinal.of_good {env : ParserEnv} {html : HtmlEnv} {tokens : List (Str × Token)} {b : Blk Leaf} (h : BlkGood env b)
    (hl : ∀ l ∈ b.dlines, l.All fun x => LineShows html tokens x.1 x.2 ∧ ∀ a ∈ x.1, a.isPlain = true) : BlkFinal env html tokens b := by
  cases b with
  | heading _ _ _ _ => exact h
  | element x =>
    have := hl (.one [] x []) (by simp [Blk.dlines])
    exact ⟨h, this.2, this.1⟩
  | paragraph xs =>
    refine fun x hx => ?_
    have := hl (.one [] x []) (by simp [Blk.dlines]; exact hx)
    exact ⟨h x hx, this.2, this.1⟩
  | list t =>
    have := treeWellFormed_and (p := ItemGood env) [] t h hl
    exact treeWellFormed_rel (R := Eq) (by rintro c a _ h rfl; exact ⟨h.1, h.1.leaf, h.2.2, h.2.1⟩) t t (BlkFinal.extend.tree_refl t) this
  | table t => exact table_imp (fun _ _ h => ⟨h.1, h.1.leaf, h.2.2, h.2.1⟩) (table_and h hl)

theorem atoms_of_lines {d : List (Nat × Blk Leaf)} {p : Atom → Prop} (h : ∀ a ∈ flatDoc d, p a) :
    ∀ l ∈ docLines d, l.All fun x => ∀ a ∈ x.1, p a := by
  suffices ∀ ls : List (DLine Leaf), (∀ a ∈ flatLines ls, p a) → ∀ l ∈ ls, l.All fun x => ∀ a ∈ x.1, p a from this _ h
  intro ls
  induction ls with
  | nil => simp
  | cons l ls ih =>
    intro h m hm
    have hl : ∀ a ∈ lineAtoms l, p a := by
      cases ls with
      | nil => exact h
      | cons l' ls => exact fun a ha => h a (by rw [flatLines]; simp [ha])
    rcases List.mem_cons.mp hm with rfl | hm
    · cases m with
      | blank => trivial
      | one pre x post => exact fun a ha => hl a (by rw [lineAtoms]; simp [ha])
      | pieces ps => exact fun x hx a ha => hl a (by rw [lineAtoms]; exact List.mem_flatMap.mpr ⟨_, hx, ha⟩)
    · cases ls with
      | nil => simp at hm
      | cons l' ls => exact ih (fun a ha => h a (by rw [flatLines]; simp [ha])) m hm

/-- There is nothing to do for a text without references. -/
theorem parseReferences_ends {env : ParserEnv} {as : List Atom} (h : ∀ a ∈ as, a.Ok env) (hr : NoRefs as) (s : TokState) :
    Ends (fun n => parseReferences (tokenizeContent env n) n (srcs as)) s (srcs as) s :=
  Ends.noop s ⟨_, fun n hn => parseReferences_noop _ (srcs_onlyMath h hr) n hn⟩

/-- All links and images are replaced by keys. -/
theorem elements_pass (env : ParserEnv) (html : HtmlEnv) (hp : PlainPrefixes env) (as : List Atom) (h : ∀ a ∈ as, a.Ok env) (hr : NoRefs as) (s : TokState)
    (hs : KeysCreated s) {text : Str} {start : TokState} (e0 : Ends (fun n => parseReferences (tokenizeContent env n) n text) start (srcs as) s) :
    ∃ bs s', Ends (fun n => do
        let content ← parseReferences (tokenizeContent env n) n text
        let content ← parseInternalLinks env (tokenizeContent env n) content
        let content ← parseGalleries env content
        let content ← parseImageMaps env content
        let content ← parseImages env (tokenizeContent env n) n content
        let content ← parseExternalLinks env (tokenizeContent env n) content
        parseMath content) start (srcs bs) s' ∧ Grows s s' ∧ List.Forall₂ (Step env html s'.tokenMap) as bs ∧ ∀ b ∈ bs, b.isPlain = true := by
  obtain ⟨as1, s1, e1, g1, f1, d1⟩ := links_pass env html hp as h hr s hs
  have ok1 := Step.all_ok f1 h
  have hr1 := Step.no_refs f1 hr
  have hs1 := g1.keysCreated hs
  obtain ⟨as2, s2, e2, g2, f2, d2⟩ := images_pass env html as1 ok1 d1 hr1 s1 hs1
  have ok2 := Step.all_ok f2 ok1
  have hs2 := g2.keysCreated hs1
  obtain ⟨as3, s3, e3, g3, f3, d3⟩ := web_pass env html as2 ok2 d2 (Step.no_refs f2 hr1) s2 hs2
  have ok3 := Step.all_ok f3 ok2
  have hs3 := g3.keysCreated hs2
  obtain ⟨as4, s4, e4, g4, f4, d4⟩ := math_pass env html as3 ok3 d3 s3 hs3
  refine ⟨as4, s4, ?_, g1.trans (g2.trans (g3.trans g4)), ?_, d4⟩
  · refine e0.bind ?_
    refine e1.bind ?_
    refine (Ends.noop s1 ⟨0, fun n _ => parseGalleries_noop env (srcs_onlyMath ok1 hr1)⟩).bind ?_
    refine (Ends.noop s1 ⟨0, fun n _ => parseImageMaps_noop env (srcs_onlyMath ok1 hr1)⟩).bind ?_
    exact e2.bind (e3.bind e4)
  · exact Step.steps_trans (f1.imp fun _ _ h => h.extend ((g2.trans (g3.trans g4)).extend hs1))
      (Step.steps_trans (f2.imp fun _ _ h => h.extend ((g3.trans g4).extend hs2))
        (Step.steps_trans (f3.imp fun _ _ h => h.extend (g4.extend hs3)) f4))

theorem mid_pass (env : ParserEnv) (html : HtmlEnv) (hp : PlainPrefixes env) (d : List (Nat × Blk Leaf)) (hne : docLines d ≠ [])
    (h : ∀ b ∈ d, BlkGood env b.2) (ha : ListsApart d) (s : TokState) (hs : KeysCreated s) (hd : DocShows html s.tokenMap d)
    (hr : NoRefs (flatDoc d)) {text : Str} {start : TokState} (e0 : Ends (fun n => parseReferences (tokenizeContent env n) n text) start (srcs (flatDoc d)) s) :
    ∃ d' s', Ends (fun n => midSteps env (tokenizeContent env n) n text) start (srcs (flatDoc d')) s' ∧ Grows s s' ∧
      List.Forall₂ (Became env html s'.tokenMap) d d' := by
  -- links and images
  have ok0 := flatDoc_ok (docGood_lines h) fun b hb => (h b hb).plain
  obtain ⟨bs2, s2, e2, g2, f2, pl2⟩ := elements_pass env html hp (flatDoc d) ok0 hr s hs e0
  obtain ⟨d2, r2, rfl, l2⟩ := flatDoc_unflatten Step.text d bs2 f2
  have h2 := DocGood.step h r2
  have a2 := ha.step r2
  have hs2 := g2.keysCreated hs
  have sh2 : DocShows html s2.tokenMap d2 := (hd.extend (g2.extend hs)).step l2
  -- lists
  have fin2 : ∀ b ∈ d2, BlkFinal env html s2.tokenMap b.2 := by
    intro b hb
    refine BlkFinal.of_good (h2 b hb) fun l hl => ?_
    have hm : l ∈ docLines d2 := List.mem_flatMap.mpr ⟨b, hb, List.mem_append_right _ hl⟩
    have x1 := sh2 l hm
    have x2 := atoms_of_lines pl2 l hm
    cases l with
    | blank => trivial
    | one pre x post => exact ⟨x1, x2⟩
    | pieces ps => exact fun x hx => ⟨x1 x hx, x2 x hx⟩
  obtain ⟨d3, s3, e3, g3, f3⟩ := lists_step env html d2 s2 hs2 fin2
  have hz2 : docLines d2 ≠ [] := by
    intro hz
    rw [hz] at l2
    exact hne (List.forall₂_nil_right_iff.mp l2)
  obtain ⟨k3, p3⟩ : ∃ k, ∀ rec n, k ≤ n → parseLists rec n (srcs (flatDoc d2)) = (do
      let lines ← tokenizedBlocks rec (docBlocks d2)
      pure (join b!"\n" lines)) := by
    have hw := docBlocks_wellFormed d2 fin2 a2
    refine ⟨((docBlocks d2).map fun b => weight (b.lines.map trimSpace) + 3).sum + 1, fun rec n hn => ?_⟩
    have hsp : split (srcs (flatDoc d2)) b!"\n" = (docBlocks d2).flatMap ListBlock.lines := by
      rw [flatDoc, srcs_flatLines, docBlocks_lines h2]
      exact split_join_singleton (fun e => hz2 (List.map_eq_nil_iff.mp e)) (lineStr_oneLine (docGood_lines h2) fun b hb => (h2 b hb).plain)
    rw [parseLists, hsp, tokenizedBlocks_ok rec _ hw n hn]
  have hs3 := g3.keysCreated hs2
  have fin3 : ∀ b ∈ d3, BlkFinal env html s3.tokenMap b.2 := by
    intro b hb
    obtain ⟨a, _, h⟩ := forall₂_mem_right f3 hb
    rcases h.2 with ⟨_, _, _, e, _, _, h⟩ | ⟨_, _, h⟩
    · rw [e]; exact h
    · exact h
  have nl3 : NoLists d3 := by
    intro b hb t
    obtain ⟨a, _, h⟩ := forall₂_mem_right f3 hb
    rcases h.2 with ⟨_, _, _, e, _⟩ | ⟨h, e, _⟩
    · rw [e]; simp
    · rw [e]; exact h t
  -- tables
  obtain ⟨d4, s4, e4, g4, f4⟩ := tables_step env html d3 s3 hs3 fin3
  have hz3 : docTables d3 ≠ [] := by
    intro hz
    have e : docLines d3 = [] := by
      have := docTables_lines d3
      rw [hz] at this
      exact List.map_eq_nil_iff.mp this.symm
    clear hz e4 f4 fin3 nl3 e3 p3 fin2 sh2 a2 h2 pl2 f2 l2 e2
    clear r2
    induction f3 with
    | nil => exact hz2 rfl
    | @cons a b d2 d3 h1 h2 ih =>
      rw [docLines, List.flatMap_cons, List.append_eq_nil_iff, List.append_eq_nil_iff] at e
      rcases h1.2 with ⟨_, _, _, e', _⟩ | ⟨_, e', _⟩
      · rw [e'] at e
        simp [Blk.dlines] at e
      · rw [e'] at e
        refine ih ?_ e.2
        intro hz
        refine hz2 ?_
        rw [docLines, List.flatMap_cons, e.1.2, h1.1, e.1.1]
        exact hz
  obtain ⟨k4, p4⟩ : ∃ k, ∀ rec n, k ≤ n → parseTables rec n (srcs (flatDoc d3)) = (do
      let lines ← tokenizedTables rec (docTables d3)
      pure (join b!"\n" lines)) := by
    obtain ⟨k, hk⟩ := C36_tables_keep_their_structure_partial (docTables d3) hz3 (docTables_wellFormed fin3 nl3)
    refine ⟨k, fun rec n hn => ?_⟩
    rw [flatDoc, srcs_flatLines, ← docTables_lines]
    exact hk rec n hn
  refine ⟨d4, s4, ?_, g2.trans (g3.trans g4), ?_⟩
  rotate_left
  · have hr : ∀ (d d2 d3 d4 : List (Nat × Blk Leaf)), (∀ b ∈ d, BlkGood env b.2) → DocRel (LeafRel (Step env html s2.tokenMap)) d d2 →
        List.Forall₂ (ListStep env html s3.tokenMap) d2 d3 → List.Forall₂ (TableStep env html s4.tokenMap) d3 d4 →
        List.Forall₂ (Became env html s4.tokenMap) d d4 := by
      intro d d2 d3 d4 h r2 f3 f4
      induction r2 generalizing d3 d4 with
      | nil => cases f3; cases f4; exact .nil
      | @cons a c d d2 r2 rs2 ih =>
        cases f3 with
        | @cons _ c3 _ _ f3 fs3 =>
          cases f4 with
          | @cons _ c4 _ _ f4 fs4 =>
            refine .cons ?_ (ih _ _ (fun x hx => h x (by simp [hx])) fs3 fs4)
            have n := BlkNext.of_rel (h a (by simp)) r2.2
            refine ⟨r2.1.trans (f3.1.trans f4.1), ?_⟩
            rcases f3.2 with ⟨t, y, e1, e2, e3, e4, e5⟩ | ⟨e1, e2, e3⟩
            · left
              rcases f4.2 with ⟨t', y', e6, -⟩ | ⟨_, e6, e7⟩
              · rw [e2] at e6; cases e6
              · refine ⟨y, ?_, e6.trans e2, e4, ?_⟩
                · rw [← n.shown, e1, e3]; rfl
                · rw [e6, e2] at e7
                  exact e7
            · rcases f4.2 with ⟨t', y', e6, e7, e8, e9, e10⟩ | ⟨e6, e7, e8⟩
              · left
                refine ⟨y', ?_, e7, e9, e10⟩
                rw [← n.shown, ← e2, e6, e8]; rfl
              · right
                refine ⟨by rw [e7, e2]; exact n, ?_, e8⟩
                rw [← n.shown]
                rw [e2] at e6
                cases hc : c.2 with
                | list t => exact absurd hc (e1 t)
                | table t => exact absurd hc (e6 t)
                | _ => rfl
    exact hr d d2 d3 d4 h r2 f3 f4
  have e5 : Ends (fun n => (do
      let content ← parseLists (tokenizeContent env n) n (srcs (flatDoc d2))
      parseTables (tokenizeContent env n) n content)) s2 (srcs (flatDoc d4)) s4 := by
    refine Ends.bind (a := srcs (flatDoc d3)) (s' := s3) ?_ ?_
    · refine Ends.congr ⟨k3, fun n hn => p3 _ n hn⟩ ?_
      rw [flatDoc, srcs_flatLines]
      exact e3.bind (Ends.pure _ _)
    · refine Ends.congr ⟨k4, fun n hn => p4 _ n hn⟩ ?_
      rw [flatDoc, srcs_flatLines]
      exact e4.bind (Ends.pure _ _)
  refine Ends.congr ⟨0, fun n _ => ?_⟩ (e2.bind (g := fun n content => do
      let content ← parseLists (tokenizeContent env n) n content
      parseTables (tokenizeContent env n) n content) e5)
  simp [midSteps]

end Verif.Model
