import Verif.Lemmas.DocSteps
import Verif.Lemmas.Headings
import Verif.Lemmas.Padding

/-!
# The headings of an article
-/

namespace Verif.Model
open Verif.Go Verif.Spec Verif.Lemmas Verif.Props
open scoped List

/-! ### Lines that are no headings -/

def NoHead (l : Str) : Prop := (trimSpace l).head? ≠ some 0x3D

theorem isHeadingOf_noHead {l : Str} (h : NoHead l) (k : Nat) : isHeadingOf (k + 1) l = false := by
  rw [isHeadingOf, Bool.and_eq_false_iff]
  left
  rw [← Bool.not_eq_true, hasPrefix_iff, repeatStr_eq]
  intro hp
  obtain ⟨r, hr⟩ := hp
  apply h
  rw [← hr, List.replicate_succ]
  rfl

theorem headingLine_noHead (rec : Rec) {l : Str} (h : NoHead l) (k : Nat) : headingLine rec (k + 1) l = pure l := by
  rw [headingLine, isHeadingOf_noHead h]
  rfl

theorem headingLines_noHead (rec : Rec) (ls : List Str) (h : ∀ l ∈ ls, NoHead l) (k : Nat) : headingLines rec (k + 1) ls = pure ls := by
  induction ls with
  | nil => rfl
  | cons l ls ih =>
    rw [headingLines, headingLine_noHead rec (h l (by simp)), ih fun x hx => h x (by simp [hx])]
    rfl

theorem headingDepths_noHead (rec : Rec) (ls : List Str) (h : ∀ l ∈ ls, NoHead l) (k : Nat) : headingDepths rec k ls = pure ls := by
  induction k with
  | zero => rfl
  | succ k ih => rw [headingDepths, headingLines_noHead rec ls h, pure_bind, ih]

theorem headingLines_append (rec : Rec) (k : Nat) (a b : List Str) : headingLines rec k (a ++ b) = (do
    let x ← headingLines rec k a
    let y ← headingLines rec k b
    pure (x ++ y)) := by
  induction a with
  | nil => simp [headingLines]
  | cons l a ih => simp [headingLines, ih]

theorem noHead_nil : NoHead [] := by simp [NoHead, trimSpace_nil]

theorem noHead_of_mark {l : Str} {c : Byte} (hc : l.head? = some c) (hm : c ∈ b!"*#;:") : NoHead l := by
  intro h
  obtain ⟨_, _, w, r, hw, _, e⟩ := trimSpace_spec l
  cases w with
  | nil =>
    rw [e, List.nil_append, List.head?_append, h] at hc
    simp at hc
    subst hc
    revert hm
    decide
  | cons x w =>
    rw [e] at hc
    simp at hc
    subst hc
    obtain ⟨ws, h1, h2⟩ := hw
    have hx : ∃ sp ∈ spaceChars, x ∈ sp := by
      have : x ∈ ws.flatten := by rw [← h2]; simp
      obtain ⟨sp, hs, hx⟩ := List.mem_flatten.mp this
      exact ⟨sp, h1 sp hs, hx⟩
    obtain ⟨sp, hs, hx⟩ := hx
    have hall : ∀ sp ∈ spaceChars, ∀ x ∈ sp, x ∉ b!"*#;:" := by decide
    exact hall sp hs x hx hm

theorem LeafOk.noHead {env : ParserEnv} {x : Leaf} (h : LeafOk env x) : NoHead (srcs x.1) := by
  rw [NoHead, h.edges.trimmed]
  intro he
  exact h.edges.head _ he (by decide)

mutual
theorem tree_marked {α : Type} {pre : Str} (hp : ∀ c ∈ pre, c ∈ b!"*#;:") : ∀ (t : TreeList (Nat × α)), ∀ l ∈ TreeList.dlines pre t,
    ∃ c p x q, l = .one (c :: p) x q ∧ c ∈ b!"*#;:"
  | .mk _ items => by rw [TreeList.dlines]; exact items_marked hp items
theorem items_marked {α : Type} {pre : Str} (hp : ∀ c ∈ pre, c ∈ b!"*#;:") : ∀ (items : List (TreeItem (Nat × α))), ∀ l ∈ treeItemsDlines pre items,
    ∃ c p x q, l = .one (c :: p) x q ∧ c ∈ b!"*#;:"
  | [] => by simp [treeItemsDlines]
  | .mk c x subs :: rest => by
    rw [treeItemsDlines]
    have hc : c.char ∈ b!"*#;:" := by cases c <;> decide
    intro l hl
    rw [List.mem_cons, List.mem_append] at hl
    rcases hl with rfl | hl | hl
    · cases pre with
      | nil => exact ⟨_, _, _, _, rfl, hc⟩
      | cons d pre => exact ⟨d, _, _, _, rfl, hp d (by simp)⟩
    · refine trees_marked ?_ subs l hl
      intro d hd
      rw [List.mem_append, List.mem_singleton] at hd
      rcases hd with hd | rfl
      · exact hp d hd
      · exact hc
    · exact items_marked hp rest l hl
theorem trees_marked {α : Type} {pre : Str} (hp : ∀ c ∈ pre, c ∈ b!"*#;:") : ∀ (subs : List (TreeList (Nat × α))), ∀ l ∈ treesDlines pre subs,
    ∃ c p x q, l = .one (c :: p) x q ∧ c ∈ b!"*#;:"
  | [] => by simp [treesDlines]
  | t :: rest => by
    rw [treesDlines]
    intro l hl
    rw [List.mem_append] at hl
    rcases hl with hl | hl
    · exact tree_marked hp t l hl
    · exact trees_marked hp rest l hl
end

theorem BlkGood.noHead {env : ParserEnv} {b : Blk Leaf} (h : BlkGood env b) : ∀ l ∈ b.dlines.map lineStr, NoHead l := by
  intro l hl'
  obtain ⟨l, hl, rfl⟩ := List.mem_map.mp hl'
  clear hl'
  cases b with
  | heading _ _ _ _ => exact h.elim
  | element x =>
    simp only [Blk.dlines, List.mem_singleton] at hl
    subst hl
    simpa [lineStr] using LeafOk.noHead h
  | paragraph xs =>
    simp only [Blk.dlines, List.mem_map] at hl
    obtain ⟨x, hx, rfl⟩ := hl
    simpa [lineStr] using (h x hx).noHead
  | list t =>
    obtain ⟨c, p, x, q, rfl, hc⟩ := tree_marked (pre := []) (by simp) t l hl
    exact noHead_of_mark (c := c) rfl hc
  | table t =>
    obtain ⟨c, r, e, hc⟩ := table_line_head (t := t) l hl
    have hall : ∀ c ∈ b!"{|!", (33 ≤ c ∧ c ≤ 126) ∧ c ≠ 0x3D := by decide
    have := trimSpace_front (hall c hc).1 padding_nil r
    rw [NoHead, e, show c :: r = [] ++ c :: r from rfl, this]
    intro he
    exact (hall c hc).2 (Option.some.inj he)

/-! ### The text of a heading -/

theorem Ends.content {env : ParserEnv} {c c' : Str} {s s' : TokState}
    (h : Ends (fun n => tokenizePass env (tokenizeContent env n) n c) s c' s') (h' : Ends (fun n => tokenizeContent env n c') s' c' s') :
    Ends (fun n => tokenizeContent env n c) s c' s' := by
  obtain ⟨k, h⟩ := h
  obtain ⟨k', h'⟩ := h'
  beta_reduce at h h'
  refine ⟨max k k' + 1, fun n hn => ?_⟩
  obtain ⟨m, rfl⟩ : ∃ m, n = m + 1 := ⟨n - 1, by omega⟩
  show tokenizeContent env (m + 1) c s = _
  rw [tokenizeContent, TokM.bind_eq, h m (by omega)]
  simp only
  split
  · rfl
  · exact h' m (by omega)

theorem srcs_flatDoc (d : List (Nat × Blk Leaf)) : srcs (flatDoc d) = join b!"\n" ((docLines d).map lineStr) := srcs_flatLines _

theorem title_pass (env : ParserEnv) (html : HtmlEnv) (hp : PlainPrefixes env) {x : Leaf} (hx : LeafOk env x) (hr : NoRefs x.1) (s : TokState) (hs : KeysCreated s)
    (hl : LineShows html s.tokenMap x.1 x.2) :
    ∃ y s', Ends (fun n => tokenizeContent env n (srcs x.1)) s (srcs y.1) s' ∧ Grows s s' ∧ LeafFinal env html s'.tokenMap y ∧ y.2 = x.2 := by
  have hd : ∀ x : Leaf, docLines [(0, Blk.paragraph [x])] = [.one [] x []] := fun x => by simp [docLines, Blk.dlines]
  have hf : ∀ x : Leaf, srcs (flatDoc [(0, Blk.paragraph [x])]) = srcs x.1 := fun x => by
    rw [srcs_flatDoc, hd]; simp [lineStr, join]
  have hg : ∀ b ∈ [(0, Blk.paragraph [x])], BlkGood env b.2 := by
    rintro b hb; rw [List.mem_singleton.mp hb]; 
    show ∀ y ∈ [x], LeafOk env y
    simpa only [List.mem_singleton, forall_eq] using hx
  have hr' : NoRefs (flatDoc [(0, Blk.paragraph [x])]) := by
    intro a ha
    rw [flatDoc, hd, flatLines, lineAtoms, List.mem_cons, List.mem_append, List.mem_singleton] at ha
    rcases ha with rfl | ha | rfl
    · rfl
    · exact hr a ha
    · rfl
  obtain ⟨d', s', e, g, f⟩ := mid_pass env html hp [(0, .paragraph [x])] (by rw [hd]; simp) hg (by simp [ListsApart]) s hs (by rw [DocShows, hd]; simpa [DLine.All] using hl)
    hr' (parseReferences_ends (flatDoc_ok (docGood_lines hg) fun b hb => (hg b hb).plain) hr' s)
  cases f with
  | cons f fs =>
    cases fs with
    | nil =>
      rename_i b
      obtain ⟨n, b⟩ := b
      obtain ⟨h0, f⟩ := f
      simp only at h0 f
      subst h0
      rcases f with ⟨y, f, _⟩ | ⟨f, _, f2⟩
      · cases f
      · cases b <;> first | exact f.elim | skip
        rename_i ys
        cases f with
        | cons f fs =>
          cases fs
          rename_i y
          have fy := f2 y (by simp)
          refine ⟨y, s', ?_, g, fy, f.1⟩
          rw [hf, hf] at e
          refine Ends.content ?_ (Ends.noop s' (tokenizeContent_calm env (by simpa [spaces] using fy.calm 0) fy.leaf.srcs_ne))
          have ht := srcs_onlyMath hx.ok hr
          refine Ends.congr ⟨0, fun n _ => tokenizePass_steps env _ n _⟩ ?_
          refine (Ends.noop s ⟨(srcs x.1).length + 1, fun n hn => nowikiLoop_calm ht.calmTags n 0 (by omega) (by omega)⟩).bind ?_
          refine (Ends.noop s ⟨1, fun n hn => boldItalic_calm (srcs_no_quotes hx.ok) n (by omega)⟩).bind ?_
          refine (Ends.noop (a := srcs x.1) s ⟨0, fun n _ => ?_⟩).bind (e.bind ?_)
          · rw [parseHeadings, split_singleton_of_not_mem hx.oneLine, headingDepths_noHead _ _ (by simpa using hx.noHead), pure_bind]
            simp [join]
          · refine Ends.noop s' ⟨0, fun n _ => ?_⟩
            rw [parseParagraphs_line fy.leaf.oneLine fy.leaf.srcs_ne]

/-! ### Headings -/

def headHtml (level : Nat) (h : Str) : Str := b!"<h" ++ decimal level ++ b!">" ++ h ++ b!"</h" ++ decimal level ++ b!">"

theorem head_frame {env : ParserEnv} {x : Leaf} (hx : LeafOk env x) (he : (0x3D : Byte) ∉ srcs x.1)
    {level : Nat} (h1 : 1 ≤ level) (before after : Nat) : ∃ inner, inner = spaces before ++ srcs x.1 ++ spaces after ∧
      headPre level before ++ srcs x.1 ++ headPost level after = List.replicate level 0x3D ++ inner ++ List.replicate level 0x3D ∧
      (0x3D : Byte) ∉ inner ∧ inner ≠ [] ∧
      trimSpace (List.replicate level (0x3D : Byte) ++ inner ++ List.replicate level 0x3D) =
        List.replicate level 0x3D ++ inner ++ List.replicate level 0x3D ∧ inner.head? ≠ some 0x3D ∧ inner.getLast? ≠ some 0x3D := by
  have hline : headPre level before ++ srcs x.1 ++ headPost level after =
      List.replicate level 0x3D ++ (spaces before ++ srcs x.1 ++ spaces after) ++ List.replicate level 0x3D := by
    simp [headPre, headPost]
  have hm : (0x3D : Byte) ∉ spaces before ++ srcs x.1 ++ spaces after := by
    simp only [List.mem_append, not_or]
    refine ⟨⟨fun h => ?_, he⟩, fun h => ?_⟩ <;> exact absurd (List.eq_of_mem_replicate h) (by decide)
  have hne : spaces before ++ srcs x.1 ++ spaces after ≠ [] := by simp [hx.srcs_ne]
  generalize hi : spaces before ++ srcs x.1 ++ spaces after = inner at hm hne hline ⊢
  have htrim : trimSpace (List.replicate level (0x3D : Byte) ++ inner ++ List.replicate level 0x3D) =
      List.replicate level 0x3D ++ inner ++ List.replicate level 0x3D := by
    obtain ⟨k, rfl⟩ : ∃ k, level = k + 1 := ⟨level - 1, by omega⟩
    refine trimSpace_visible ?_ ?_
    · intro c hc
      simp [List.replicate_succ] at hc
      subst hc
      decide
    · intro c hc
      rw [List.replicate_succ', ← List.append_assoc, List.getLast?_concat] at hc
      simp at hc
      subst hc
      decide
  have hhead : inner.head? ≠ some 0x3D := fun h => hm (List.mem_of_mem_head? h)
  have hlast : inner.getLast? ≠ some 0x3D := last_of_not_mem hm
  exact ⟨inner, rfl, hline, hm, hne, htrim, hhead, hlast⟩

theorem heading_line (env : ParserEnv) (html : HtmlEnv) (hp : PlainPrefixes env) {x : Leaf} (hx : LeafOk env x) (hr : NoRefs x.1) (he : (0x3D : Byte) ∉ srcs x.1)
    {level : Nat} (h1 : 1 ≤ level) (before after : Nat) (s : TokState) (hs : KeysCreated s) (hl : LineShows html s.tokenMap x.1 x.2) :
    ∃ s', Ends (fun n => headingLine (tokenizeContent env n) level (headPre level before ++ srcs x.1 ++ headPost level after)) s
        (tokenKey b!"HEADING" s.counter) s' ∧ Grows s s' ∧ KeyShows html s'.tokenMap b!"HEADING" s.counter (headHtml level x.2) := by
  obtain ⟨inner, hi, hline, hm, hne, htrim, hhead, hlast⟩ := head_frame hx he h1 before after
  rw [hline]
  have hpad : ∀ n, Padding (spaces n) := fun n c hc => Or.inl (List.eq_of_mem_replicate hc)
  have htext : headingText level (List.replicate level (0x3D : Byte) ++ inner ++ List.replicate level 0x3D) = srcs x.1 := by
    refine headingText_of_heading h1 htrim hlast ?_ ?_
    · rw [hi, trimSpace_pad (hpad _) (hpad _) hx.edges.trimmed]
    · intro h
      exact hm (h.subset (List.mem_replicate.mpr ⟨by omega, rfl⟩))
  have g0 : Grows s { s with counter := s.counter + 1 } := ⟨Nat.le_succ _, ⟨[], by simp⟩, ⟨[], by simp⟩⟩
  obtain ⟨y, s1, e, g, fy, ey⟩ := title_pass env html hp hx hr { s with counter := s.counter + 1 } (g0.keysCreated hs) hl
  refine ⟨{ s1 with tokenMap := (tokenKey b!"HEADING" s.counter, .heading (srcs y.1) level) :: s1.tokenMap }, ?_, g.reserved, ?_⟩
  · obtain ⟨k, e⟩ := e
    beta_reduce at e
    refine ⟨k, fun n hn => ?_⟩
    show headingLine (tokenizeContent env n) level _ s = _
    rw [headingLine, (isHeadingOf_iff htrim hne hhead hlast).mpr (Nat.le_refl _), if_pos rfl, htext]
    rw [TokM.bind_eq]
    simp only [getToken]
    rw [TokM.bind_eq, e n hn]
    rfl
  · intro tokens' ht
    have hext : TokensExtend s1.tokenMap ((tokenKey b!"HEADING" s.counter, .heading (srcs y.1) level) :: s1.tokenMap) := by
      intro k tok hk
      unfold lookupToken at hk ⊢
      rw [List.find?_cons]
      split
      · rename_i hkey
        simp only [beq_iff_eq] at hkey
        obtain ⟨e, he, _⟩ := Option.map_eq_some_iff.mp hk
        have hm := List.mem_of_find?_eq_some he
        have hke : e.1 = k := by simpa using List.find?_some he
        obtain ⟨_, ⟨new, hn, _, hnew⟩, _⟩ := g
        rw [hn] at hm
        rcases List.mem_append.mp hm with hm | hm
        · obtain ⟨t, i, h1, _, h2⟩ := hnew e hm
          have := tokenKey_number (h2.symm.trans (hke.trans hkey.symm))
          simp only at h1
          omega
        · obtain ⟨t, i, h1, h2⟩ := hs e hm
          have := tokenKey_number (h2.symm.trans (hke.trans hkey.symm))
          omega
      · exact hk
    obtain ⟨k, hk⟩ := expandString_atoms fy.leaf.ok fy.plain (fy.shows.extend (hext.trans ht))
    refine ⟨k, _, ht _ _ (lookup_head _ _ _), fun fuel hf => ?_⟩
    rw [expandToken, hk fuel hf, ey]
    rfl

/-- A block before the headings have been replaced. -/
def HeadGood (env : ParserEnv) (k : Nat) : Blk Leaf → Prop
  | .heading level _ _ x => 1 ≤ level ∧ level ≤ k ∧ LeafOk env x ∧ (0x3D : Byte) ∉ srcs x.1 ∧ NoRefs x.1
  | b => BlkGood env b

/-- The headings with the levels selected by `p` have been replaced. -/
def HeadStep (env : ParserEnv) (html : HtmlEnv) (tokens : List (Str × Token)) (p : Nat → Prop) (a b : Nat × Blk Leaf) : Prop :=
  a.1 = b.1 ∧ ((∃ level before after x y, a.2 = .heading level before after x ∧ p level ∧ b.2 = .element y ∧ y.2 = headHtml level x.2 ∧
      (∃ type i, y.1 = [.key type i]) ∧ LeafFinal env html tokens y) ∨
    ((∀ level before after x, a.2 = .heading level before after x → ¬ p level) ∧ b.2 = a.2))

theorem HeadStep.extend {env : ParserEnv} {html : HtmlEnv} {tokens tokens' : List (Str × Token)} {p : Nat → Prop} {a b : Nat × Blk Leaf}
    (h : HeadStep env html tokens p a b) (he : TokensExtend tokens tokens') : HeadStep env html tokens' p a b := by
  obtain ⟨h0, ⟨level, before, after, x, y, h1, h2, h3, h4, h5, h6⟩ | h⟩ := h
  · exact ⟨h0, Or.inl ⟨level, before, after, x, y, h1, h2, h3, h4, h5, h6.extend he⟩⟩
  · exact ⟨h0, Or.inr h⟩

theorem HeadStep.shows {env : ParserEnv} {html : HtmlEnv} {tokens : List (Str × Token)} {p : Nat → Prop} {d d' : List (Nat × Blk Leaf)}
    (h : List.Forall₂ (HeadStep env html tokens p) d d') (hd : DocShows html tokens d) : DocShows html tokens d' := by
  intro l hl
  obtain ⟨b, hb, hl⟩ := List.mem_flatMap.mp hl
  obtain ⟨a, ha, h1⟩ := forall₂_mem_right h hb
  rcases List.mem_append.mp hl with hl | hl
  · rw [List.eq_of_mem_replicate hl]; trivial
  · rcases h1.2 with ⟨_, _, _, x, y, _, _, e, _, _, hf⟩ | ⟨_, e⟩
    · rw [e, Blk.dlines, List.mem_singleton] at hl
      subst hl
      exact hf.shows
    · rw [e] at hl
      exact hd l (List.mem_flatMap.mpr ⟨a, ha, List.mem_append_right _ hl⟩)

theorem headingOk : b!"HEADING" ≠ [] ∧ ∀ c ∈ b!"HEADING", tokenChar c = true := by decide

theorem headings_level (env : ParserEnv) (html : HtmlEnv) (hp : PlainPrefixes env) (k : Nat) (d : List (Nat × Blk Leaf)) : ∀ (s : TokState) (_ : KeysCreated s)
    (_ : ∀ b ∈ d, HeadGood env (k + 1) b.2) (_ : DocShows html s.tokenMap d),
    ∃ d' s', Ends (fun n => headingLines (tokenizeContent env n) (k + 1) ((docLines d).map lineStr)) s ((docLines d').map lineStr) s' ∧ Grows s s' ∧
      List.Forall₂ (HeadStep env html s'.tokenMap (· = k + 1)) d d' := by
  induction d with
  | nil => exact fun s _ _ _ => ⟨[], s, Ends.pure _ s, Grows.refl s, .nil⟩
  | cons b d ih =>
    intro s hs h hd
    obtain ⟨n, b⟩ := b
    have hb : HeadGood env (k + 1) b := h (n, b) (by simp)
    have hdb : ∀ l ∈ b.dlines, l.All fun x => LineShows html s.tokenMap x.1 x.2 := fun l hl =>
      hd l (by rw [docLines, List.flatMap_cons]; exact List.mem_append_left _ (List.mem_append_right _ hl))
    have hother : (∀ l ∈ b.dlines.map lineStr, NoHead l) → (∀ level before after x, b = .heading level before after x → ¬ level = k + 1) →
        ∃ b' s', Ends (fun n => headingLines (tokenizeContent env n) (k + 1) (b.dlines.map lineStr)) s (b'.dlines.map lineStr) s' ∧ Grows s s' ∧
          HeadStep env html s'.tokenMap (· = k + 1) (n, b) (n, b') := fun h1 h2 =>
      ⟨b, s, Ends.noop s ⟨0, fun n _ => headingLines_noHead _ _ h1 k⟩, Grows.refl s, rfl, Or.inr ⟨h2, rfl⟩⟩
    have hblk : ∃ b' s', Ends (fun n => headingLines (tokenizeContent env n) (k + 1) (b.dlines.map lineStr)) s (b'.dlines.map lineStr) s' ∧ Grows s s' ∧
        HeadStep env html s'.tokenMap (· = k + 1) (n, b) (n, b') := by
      cases b with
      | heading level before after x =>
        obtain ⟨h1, h2, h3, h4, h5⟩ := hb
        have hl := hdb _ (List.mem_singleton.mpr rfl)
        by_cases hlev : level = k + 1
        · subst hlev
          obtain ⟨s', e, g, hk⟩ := heading_line env html hp h3 h5 h4 h1 before after s hs hl
          refine ⟨.element ([.key b!"HEADING" s.counter], headHtml (k + 1) x.2), s', ?_, g, rfl,
            Or.inl ⟨_, _, _, _, _, rfl, rfl, rfl, rfl, ⟨_, _, rfl⟩, leafFinal_key headingOk hk⟩⟩
          have := e.bind (g := fun _ r => pure [r]) (Ends.pure _ _)
          simpa [headingLines, Blk.dlines, lineStr, Atom.src] using this
        · refine ⟨.heading level before after x, s, Ends.noop s ⟨0, fun n _ => ?_⟩, Grows.refl s, rfl, Or.inr ⟨?_, rfl⟩⟩
          · have hno : isHeadingOf (k + 1) (lineStr (.one (headPre level before) x (headPost level after))) = false := by
              obtain ⟨inner, _, hline, _, hne, htrim, hhead, hlast⟩ := head_frame h3 h4 h1 before after
              rw [lineStr, hline, ← Bool.not_eq_true, isHeadingOf_iff htrim hne hhead hlast]
              omega
            simp [Blk.dlines, headingLines, headingLine, hno]
          · intro level' _ _ _ e
            cases e
            exact hlev
      | element x => exact hother (BlkGood.noHead hb) (by simp)
      | paragraph xs => exact hother (BlkGood.noHead hb) (by simp)
      | list t => exact hother (BlkGood.noHead hb) (by simp)
      | table t => exact hother (BlkGood.noHead hb) (by simp)
    obtain ⟨b', s1, e1, g1, h1⟩ := hblk
    obtain ⟨d', s2, e2, g2, h2⟩ := ih s1 (g1.keysCreated hs) (fun x hx => h x (by simp [hx])) (DocShows.extend (fun l hl => hd l (by
      rw [docLines, List.flatMap_cons]; exact List.mem_append_right _ hl)) (g1.extend hs))
    refine ⟨(n, b') :: d', s2, ?_, g1.trans g2, .cons (h1.extend (g2.extend (g1.keysCreated hs))) h2⟩
    have e3 := e1.bind (e2.bind (Ends.pure _ _) (g := fun n y => pure (b'.dlines.map lineStr ++ y)))
      (g := fun n x => do
        let y ← headingLines (tokenizeContent env n) (k + 1) ((docLines d).map lineStr)
        pure (x ++ y))
    have e4 := (Ends.pure (List.replicate n ([] : Str)) s).bind (g := fun j x => do
        let y ← (do
          let x ← headingLines (tokenizeContent env j) (k + 1) (b.dlines.map lineStr)
          let y ← headingLines (tokenizeContent env j) (k + 1) ((docLines d).map lineStr)
          pure (x ++ y))
        pure (x ++ y)) (e3.bind (Ends.pure _ _) (g := fun _ y => pure (List.replicate n [] ++ y)))
    refine Ends.congr ⟨0, fun j _ => ?_⟩ (by
      have e : List.replicate n [] ++ (b'.dlines.map lineStr ++ (docLines d').map lineStr) = (docLines ((n, b') :: d')).map lineStr := by
        simp [docLines, lineStr]
      rw [e] at e4
      exact e4)
    have e : (docLines ((n, b) :: d)).map lineStr = List.replicate n [] ++ (b.dlines.map lineStr ++ (docLines d).map lineStr) := by
      simp [docLines, lineStr]
    rw [e, headingLines_append, headingLines_noHead _ _ (fun l hl => by rw [List.eq_of_mem_replicate hl]; exact noHead_nil), headingLines_append]

theorem HeadStep.comp {env : ParserEnv} {html : HtmlEnv} {tokens : List (Str × Token)} {p : Nat → Prop} {d d1 d2 : List (Nat × Blk Leaf)}
    (f1 : List.Forall₂ (HeadStep env html tokens p) d d1) (f2 : List.Forall₂ (HeadStep env html tokens fun _ => True) d1 d2) :
    List.Forall₂ (HeadStep env html tokens fun _ => True) d d2 := by
  induction f1 generalizing d2 with
  | nil => cases f2; exact .nil
  | @cons a b _ _ r1 _ ih =>
    cases f2 with
    | cons r2 fs2 =>
      refine .cons ⟨r1.1.trans r2.1, ?_⟩ (ih fs2)
      rcases r1.2 with ⟨level, before, after, x, y, x1, x2, x3, x4, x5, x6⟩ | ⟨x1, x2⟩
      · rcases r2.2 with ⟨_, _, _, _, _, y1, _⟩ | ⟨y1, y2⟩
        · rw [x3] at y1; cases y1
        · exact Or.inl ⟨level, before, after, x, y, x1, trivial, y2.trans x3, x4, x5, x6⟩
      · rcases r2.2 with ⟨level, before, after, x, y, y1, y2, y3, y4, y5, y6⟩ | ⟨y1, y2⟩
        · exact Or.inl ⟨level, before, after, x, y, x2 ▸ y1, trivial, y3, y4, y5, y6⟩
        · exact Or.inr ⟨x2 ▸ y1, y2.trans x2⟩

theorem headings_levels (env : ParserEnv) (html : HtmlEnv) (hp : PlainPrefixes env) (k : Nat) : ∀ (d : List (Nat × Blk Leaf)) (s : TokState)
    (_ : KeysCreated s) (_ : ∀ b ∈ d, HeadGood env k b.2) (_ : DocShows html s.tokenMap d),
    ∃ d' s', Ends (fun n => headingDepths (tokenizeContent env n) k ((docLines d).map lineStr)) s ((docLines d').map lineStr) s' ∧ Grows s s' ∧
      DocShows html s'.tokenMap d' ∧ List.Forall₂ (HeadStep env html s'.tokenMap fun _ => True) d d' := by
  induction k with
  | zero =>
    intro d s hs h hd
    refine ⟨d, s, Ends.pure _ s, Grows.refl s, hd, ?_⟩
    rw [List.forall₂_same]
    intro b hb
    refine ⟨rfl, Or.inr ⟨?_, rfl⟩⟩
    intro level before after x e
    have := h b hb
    rw [e] at this
    have h1 : 1 ≤ level := this.1
    have h2 : level ≤ 0 := this.2.1
    omega
  | succ k ih =>
    intro d s hs h hd
    obtain ⟨d1, s1, e1, g1, f1⟩ := headings_level env html hp k d s hs h hd
    have h1 : ∀ b ∈ d1, HeadGood env k b.2 := by
      intro b hb
      obtain ⟨a, ha, h2⟩ := forall₂_mem_right f1 hb
      have hg := h a ha
      rcases h2.2 with ⟨_, _, _, x, y, _, _, e, _, _, hf⟩ | ⟨hno, e⟩
      · rw [e]
        exact hf.leaf
      · rw [e]
        cases ha2 : a.2 with
        | heading level before after x =>
          rw [ha2] at hg
          obtain ⟨x1, x2, x3, x4⟩ := hg
          have := hno level before after x ha2
          exact ⟨x1, by omega, x3, x4⟩
        | _ => rw [ha2] at hg; exact hg
    obtain ⟨d2, s2, e2, g2, hd2, f2⟩ := ih d1 s1 (g1.keysCreated hs) h1 (HeadStep.shows f1 (hd.extend (g1.extend hs)))
    refine ⟨d2, s2, e1.bind e2, g1.trans g2, hd2, ?_⟩
    exact HeadStep.comp (f1.imp fun _ _ h => h.extend (g2.extend (g1.keysCreated hs))) f2

theorem headGood_lines {env : ParserEnv} {k : Nat} {d : List (Nat × Blk Leaf)} (h : ∀ b ∈ d, HeadGood env k b.2) : ∀ l ∈ docLines d, l.All (LeafOk env) := by
  intro l hl
  obtain ⟨b, hb, hl⟩ := List.mem_flatMap.mp hl
  rcases List.mem_append.mp hl with hl' | hl'
  · rw [List.eq_of_mem_replicate hl']; trivial
  · have hg := h b hb
    have hgood : BlkGood env b.2 → l.All (LeafOk env) := fun hg =>
      docGood_lines (d := [b]) (by simpa using hg) l (by simp [docLines, hl'])
    cases hb2 : b.2 with
    | heading level before after x =>
      rw [hb2] at hg hl'
      rw [Blk.dlines, List.mem_singleton] at hl'
      subst hl'
      exact hg.2.2.1
    | _ => rw [hb2] at hg hgood; exact hgood hg

theorem headGood_plain {env : ParserEnv} {k : Nat} {d : List (Nat × Blk Leaf)} (h : ∀ b ∈ d, HeadGood env k b.2) : ∀ b ∈ d, b.2.Plain := by
  intro b hb
  have hg := h b hb
  cases hb2 : b.2 with
  | heading level before after x => trivial
  | _ => rw [hb2] at hg; exact BlkGood.plain hg

theorem headings_pass (env : ParserEnv) (html : HtmlEnv) (hp : PlainPrefixes env) (d : List (Nat × Blk Leaf)) (hne : docLines d ≠ [])
    (h : ∀ b ∈ d, HeadGood env 7 b.2) (s : TokState) (hs : KeysCreated s) (hd : DocShows html s.tokenMap d) :
    ∃ d' s', Ends (fun n => parseHeadings (tokenizeContent env n) (srcs (flatDoc d))) s (srcs (flatDoc d')) s' ∧ Grows s s' ∧
      DocShows html s'.tokenMap d' ∧ List.Forall₂ (HeadStep env html s'.tokenMap fun _ => True) d d' := by
  obtain ⟨d', s', e, g, hd', f⟩ := headings_levels env html hp 7 d s hs h hd
  refine ⟨d', s', ?_, g, hd', f⟩
  have := e.bind (g := fun _ r => pure (join b!"\n" r)) (Ends.pure _ _)
  refine Ends.congr ⟨0, fun n _ => ?_⟩ (srcs_flatDoc d' ▸ this)
  rw [parseHeadings, srcs_flatDoc, split_join_singleton (by simpa using hne) (lineStr_oneLine (headGood_lines h) (headGood_plain h))]

end Verif.Model
