import Verif.Lemmas.DocRefs

/-!
# The lists of references of an article
-/

namespace Verif.Model
open Verif.Go Verif.Spec Verif.Lemmas Verif.Props
open scoped List

/-! ### Lines of several blocks -/

theorem flatLines_append {xs ys : List (DLine Leaf)} (hx : xs ≠ []) (hy : ys ≠ []) :
    flatLines (xs ++ ys) = flatLines xs ++ .text b!"\n" :: flatLines ys := by
  induction xs with
  | nil => exact absurd rfl hx
  | cons x xs ih =>
    cases xs with
    | nil =>
      obtain ⟨y, ys, rfl⟩ := List.exists_cons_of_ne_nil hy
      rfl
    | cons x' xs =>
      show lineAtoms x ++ .text b!"\n" :: flatLines ((x' :: xs) ++ ys) = _
      rw [ih (by simp), flatLines]
      simp

/-- The elements of further blocks. -/
def moreAtoms (d : List (Nat × Blk Leaf)) : List Atom := d.flatMap fun b => .text b!"\n" :: flatDoc [b]

theorem docLines_cons' {α : Type} (b : Nat × Blk α) (d : List (Nat × Blk α)) : docLines (b :: d) = docLines [b] ++ docLines d := by
  simp [docLines]

theorem flatDoc_more (b : Nat × Blk Leaf) (d : List (Nat × Blk Leaf)) (hb : docLines [b] ≠ []) (h : ∀ x ∈ d, docLines [x] ≠ []) :
    flatDoc (b :: d) = flatDoc [b] ++ moreAtoms d := by
  induction d generalizing b with
  | nil => simp [moreAtoms]
  | cons c d ih =>
    have hc := h c (by simp)
    have hne : docLines (c :: d) ≠ [] := by rw [docLines_cons']; simp [hc]
    rw [flatDoc, docLines_cons', flatLines_append hb hne, show flatLines (docLines (c :: d)) = flatDoc (c :: d) from rfl, ih c hc fun x hx => h x (by simp [hx])]
    show flatDoc [b] ++ _ = flatDoc [b] ++ ((.text b!"\n" :: flatDoc [c]) ++ moreAtoms d)
    simp only [List.cons_append]

mutual
theorem tree_ones {α : Type} (pre : Str) : ∀ (t : TreeList (Nat × α)), ∀ l ∈ TreeList.dlines pre t, ∃ p x, l = .one p x []
  | .mk m items => by rw [TreeList.dlines]; exact items_ones pre items
theorem items_ones {α : Type} (pre : Str) : ∀ (items : List (TreeItem (Nat × α))), ∀ l ∈ treeItemsDlines pre items, ∃ p x, l = .one p x []
  | [] => by rw [treeItemsDlines]; simp
  | .mk c x subs :: rest => by
    rw [treeItemsDlines]
    intro l hl
    rcases List.mem_cons.mp hl with rfl | hl
    · exact ⟨_, _, rfl⟩
    · rcases List.mem_append.mp hl with hl | hl
      · exact trees_ones _ subs l hl
      · exact items_ones pre rest l hl
theorem trees_ones {α : Type} (pre : Str) : ∀ (ts : List (TreeList (Nat × α))), ∀ l ∈ treesDlines pre ts, ∃ p x, l = .one p x []
  | [] => by rw [treesDlines]; simp
  | t :: ts => by
    rw [treesDlines]
    intro l hl
    rcases List.mem_append.mp hl with hl | hl
    · exact tree_ones pre t l hl
    · exact trees_ones pre ts l hl
end

theorem blk_dlines_ne {env : ParserEnv} {b : Blk Leaf} (h : BlkGood env b) (hz : b ≠ .paragraph []) : b.dlines ≠ [] := by
  cases b with
  | heading _ _ _ _ => exact h.elim
  | element x => simp [Blk.dlines]
  | paragraph xs => simpa [Blk.dlines] using hz
  | list t =>
    obtain ⟨m, items⟩ := t
    have hi := h.1
    cases items with
    | nil => exact absurd rfl hi
    | cons i items => cases i; simp [Blk.dlines, TreeList.dlines, treeItemsDlines]
  | table t => simp [Blk.dlines, tableDlines]

theorem blk_line_ne {env : ParserEnv} {b : Nat × Blk Leaf} (h : BlkGood env b.2) (hz : b.2 = .paragraph [] → b.1 ≠ 0) : docLines [b] ≠ [] := by
  by_cases hb : b.2 = .paragraph []
  · simp [docLines, hz hb]
  · simp [docLines, blk_dlines_ne h hb]

/-- Only the last block is empty, and there is an empty line in front of it. -/
def GapLast {α : Type} : List (Nat × Blk α) → Prop
  | [] => True
  | b :: d => (b.2 = .paragraph [] → b.1 ≠ 0 ∧ d = []) ∧ GapLast d

theorem GapLast.lines {α : Type} {d : List (Nat × Blk α)} (h : GapLast d) : ∀ b ∈ d, b.2 = .paragraph [] → b.1 ≠ 0 := by
  induction d with
  | nil => simp
  | cons b d ih =>
    intro x hx
    rcases List.mem_cons.mp hx with rfl | hx
    · exact fun e => (h.1 e).1
    · exact ih h.2 x hx

/-- The last line of a block is not empty. -/
theorem blk_last {env : ParserEnv} {b : Blk Leaf} (h : BlkGood env b) : ∀ l, b.dlines.getLast? = some l → lineStr l ≠ [] := by
  intro l hl
  have hm := List.mem_of_getLast? hl
  have hall : l.All (LeafOk env) := docGood_lines (d := [(0, b)]) (by simpa using h) l (by simpa [docLines] using hm)
  have one : (∃ p x, l = .one p x []) → lineStr l ≠ [] := by
    rintro ⟨p, x, rfl⟩
    have : LeafOk env x := hall
    simp [lineStr, this.srcs_ne]
  cases b with
  | heading _ _ _ _ => exact h.elim
  | element x => exact one ⟨_, _, List.mem_singleton.mp hm⟩
  | paragraph xs =>
    obtain ⟨x, _, rfl⟩ := List.mem_map.mp hm
    exact one ⟨_, _, rfl⟩
  | list t => exact one (tree_ones [] t l hm)
  | table t =>
    rw [Blk.dlines, tableDlines, List.getLast?_cons, List.getLast?_append, List.getLast?_append] at hl
    have : l = .pieces [.inl b!"|}"] := by simpa using hl.symm
    subst this
    simp [lineStr, pieceStr]

theorem blk_step_ne {R : Leaf → Leaf → Prop} {b b' : Blk Leaf} (h : BlkRel R b b') (hz : b ≠ .paragraph []) : b' ≠ .paragraph [] := by
  rintro rfl
  cases b <;> first | exact h.elim | skip
  rename_i xs
  have : List.Forall₂ R xs [] := h
  exact hz (by rw [List.forall₂_nil_right_iff.mp this])

/-- A block ends with a visible character. -/
theorem blk_visible {env : ParserEnv} {n : Nat} {b : Blk Leaf} (h : BlkGood env b) (hz : b ≠ .paragraph []) : EndsVisibly (srcs (flatDoc [(n, b)])) := by
  obtain ⟨ls, l, e⟩ : ∃ ls l, b.dlines = ls ++ [l] := by
    rcases List.eq_nil_or_concat b.dlines with e | ⟨ls, l, e⟩
    · exact absurd e (blk_dlines_ne h hz)
    · exact ⟨ls, l, by rw [e, List.concat_eq_append]⟩
  have hl := blk_last h l (by simp [e])
  have hd : docLines [(n, b)] = (List.replicate n .blank ++ ls) ++ [l] := by simp [docLines, e]
  have h1 := lineStr_oneLine (docGood_lines (d := [(n, b)]) (by simpa using h)) (by simpa using h.plain) (lineStr l) (by rw [hd]; simp)
  obtain ⟨x, c, ec⟩ : ∃ x c, lineStr l = x ++ [c] := by
    rcases List.eq_nil_or_concat (lineStr l) with e | ⟨x, c, e⟩
    · exact absurd e hl
    · exact ⟨x, c, by rw [e, List.concat_eq_append]⟩
  have hc : c ≠ 0x0A := fun hc => h1 (by rw [ec, hc]; simp)
  rw [srcs_flatDoc, hd, List.map_append, List.map_singleton]
  cases hw : (List.replicate n DLine.blank ++ ls).map lineStr with
  | nil => exact ⟨x, c, by simp [join, ec], hc⟩
  | cons w ws =>
    rw [← hw, join_append (by simp [hw]) (by simp)]
    exact ⟨_, c, by rw [show join b!"\n" [lineStr l] = x ++ [c] by simp [join, ec], ← List.append_assoc], hc⟩

theorem EndsVisibly.behind {k : Str} (h : EndsVisibly k) (a : Str) : EndsVisibly (a ++ k) := by
  obtain ⟨x, c, rfl, hc⟩ := h
  exact ⟨a ++ x, c, by simp, hc⟩

theorem withoutBreaks_visible {k : Str} (h : EndsVisibly k) (n : Nat) : withoutBreaks (k ++ List.replicate n 0x0A) = k := by
  rw [← trimNewlines_eq]
  induction n with
  | zero =>
    obtain ⟨x, c, rfl, hc⟩ := h
    simpa using trimNewlines_keep x hc
  | succ n ih =>
    rw [List.replicate_succ', ← List.append_assoc]
    exact (trimNewlines_break _).trans ih

/-! ### Lists of references -/

/-- The blocks with the entries of the lists of references. -/
inductive Spreads : Nat × Blk Leaf → List (Nat × Blk Leaf) → Prop where
  | same (b : Nat × Blk Leaf) : NoRefLists (flatDoc [b]) → Spreads b [b]
  | list (n number : Nat) (attrs : RefAttrs) (space : Nat) (entries : List (Nat × RefText)) (shown : Str) : entries ≠ [] → n < 19 →
    Spreads (n, .element ([.ref number attrs space (.list entries)], shown))
      (entries.map fun e => (0, .element ([.ref number attrs space (.list [e])], noteEntry e)))

theorem refDef_ok : b!"REF_DEF" ≠ [] ∧ ∀ c ∈ b!"REF_DEF", tokenChar c = true := by decide

theorem atomRefs_append (as bs : List Atom) : atomRefs (as ++ bs) = atomRefs as ++ atomRefs bs := by
  induction as with
  | nil => rfl
  | cons a as ih =>
    cases a with
    | ref _ _ _ _ => exact congrArg (_ :: ·) ih
    | _ => exact ih

theorem atomsNumbered_append (as bs : List Atom) : ∀ before, AtomsNumbered before (as ++ bs) ↔
    AtomsNumbered before as ∧ AtomsNumbered (before ++ atomRefs as) bs := by
  induction as with
  | nil => intro before; simp [AtomsNumbered, atomRefs]
  | cons a as ih =>
    intro before
    cases a with
    | ref number attrs space note =>
      show _ ∧ AtomsNumbered _ (as ++ bs) ↔ (_ ∧ _) ∧ AtomsNumbered (before ++ (refItem attrs space note :: atomRefs as)) bs
      rw [ih, and_assoc, List.append_assoc]
      rfl
    | _ => exact ih before

theorem notesGood_append {env : ParserEnv} {html : HtmlEnv} {as bs : List Atom} (h : NotesGood env html (as ++ bs)) :
    NotesGood env html as ∧ NotesGood env html bs :=
  ⟨fun n a s c hc => h n a s c (by simp [hc]), fun n a s c hc => h n a s c (by simp [hc])⟩

/-- The line of an entry. -/
def keyLine (k : Nat) : List Atom := [.text b!"\n", .text [], .key b!"REF_DEF" k, .text []]

theorem element_atoms (n : Nat) (x : Leaf) : flatDoc [(n, .element x)] = List.replicate n (.text b!"\n") ++ .text [] :: (x.1 ++ [.text []]) := by
  have h : docLines [(n, Blk.element x)] = List.replicate n .blank ++ [.one [] x []] := by simp [docLines, Blk.dlines]
  rw [flatDoc, h]
  clear h
  induction n with
  | zero => rfl
  | succ n ih =>
    rw [List.replicate_succ, List.replicate_succ, List.cons_append, List.cons_append, ← ih]
    cases n <;> rfl

theorem entries_step {env : ParserEnv} {html : HtmlEnv} {tokens tokens0 : List (Str × Token)} (ht : TokensExtend tokens0 tokens) (number : Nat) (attrs : RefAttrs)
    (space : Nat) {entries : List (Nat × RefText)} {keys : List Str} (hm : Matched (RefEntry (NoteTokens html tokens0) tokens) entries keys) :
    ∃ bs, List.Forall₂ (Step env html tokens)
        (moreAtoms (entries.map fun e => (0, .element ([.ref number attrs space (.list [e])], noteEntry e)))) bs ∧
      srcs bs = keys.flatMap (fun k => b!"\n" ++ k) ∧ NoRefs bs := by
  induction hm with
  | nil => exact ⟨[], .nil, rfl, by simp [NoRefs]⟩
  | @cons e key entries keys h1 _ ih =>
    obtain ⟨bs, f, e1, hr⟩ := ih
    obtain ⟨k, content, rfl, hp, hl⟩ := h1
    refine ⟨keyLine k ++ bs, ?_, ?_, ?_⟩
    · rw [List.map_cons, moreAtoms, List.flatMap_cons, ← moreAtoms, element_atoms]
      refine .cons (Step.refl _) (.cons (Step.refl _) (.cons ?_ (.cons (Step.refl _) f)))
      refine Step.toKey rfl refDef_ok ?_
      intro t ht' x hx
      obtain rfl : x = noteEntry e := by
        have hx : x = join b!"\n" ([e].map noteEntry) := hx
        rw [hx]; simp [join]
      intro tokens' ht''
      obtain ⟨c, hc⟩ := hp tokens' (ht.trans (ht'.trans ht''))
      refine ⟨c, _, ht'' _ _ (ht' _ _ hl), fun fuel hf => ?_⟩
      rw [expandToken]
      simp only [hc fuel hf]
      rfl
    · rw [srcs_append, e1, List.flatMap_cons]
      simp [keyLine, srcs, Atom.src]
    · intro b hb
      rcases List.mem_append.mp hb with hb | hb
      · simp only [keyLine, List.mem_cons, List.not_mem_nil, or_false] at hb
        rcases hb with rfl | rfl | rfl | rfl <;> rfl
      · exact hr b hb

/-- The loop walks behind the blocks. -/
theorem refs_blocks (env : ParserEnv) (html : HtmlEnv) (hp : PlainPrefixes env) {d : List (Nat × Blk Leaf)} {ds : List (List (Nat × Blk Leaf))}
    (hsp : List.Forall₂ Spreads d ds) (hg : ∀ b ∈ d, BlkGood env b.2) (hz : GapLast d) (hn : NotesGood env html (moreAtoms d)) :
    ∀ (before : List (RefItem RefText)) (_ : AtomsNumbered before (moreAtoms d)) (out y : Str) (pre : List Atom)
    (st : RefState) (s : TokState) (_ : (0x3C : Byte) ∉ y) (_ : ∀ a ∈ pre, a.Ok env) (_ : NoRefs pre) (_ : KeysCreated s)
    (_ : RefInv (NoteTokens html s.tokenMap) before st) (_ : refOpen before = none) (_ : d ≠ [] → EndsVisibly (out ++ (y ++ srcs pre))),
    ∃ out' y' pre' bs st' s' k c, (∀ n, k ≤ n → ∀ fuel, refLoop (tokenizeContent env n) (fuel + c) (out ++ (y ++ srcs pre) ++ srcs (moreAtoms d)) out.length st s =
        refLoop (tokenizeContent env n) fuel (out' ++ (y' ++ srcs pre')) out'.length st' s') ∧
      (0x3C : Byte) ∉ y' ∧ (∀ a ∈ pre', a.Ok env) ∧ NoRefs pre' ∧ Grows s s' ∧
      out' ++ (y' ++ srcs pre') = out ++ (y ++ srcs pre) ++ srcs bs ∧
      List.Forall₂ (Step env html s'.tokenMap) (moreAtoms ds.flatten) bs ∧ NoRefs bs := by
  induction hsp with
  | nil =>
    intro before _ out y pre st s h1 h2 h3 _ _ _ _
    exact ⟨out, y, pre, [], st, s, 0, 0, by simp [moreAtoms], h1, h2, h3, Grows.refl s, by simp, .nil, by simp [NoRefs]⟩
  | @cons b l d ds hb hsp ih =>
    intro before hnum out y pre st s h1 h2 h3 h4 h5 h6 h7
    have em : moreAtoms (b :: d) = (.text b!"\n" :: flatDoc [b]) ++ moreAtoms d := by rw [moreAtoms, List.flatMap_cons, ← moreAtoms]
    rw [em] at hn hnum
    obtain ⟨hn1, hn2⟩ := notesGood_append hn
    obtain ⟨hnum1, hnum2⟩ := (atomsNumbered_append _ _ _).mp hnum
    have hgb := hg b (by simp)
    replace h7 := h7 (by simp)
    have ih := ih (fun x hx => hg x (by simp [hx])) hz.2 hn2
    have hok : ∀ a ∈ flatDoc [b], a.Ok env := flatDoc_ok (docGood_lines (by simpa using hgb)) (by simpa using hgb.plain)
    have emf : moreAtoms (l :: ds).flatten = moreAtoms l ++ moreAtoms ds.flatten := by rw [List.flatten_cons, moreAtoms, List.flatMap_append]; rfl
    cases hb with
    | same _ hnl =>
      have hok' : ∀ a ∈ Atom.text b!"\n" :: flatDoc [b], a.Ok env := by
        intro a ha
        rcases List.mem_cons.mp ha with rfl | ha
        · exact textOk_frame (by decide)
        · exact hok a ha
      have hnl' : NoRefLists (.text b!"\n" :: flatDoc [b]) := by
        intro number attrs space entries ha
        rcases List.mem_cons.mp ha with ha | ha
        · cases ha
        · exact hnl _ _ _ _ ha
      obtain ⟨out1, y1, pre1, bs1, st1, s1, k1, c1, e1, r1, r2, r3, g1, r4, r5, r6, r7⟩ :=
        refs_loop env html hp (srcs (moreAtoms d)) _ hok' hn1 hnl' before hnum1 out y pre st s h1 h2 h3 h4 h5
      have hvis : d ≠ [] → EndsVisibly (out1 ++ (y1 ++ srcs pre1)) := by
        intro hd
        have hbz : b.2 ≠ .paragraph [] := fun e => hd (hz.1 e).2
        rw [r5]
        cases r6 with
        | @cons _ a' _ bs' q1 q2 =>
          obtain ⟨d', w1, rfl, _⟩ := flatDoc_unflatten Step.text [b] bs' q2
          cases w1 with
          | @cons _ b' _ _ w1 w2 =>
            cases w2
            have : BlkGood env b'.2 := hgb.step w1.2
            rw [srcs_cons, ← List.append_assoc]
            exact (blk_visible this (blk_step_ne w1.2 hbz)).behind _
      have hopen : refOpen (before ++ atomRefs (.text b!"\n" :: flatDoc [b])) = none := by
        have hno : ∀ as : List Atom, ∀ o, refOpenFrom o (atomRefs as) = o := by
          intro as
          induction as with
          | nil => intro o; rfl
          | cons a as ih =>
            intro o
            cases a with
            | ref number attrs space note => cases note <;> exact ih o
            | _ => exact ih o
        have happ : ∀ (xs ys : List (RefItem RefText)) (o : Option Str), refOpenFrom o (xs ++ ys) = refOpenFrom (refOpenFrom o xs) ys := by
          intro xs
          induction xs with
          | nil => intros; rfl
          | cons x xs ih => intro ys o; cases x <;> exact ih ys _
        rw [refOpen, happ, hno]
        exact h6
      obtain ⟨out', y', pre', bs, st', s', k, c, e, q1, q2, q3, g, q5, q6, q7⟩ :=
        ih _ hnum2 out1 y1 pre1 st1 s1 r1 r2 r3 (g1.keysCreated h4) r4 hopen hvis
      refine ⟨out', y', pre', bs1 ++ bs, st', s', max k k1, c + c1, ?_, q1, q2, q3, g1.trans g, ?_, ?_, ?_⟩
      · intro n hn fuel
        rw [← e n (by omega) fuel, ← Nat.add_assoc, em, srcs_append, e1 n (by omega)]
      · rw [q5, r5, srcs_append]
        simp
      · rw [emf]
        refine List.rel_append (by simpa [moreAtoms] using r6.imp fun _ _ h => h.extend (g.extend (g1.keysCreated h4))) q6
      · intro b hb
        rcases List.mem_append.mp hb with hb | hb
        · exact r7 b hb
        · exact q7 b hb
    | list n number attrs space entries shown hne hlt =>
      have ea : Atom.text b!"\n" :: flatDoc [(n, Blk.element ([Atom.ref number attrs space (.list entries)], shown))] =
          List.replicate (n + 1) (.text b!"\n") ++ [.text [], .ref number attrs space (.list entries), .text []] := by
        rw [element_atoms]; rfl
      have ets : NoRefs (List.replicate (n + 1) (.text b!"\n")) := fun a ha => by rw [List.eq_of_mem_replicate ha]; rfl
      have hes : srcs (List.replicate (n + 1) (.text b!"\n")) = List.replicate (n + 1) 0x0A := by
        generalize n + 1 = m
        induction m with
        | zero => rfl
        | succ m ih => rw [List.replicate_succ, List.replicate_succ, srcs_cons, ih]; rfl
      have hrn : ∀ as : List Atom, NoRefs as → atomRefs as = [] := by
        intro as
        induction as with
        | nil => intro _; rfl
        | cons a as ih => intro h; rw [atomRefs_other (h a (by simp))]; exact ih fun x hx => h x (by simp [hx])
      rw [ea] at hn1 hnum1 hnum2
      have hx : srcs (.text b!"\n" :: flatDoc [(n, Blk.element ([Atom.ref number attrs space (.list entries)], shown))]) =
          List.replicate (n + 1) 0x0A ++ (RefItem.list b!"<references" attrs (spaces space)).text := by
        rw [ea, srcs_append, hes]
        simp [srcs, Atom.src, refWord, refRest, RefItem.text]
      have hra : atomRefs (List.replicate (n + 1) (.text b!"\n") ++ [.text [], .ref number attrs space (.list entries), .text []]) =
          [.list b!"<references" attrs (spaces space)] := by
        rw [atomRefs_append, hrn _ ets]
        rfl
      rw [hra] at hnum2
      have hnl : refPieces before (.list b!"<references" attrs (spaces space)) = [.list entries] := by
        have := ((atomsNumbered_append _ _ _).mp hnum1).2
        rw [hrn _ ets, List.append_nil] at this
        exact this.1
      have hent : refEntries (attrs.get b!"group") before = entries := by simpa [refPieces, RefItem.mentions, RefItem.listGroup] using hnl
      have hro : RefOk attrs (.list entries) := hok (.ref number attrs space (.list entries)) (by rw [element_atoms]; simp)
      have hi : (RefItem.list b!"<references" attrs (spaces space) : RefItem Str).WellFormed :=
        ⟨by decide, hro.attributes, fun c hc => List.eq_of_mem_replicate hc⟩
      obtain ⟨keys, s1, e1, g1, hm, hkeys⟩ := refListed_run h5 hro.attributes.notDefault (out ++ (y ++ srcs pre) ++ List.replicate (n + 1) 0x0A) s h4
      rw [withoutBreaks_visible h7] at e1
      rw [hent] at hm
      obtain ⟨bs1, f1, eb1, hr1⟩ := entries_step (env := env) (g1.extend h4) number attrs space hm
      have hlen := keys_length keys hkeys
      have hkn : 1 ≤ keys.length := by
        rw [← Matched.length hm]
        exact List.length_pos_iff.mpr hne
      have hklt := keys_no_lt keys hkeys
      have hkv : EndsVisibly (keys.flatMap fun k => b!"\n" ++ k) := by
        rcases List.eq_nil_or_concat keys with rfl | ⟨l, k, rfl⟩
        · simp at hkn
        · obtain ⟨n, rfl⟩ := hkeys k (by simp)
          have : (l.concat (tokenKey b!"REF_DEF" n)).flatMap (fun k => b!"\n" ++ k) =
              (l.flatMap (fun k => b!"\n" ++ k) ++ b!"\n") ++ tokenKey b!"REF_DEF" n := by simp
          rw [this]
          exact (tokenKey_visible _ _).behind _
      generalize (keys.flatMap fun k => b!"\n" ++ k) = w at *
      have hopen : refOpen (before ++ [.list b!"<references" attrs (spaces space)]) = none := by
        rw [refOpen, refOpenFrom_append]
        exact h6
      have hinv := refInv_listed (h5.mono fun _ _ h => h.extend (g1.extend h4)) (item := .list b!"<references" attrs (spaces space)) hro.attributes.notDefault rfl hopen
      have htd : w.take (n + 2) ++ w.drop (n + 2) = w := List.take_append_drop _ _
      have hvis : d ≠ [] → EndsVisibly ((out ++ (y ++ srcs pre) ++ w.take (n + 2)) ++ (w.drop (n + 2) ++ srcs [])) := by
        intro _
        rw [srcs_nil, List.append_nil, List.append_assoc _ (w.take (n + 2)), htd]
        exact hkv.behind _
      obtain ⟨out', y', pre', bs, st', s', k, c, e, q1, q2, q3, g, q5, q6, q7⟩ :=
        ih _ hnum2 (out ++ (y ++ srcs pre) ++ w.take (n + 2)) (w.drop (n + 2)) [] _ s1 (fun hc => hklt (List.mem_of_mem_drop hc)) (by simp)
          (by simp [NoRefs]) (g1.keysCreated h4) hinv hopen hvis
      refine ⟨out', y', pre', bs1 ++ bs, st', s', k, c + 1 + (y ++ srcs pre ++ List.replicate (n + 1) 0x0A).length, ?_, q1, q2, q3, g1.trans g, ?_, ?_, ?_⟩
      · intro m hm fuel
        rw [← e m hm fuel, em, srcs_append, hx, ← Nat.add_assoc, ← Nat.add_assoc]
        have hskip := refLoop_skip (tokenizeContent env m) (fuel + c + 1) out (y ++ srcs pre ++ List.replicate (n + 1) 0x0A)
          ((RefItem.list b!"<references" attrs (spaces space)).text ++ srcs (moreAtoms d)) st (by
            rw [List.append_assoc, ← hes, ← srcs_append]
            refine noRefTag_behind h1 (srcs_onlyMath (env := env) ?_ ?_).noRefTag
            · intro a ha
              rcases List.mem_append.mp ha with ha | ha
              · exact h2 a ha
              · rw [List.eq_of_mem_replicate ha]; exact textOk_frame (by decide)
            · intro a ha
              rcases List.mem_append.mp ha with ha | ha
              · exact h3 a ha
              · exact ets a ha) (item_starts hi _).1 (item_starts hi _).2
        have e0 := refLoop_list (tokenizeContent env m) (out ++ (y ++ srcs pre) ++ List.replicate (n + 1) 0x0A) (srcs (moreAtoms d)) st hi (by
          have := h5.group; rw [h6] at this; exact this) (fuel + c)
        have ec1 : out ++ (y ++ srcs pre ++ List.replicate (n + 1) 0x0A) = out ++ (y ++ srcs pre) ++ List.replicate (n + 1) 0x0A := by
          rw [← List.append_assoc]
        rw [ec1] at hskip
        have ec2 : out ++ (y ++ srcs pre) ++ (List.replicate (n + 1) 0x0A ++ (RefItem.list b!"<references" attrs (spaces space)).text ++ srcs (moreAtoms d)) =
            out ++ (y ++ srcs pre) ++ List.replicate (n + 1) 0x0A ++ ((RefItem.list b!"<references" attrs (spaces space)).text ++ srcs (moreAtoms d)) := by
          simp only [List.append_assoc]
        rw [ec2, congrFun hskip s, e0, TokM.bind_eq, e1]
        simp only
        have ec3 : out ++ (y ++ srcs pre) ++ w ++ srcs (moreAtoms d) =
            out ++ (y ++ srcs pre) ++ w.take (n + 2) ++ (w.drop (n + 2) ++ srcs []) ++ srcs (moreAtoms d) := by
          rw [srcs_nil, List.append_nil, List.append_assoc _ (w.take (n + 2)), htd]
        have ec4 : (out ++ (y ++ srcs pre) ++ List.replicate (n + 1) 0x0A).length + 1 = (out ++ (y ++ srcs pre) ++ w.take (n + 2)).length := by
          simp only [List.length_append, List.length_replicate, List.length_take] at *
          omega
        rw [ec3, ec4]
      · rw [q5, srcs_append, eb1, srcs_nil, List.append_nil, List.append_assoc _ (w.take (n + 2)), htd]
        simp
      · rw [emf]
        exact List.rel_append (f1.imp fun _ _ h => h.extend (g.extend (g1.keysCreated h4))) q6
      · intro b hb
        rcases List.mem_append.mp hb with hb | hb
        · exact hr1 b hb
        · exact q7 b hb

theorem Spreads.lines {env : ParserEnv} {b : Nat × Blk Leaf} {l : List (Nat × Blk Leaf)} (h : Spreads b l) (hg : BlkGood env b.2) (hz : b.2 = .paragraph [] → b.1 ≠ 0) : ∀ x ∈ l, docLines [x] ≠ [] := by
  cases h with
  | same _ _ => intro x hx; rw [List.mem_singleton.mp hx]; exact blk_line_ne hg hz
  | list n number attrs space entries shown _ _ =>
    intro x hx
    obtain ⟨e, _, rfl⟩ := List.mem_map.mp hx
    simp [docLines, Blk.dlines]

/-- All references of an article are replaced by keys, the lists of references by lines with keys. -/
theorem refs_document (env : ParserEnv) (html : HtmlEnv) (hp : PlainPrefixes env) {b : Nat × Blk Leaf} {d : List (Nat × Blk Leaf)} {ds : List (List (Nat × Blk Leaf))}
    (hb : NoRefLists (flatDoc [b])) (hsp : List.Forall₂ Spreads d ds) (hg : ∀ x ∈ b :: d, BlkGood env x.2)
    (hz : GapLast (b :: d)) (hn : NotesGood env html (flatDoc (b :: d)))
    (hnum : AtomsNumbered [] (flatDoc (b :: d))) (s : TokState) (hs : KeysCreated s) :
    ∃ bs s', Ends (fun n => parseReferences (tokenizeContent env n) n (srcs (flatDoc (b :: d)))) s (srcs bs) s' ∧ Grows s s' ∧
      List.Forall₂ (Step env html s'.tokenMap) (flatDoc (b :: ds.flatten)) bs ∧ NoRefs bs := by
  have hgb := hg b (by simp)
  have hgd : ∀ x ∈ d, BlkGood env x.2 := fun x hx => hg x (by simp [hx])
  have hds : ∀ x ∈ ds.flatten, docLines [x] ≠ [] := by
    intro x hx
    obtain ⟨l, hl, hx⟩ := List.mem_flatten.mp hx
    obtain ⟨a, ha, h⟩ := forall₂_mem_right hsp hl
    exact h.lines (hgd a ha) (hz.lines a (by simp [ha])) x hx
  have hbl := blk_line_ne hgb (hz.lines b (by simp))
  have e0 := flatDoc_more b d hbl fun x hx => blk_line_ne (hgd x hx) (hz.lines x (by simp [hx]))
  have e1 := flatDoc_more b ds.flatten hbl hds
  rw [e0] at hn hnum ⊢
  rw [e1]
  obtain ⟨hn1, hn2⟩ := notesGood_append hn
  obtain ⟨hnum1, hnum2⟩ := (atomsNumbered_append _ _ _).mp hnum
  have hok : ∀ a ∈ flatDoc [b], a.Ok env := flatDoc_ok (docGood_lines (by simpa using hgb)) (by simpa using hgb.plain)
  obtain ⟨out1, y1, pre1, bs1, st1, s1, k1, c1, w1, r1, r2, r3, g1, r4, r5, r6, r7⟩ :=
    refs_loop env html hp (srcs (moreAtoms d)) _ hok hn1 hb [] hnum1 [] [] [] _ s (by simp) (by simp) (by simp [NoRefs]) hs (refInv_nil _)
  simp only [srcs_nil, List.append_nil, List.nil_append, List.length_nil] at w1 r5 r4
  have hvis : d ≠ [] → EndsVisibly (out1 ++ (y1 ++ srcs pre1)) := by
    intro hd
    have hbz : b.2 ≠ .paragraph [] := fun e => hd (hz.1 e).2
    rw [r5]
    obtain ⟨d', v1, rfl, _⟩ := flatDoc_unflatten Step.text [b] bs1 r6
    cases v1 with
    | @cons _ b' _ _ v1 v2 =>
      cases v2
      exact blk_visible (hgb.step v1.2) (blk_step_ne v1.2 hbz)
  have hopen : refOpen (atomRefs (flatDoc [b])) = none := by
    generalize flatDoc [b] = as
    have : ∀ o, refOpenFrom o (atomRefs as) = o := by
      induction as with
      | nil => intro o; rfl
      | cons a as ih =>
        intro o
        cases a with
        | ref number attrs space note => cases note <;> exact ih o
        | _ => exact ih o
    exact this none
  obtain ⟨out', y', pre', bs, st', s', k, c, e, q1, q2, q3, g, q5, q6, q7⟩ :=
    refs_blocks env html hp hsp hgd hz.2 hn2 _ hnum2 out1 y1 pre1 st1 s1 r1 r2 r3 (g1.keysCreated hs) r4 hopen hvis
  refine ⟨bs1 ++ bs, s', ⟨max (max k k1) (c + c1 + (y' ++ srcs pre').length + 1), fun n hkn => ?_⟩, g1.trans g, ?_, ?_⟩
  · obtain ⟨m, rfl⟩ : ∃ m, n = m + c + c1 := ⟨n - c - c1, by omega⟩
    show parseReferences _ _ _ s = _
    rw [parseReferences, srcs_append, w1 _ (by omega) (m + c), e _ (by omega) m]
    rw [refLoop_last _ (y' ++ srcs pre').length m _ _ _ (by simp) (by omega)
      (by rw [List.drop_left]; exact noRefTag_behind q1 (srcs_onlyMath q2 q3).noRefTag), q5, r5, srcs_append]
    rfl
  · exact List.rel_append (r6.imp fun _ _ h => h.extend (g.extend (g1.keysCreated hs))) q6
  · intro b hb
    rcases List.mem_append.mp hb with hb | hb
    · exact r7 b hb
    · exact q7 b hb

end Verif.Model
