import Verif.Lemmas.DocHeadings
import Verif.Lemmas.RefLoop

/-!
# The references of an article
-/

namespace Verif.Model
open Verif.Go Verif.Spec Verif.Lemmas Verif.Props
open scoped List

theorem infix_lowered_drop {p t : Str} (h : p <:+: lowered t) : ∃ i, lowered ((t.drop i).take p.length) = p := by
  obtain ⟨u, v, e⟩ := h
  refine ⟨u.length, ?_⟩
  rw [lowered_take, lowered, List.map_drop]
  have : List.map lowerByte t = u ++ (p ++ v) := by rw [← List.append_assoc]; exact e.symm
  rw [this, List.drop_left, List.take_left]

theorem OnlyMath.noRefTag {t : Str} (h : OnlyMath t) : NoRefTag t := by
  constructor
  · intro hi
    obtain ⟨i, hi⟩ := infix_lowered_drop hi
    have := (h.drop i).token (n := 4) (c := 0x72) (t := b!"ef") (by unfold TagCharacter; decide) (by decide)
    exact absurd (equals_of_lowered (pat := b!"<ref") hi (by decide)) (by rw [Bool.not_eq_true]; exact this)
  · intro hi
    obtain ⟨i, hi⟩ := infix_lowered_drop hi
    have := (h.drop i).endToken (n := 4) (c := 0x72) (t := b!"e") (by unfold TagCharacter; decide) (by decide)
    exact absurd (equals_of_lowered (pat := b!"</re") hi (by decide)) (by rw [Bool.not_eq_true]; exact this)

/-! ### The references of a line -/

def refItem (attrs : RefAttrs) (space : Nat) : RefKind RefText → RefItem RefText
  | .mention => .use b!"<ref" attrs (spaces space)
  | .define c => .define b!"<ref" attrs (spaces space) c b!"</ref>"
  | .list _ => .list b!"<references" attrs (spaces space)

/-- What a reference should become. -/
def kindPieces (number : Nat) : RefKind RefText → List (RefPiece RefText)
  | .list entries => [.list entries]
  | _ => [.marker number]

/-- There are no lists of references. -/
def NoRefLists (as : List Atom) : Prop := ∀ number attrs space entries, Atom.ref number attrs space (.list entries) ∉ as

/-- The numbers of the references of the elements behind other references. -/
def AtomsNumbered : List (RefItem RefText) → List Atom → Prop
  | _, [] => True
  | before, .ref number attrs space note :: rest =>
    refPieces before (refItem attrs space note) = kindPieces number note ∧ AtomsNumbered (before ++ [refItem attrs space note]) rest
  | before, _ :: rest => AtomsNumbered before rest

def atomRefs : List Atom → List (RefItem RefText)
  | [] => []
  | .ref _ attrs space note :: rest => refItem attrs space note :: atomRefs rest
  | _ :: rest => atomRefs rest

theorem AtomsNumbered.other {before : List (RefItem RefText)} {a : Atom} {as : List Atom} (h : a.isRef = false) :
    AtomsNumbered before (a :: as) ↔ AtomsNumbered before as := by
  cases a with
  | ref _ _ _ _ => simp [Atom.isRef] at h
  | _ => exact Iff.rfl

theorem atomRefs_other {a : Atom} {as : List Atom} (h : a.isRef = false) : atomRefs (a :: as) = atomRefs as := by
  cases a with
  | ref _ _ _ _ => simp [Atom.isRef] at h
  | _ => rfl

/-- The text of a reference is a line without references. -/
def NoteGood (env : ParserEnv) (html : HtmlEnv) (c : RefText) : Prop :=
  ∃ x : Leaf, LeafOk env x ∧ NoRefs x.1 ∧ (∀ tokens, LineShows html tokens x.1 x.2) ∧ c.marked = srcs x.1 ∧ c.html = x.2

def NotesGood (env : ParserEnv) (html : HtmlEnv) (as : List Atom) : Prop :=
  ∀ number attrs space c, Atom.ref number attrs space (.define c) ∈ as → NoteGood env html c

/-- The text of a reference has been tokenized. -/
def NoteTokens (html : HtmlEnv) (tokens : List (Str × Token)) (c : RefText) (text : Str) : Prop :=
  ∀ tokens', TokensExtend tokens tokens' → ∃ k, ∀ fuel, k ≤ fuel → expandString html tokens' fuel text = pure c.html

theorem RefInv.mono {α : Type} {P Q : α → Str → Prop} {items : List (RefItem α)} {st : RefState} (h : RefInv P items st)
    (hpq : ∀ a t, P a t → Q a t) : RefInv Q items st := by
  refine ⟨h.counter, h.names, fun g hg n => ?_, h.within, h.group⟩
  have := h.contents g hg n
  generalize assoc st.contents (modelGroup g, n) = u at this ⊢
  generalize refDefAt g items n = v at this ⊢
  cases this with
  | none => exact .none
  | some h => exact .some (hpq _ _ h)

theorem NoteTokens.extend {html : HtmlEnv} {tokens tokens' : List (Str × Token)} {c : RefText} {text : Str} (h : NoteTokens html tokens c text)
    (he : TokensExtend tokens tokens') : NoteTokens html tokens' c text := fun t ht => h t (he.trans ht)

theorem note_pass (env : ParserEnv) (html : HtmlEnv) (hp : PlainPrefixes env) {c : RefText} (hc : NoteGood env html c) (s : TokState)
    (hs : KeysCreated s) : ∃ text s', Ends (fun n => tokenizeContent env n c.marked) s text s' ∧ Grows s s' ∧ NoteTokens html s'.tokenMap c text := by
  obtain ⟨x, h1, h2, h3, h4, h5⟩ := hc
  obtain ⟨y, s', e, g, f, ey⟩ := title_pass env html hp h1 h2 s hs (h3 _)
  refine ⟨srcs y.1, s', by rw [h4]; exact e, g, fun tokens' ht => ?_⟩
  rw [h5, ← ey]
  exact expandString_atoms f.leaf.ok f.plain (f.shows.extend ht)

theorem refPieces_marker {before : List (RefItem RefText)} {attrs : RefAttrs} {space number : Nat} {note : RefKind RefText}
    {P : RefText → Str → Prop} {st : RefState} (hi : RefInv P before st) (ha : attrs.WellFormed)
    (hn : note = .mention → attrs.get b!"name" ≠ []) (hl : ∀ entries, note ≠ .list entries)
    (h : refPieces before (refItem attrs space note) = kindPieces number note) :
    st.within = false ∧ st.number (modelGroup (attrs.get b!"group")) (attrs.get b!"name") = number := by
  have hm : (refItem attrs space note).mentions before.length = some (attrs.get b!"group",
      if attrs.get b!"name" = [] then .unnamed before.length else .named (attrs.get b!"name")) := by
    cases note with
    | mention => rw [if_neg (hn rfl)]; rfl
    | define c => rfl
    | list entries => exact absurd rfl (hl entries)
  have hk : kindPieces number note = [.marker number] := by
    cases note with
    | list entries => exact absurd rfl (hl entries)
    | _ => rfl
  rw [refPieces, hm, hk] at h
  simp only at h
  split at h
  · rename_i ho
    refine ⟨by rw [hi.within, ho]; rfl, ?_⟩
    rw [(number_eq hi ha.notDefault hm rfl).1]
    simpa using h
  · cases h

theorem refUsage_ok : b!"REF_USAGE" ≠ [] ∧ ∀ c ∈ b!"REF_USAGE", tokenChar c = true := by decide

/-- The loop walks behind the elements. -/
theorem refs_loop (env : ParserEnv) (html : HtmlEnv) (hp : PlainPrefixes env) (rest : Str) (as : List Atom) (ho : ∀ a ∈ as, a.Ok env)
    (hn : NotesGood env html as) (hnl : NoRefLists as) : ∀ (before : List (RefItem RefText)) (_ : AtomsNumbered before as) (out y : Str) (pre : List Atom)
    (st : RefState) (s : TokState) (_ : (0x3C : Byte) ∉ y) (_ : ∀ a ∈ pre, a.Ok env) (_ : NoRefs pre) (_ : KeysCreated s)
    (_ : RefInv (NoteTokens html s.tokenMap) before st),
    ∃ out' y' pre' bs st' s' k c, (∀ n, k ≤ n → ∀ fuel, refLoop (tokenizeContent env n) (fuel + c) (out ++ (y ++ srcs pre) ++ (srcs as ++ rest)) out.length st s =
        refLoop (tokenizeContent env n) fuel (out' ++ (y' ++ srcs pre') ++ rest) out'.length st' s') ∧
      (0x3C : Byte) ∉ y' ∧ (∀ a ∈ pre', a.Ok env) ∧ NoRefs pre' ∧ Grows s s' ∧
      RefInv (NoteTokens html s'.tokenMap) (before ++ atomRefs as) st' ∧
      out' ++ (y' ++ srcs pre') = out ++ (y ++ srcs pre) ++ srcs bs ∧
      List.Forall₂ (Step env html s'.tokenMap) as bs ∧ NoRefs bs := by
  induction as with
  | nil =>
    intro before _ out y pre st s h1 h2 h3 _ h5
    exact ⟨out, y, pre, [], st, s, 0, 0, by simp, h1, h2, h3, Grows.refl s, by simpa [atomRefs] using h5, by simp, .nil, by simp [NoRefs]⟩
  | cons a as ih =>
    intro before hnum out y pre st s h1 h2 h3 h4 h5
    have ih := ih (fun x hx => ho x (by simp [hx])) (fun number attrs space c hx => hn number attrs space c (by simp [hx]))
      (fun number attrs space c hx => hnl number attrs space c (by simp [hx]))
    have ha := ho a (by simp)
    by_cases hr : a.isRef = true
    · cases a with
      | ref number attrs space note =>
        have ha : RefOk attrs note := ha
        obtain ⟨hnum1, hnum2⟩ := hnum
        have hnl : ∀ entries, note ≠ .list entries := fun entries e => hnl number attrs space entries (by rw [e]; simp)
        obtain ⟨hw, hnu⟩ := refPieces_marker h5 ha.attributes ha.name hnl hnum1
        have hskip : ∀ n fuel (item : RefItem Str) (r : Str), item.WellFormed → refLoop (tokenizeContent env n) (fuel + (y ++ srcs pre).length) (out ++ (y ++ srcs pre) ++ (item.text ++ r)) out.length st =
            refLoop (tokenizeContent env n) fuel (out ++ (y ++ srcs pre) ++ (item.text ++ r)) (out ++ (y ++ srcs pre)).length st := by
          intro n fuel item r hi
          exact refLoop_skip _ fuel out _ _ st (noRefTag_behind h1 (srcs_onlyMath h2 h3).noRefTag) (item_starts hi r).1 (item_starts hi r).2
        -- the state behind the tag
        have key : ∃ (st1 : RefState) (s1 : Nat × TokState) (k : Nat), (∀ n, k ≤ n → ∀ fuel, refLoop (tokenizeContent env n) (fuel + 1)
              (out ++ (y ++ srcs pre) ++ ((Atom.ref number attrs space note).src ++ (srcs as ++ rest))) (out ++ (y ++ srcs pre)).length st s =
              refLoop (tokenizeContent env n) fuel (out ++ (y ++ srcs pre) ++ tokenKey b!"REF_USAGE" s1.1 ++ (srcs as ++ rest))
                ((out ++ (y ++ srcs pre)).length + 1) st1 s1.2) ∧ Grows s s1.2 ∧
              lookupToken s1.2.tokenMap (tokenKey b!"REF_USAGE" s1.1) = some (.refUsage number) ∧
              RefInv (NoteTokens html s1.2.tokenMap) (before ++ [refItem attrs space note]) st1 ∧
              ∃ item : RefItem Str, item.WellFormed ∧ (Atom.ref number attrs space note).src = item.text := by
          have hsp : Spaces (spaces space) := fun c hc => List.eq_of_mem_replicate hc
          cases note with
          | list entries => exact absurd rfl (hnl entries)
          | mention =>
            have hi : (RefItem.use b!"<ref" attrs (spaces space)).WellFormed := ⟨by decide, ha.attributes, hsp, ha.name rfl⟩
            have he : (Atom.ref number attrs space .mention).src = (RefItem.use b!"<ref" attrs (spaces space)).text := by
              simp [Atom.src, RefItem.text, refRest, refWord]
            obtain ⟨key, s1, e1, g1, hk⟩ := refUsage_run st.within (st.number (modelGroup (attrs.get b!"group")) (attrs.get b!"name")) s
            rcases hk with ⟨hk, _⟩ | ⟨_, hk, i, rfl⟩
            · rw [hw] at hk; cases hk
            refine ⟨st.used (modelGroup (attrs.get b!"group")) (attrs.get b!"name"), (i, s1), 0, ?_, g1, by rw [← hnu]; exact hk, ?_, _, hi, he⟩
            · intro n _ fuel
              rw [he, refLoop_use _ _ _ st hi fuel, TokM.bind_eq, e1]
            · exact refInv_use (h5.mono fun _ _ h => h.extend (g1.extend h4)) ha.attributes (ha.name rfl)
          | define c =>
            have hc := hn number attrs space c (by simp)
            have hlt : (0x3C : Byte) ∉ c.marked := fun hm => (ha.text c rfl).1 _ hm (by decide)
            have hlt' : ∀ p : Str, p ≠ [] → p.head? = some 0x3C → ¬ p <:+: lowered c.marked := by
              intro p _ hp hi
              exact lt_not_mem_lowered hlt (hi.subset (List.mem_of_mem_head? hp))
            have hi : (RefItem.define b!"<ref" attrs (spaces space) c.marked b!"</ref>").WellFormed :=
              ⟨by decide, ha.attributes, hsp, by decide, hlt' _ (by decide) rfl, hlt' _ (by decide) rfl⟩
            have he : (Atom.ref number attrs space (.define c)).src = (RefItem.define b!"<ref" attrs (spaces space) c.marked b!"</ref>").text := by
              simp [Atom.src, RefItem.text, refRest, refWord]
            obtain ⟨text, s0, ⟨k0, e0⟩, g0, ht⟩ := note_pass env html hp hc s h4
            obtain ⟨key, s1, e1, g1, hk⟩ := refUsage_run st.within (st.number (modelGroup (attrs.get b!"group")) (attrs.get b!"name")) s0
            rcases hk with ⟨hk, _⟩ | ⟨_, hk, i, rfl⟩
            · rw [hw] at hk; cases hk
            have h40 := g0.keysCreated h4
            refine ⟨st.defined (modelGroup (attrs.get b!"group")) (attrs.get b!"name") text, (i, s1), k0, ?_, g0.trans g1, by rw [← hnu]; exact hk, ?_, _, hi, he⟩
            · intro n hkn fuel
              have e0 := e0 n hkn
              beta_reduce at e0
              rw [he, refLoop_define _ _ _ st hi fuel, TokM.bind_eq, e0]
              simp only
              rw [TokM.bind_eq, e1]
            · exact refInv_define (h5.mono fun _ _ h => h.extend ((g0.trans g1).extend h4)) ha.attributes (ht.extend (g1.extend h40))
        obtain ⟨st1, ⟨i, s1⟩, k1, e1, g1, hl, hi1, item, hw1, hit⟩ := key
        simp only at e1 g1 hl hi1
        obtain ⟨y1, hy1, hy2⟩ : ∃ y1, tokenKey b!"REF_USAGE" i = 0x24 :: y1 ∧ (0x3C : Byte) ∉ y1 := by
          have := not_mem_keyed (tokenKey_chars i (type := b!"REF_USAGE") (by decide)) (c := 0x3C) (by decide) (by decide)
          refine ⟨(tokenKey b!"REF_USAGE" i).tail, by simp [tokenKey], fun hm => this (List.mem_of_mem_tail hm)⟩
        obtain ⟨out', y', pre', bs, st', s', k, c, e2, r1, r2, r3, g2, r4, r5, r6, r7⟩ :=
          ih _ hnum2 (out ++ (y ++ srcs pre) ++ [0x24]) y1 [] st1 s1 hy2 (by simp) (by simp [NoRefs]) (g1.keysCreated h4) hi1
        refine ⟨out', y', pre', .key b!"REF_USAGE" i :: bs, st', s', max k k1, c + 1 + (y ++ srcs pre).length, ?_, r1, r2, r3, g1.trans g2, ?_, ?_, .cons ?_ r6, ?_⟩
        · intro n hn fuel
          rw [← e2 n (by omega) fuel]
          rw [srcs_cons, List.append_assoc _ (srcs as), ← Nat.add_assoc, ← Nat.add_assoc]
          have h0 := congrFun (hskip n (fuel + c + 1) item (srcs as ++ rest) hw1) s
          rw [← hit] at h0
          rw [h0, e1 n (by omega) (fuel + c)]
          rw [hy1]
          simp [List.append_assoc, Nat.add_assoc]
        · simpa [atomRefs] using r4
        · rw [r5]
          simp [Atom.src, hy1]
        · refine Step.toKey rfl refUsage_ok ?_
          intro t ht x hx
          obtain rfl : x = b!"[" ++ decimal (number + 1) ++ b!"]" := by
            cases note with
            | list entries => exact absurd rfl (hnl entries)
            | _ => exact hx
          intro tokens' ht'
          refine ⟨0, _, ht' _ _ (ht _ _ (g2.lookup (g1.keysCreated h4) hl)), fun fuel _ => ?_⟩
          rw [expandToken]
        · intro b hb
          rcases List.mem_cons.mp hb with rfl | hb
          · rfl
          · exact r7 b hb
      | _ => simp [Atom.isRef] at hr
    · have hr' : a.isRef = false := by simpa using hr
      obtain ⟨out', y', pre', bs, st', s', k, c, e, r1, r2, r3, g, r4, r5, r6, r7⟩ := ih before ((AtomsNumbered.other hr').mp hnum) out y (pre ++ [a]) st s h1
        (by intro x hx; rcases List.mem_append.mp hx with hx | hx; exacts [h2 x hx, List.mem_singleton.mp hx ▸ ha])
        (by intro x hx; rcases List.mem_append.mp hx with hx | hx; exacts [h3 x hx, List.mem_singleton.mp hx ▸ hr']) h4 h5
      refine ⟨out', y', pre', a :: bs, st', s', k, c, ?_, r1, r2, r3, g, by rw [atomRefs_other hr']; exact r4, ?_, .cons (Step.refl a) r6, ?_⟩
      · intro n hn fuel
        rw [← e n hn fuel]
        simp [List.append_assoc]
      · rw [r5]; simp
      · intro b hb
        rcases List.mem_cons.mp hb with rfl | hb
        · exact hr'
        · exact r7 b hb

/-! ### References with another kind of text -/

theorem mentions_map {α β : Type} (f : α → β) (item : RefItem α) (p : Nat) : (item.map f).mentions p = item.mentions p := by
  cases item <;> rfl

theorem refOrderFrom_map {α β : Type} (f : α → β) (group : Str) (items : List (RefItem α)) : ∀ (p : Nat) (known : List RefId),
    refOrderFrom group p known (items.map (RefItem.map f)) = refOrderFrom group p known items := by
  induction items with
  | nil => intro p known; rfl
  | cons item items ih =>
    intro p known
    rw [List.map_cons, refOrderFrom, refOrderFrom, mentions_map, ih]

theorem refOpenFrom_map {α β : Type} (f : α → β) (items : List (RefItem α)) : ∀ (o : Option Str),
    refOpenFrom o (items.map (RefItem.map f)) = refOpenFrom o items := by
  induction items with
  | nil => intro o; rfl
  | cons item items ih =>
    intro o
    cases item <;> exact ih _

theorem refDefsStep_map {α β : Type} (f : α → β) (group : Str) (p : Nat) (known : List (RefId × α)) (item : RefItem α) :
    refDefsStep group p (known.map (Prod.map id f)) (item.map f) = (refDefsStep group p known item).map (Prod.map id f) := by
  cases item with
  | define tag attrs space content closing =>
    show (if attrs.get b!"group" = group then _ else _) = List.map _ (if attrs.get b!"group" = group then _ else _)
    split <;> rfl
  | list tag attrs space =>
    show (if some (attrs.get b!"group") = some group then _ else _) = List.map _ (if some (attrs.get b!"group") = some group then _ else _)
    split <;> rfl
  | closeList tag group' =>
    show (if some group' = some group then _ else _) = List.map _ (if some group' = some group then _ else _)
    split <;> rfl
  | use tag attrs space => rfl
  | openList tag attrs space => rfl

theorem refDefsFrom_map {α β : Type} (f : α → β) (group : Str) (items : List (RefItem α)) : ∀ (p : Nat) (known : List (RefId × α)),
    refDefsFrom group p (known.map (Prod.map id f)) (items.map (RefItem.map f)) = (refDefsFrom group p known items).map (Prod.map id f) := by
  induction items with
  | nil => intro p known; rfl
  | cons item items ih =>
    intro p known
    rw [List.map_cons, refDefsFrom, refDefsFrom, refDefsStep_map, ih]

theorem refEntries_map {α β : Type} (f : α → β) (group : Str) (items : List (RefItem α)) :
    refEntries group (items.map (RefItem.map f)) = (refEntries group items).map fun e => (e.1, f e.2) := by
  have h1 : refOrder group (items.map (RefItem.map f)) = refOrder group items := refOrderFrom_map f group items 0 []
  have h2 : refDefs group (items.map (RefItem.map f)) = (refDefs group items).map (Prod.map id f) := refDefsFrom_map f group items 0 []
  rw [refEntries, refEntries, h1, h2, List.map_filterMap]
  congr 1
  funext x
  rw [List.find?_map, Option.map_map, Option.map_map]
  rfl

def pieceMap {α β : Type} (f : α → β) : RefPiece α → RefPiece β
  | .text t => .text t
  | .marker n => .marker n
  | .list entries => .list (entries.map fun e => (e.1, f e.2))

theorem refPieces_map {α β : Type} (f : α → β) (before : List (RefItem α)) (item : RefItem α) :
    refPieces (before.map (RefItem.map f)) (item.map f) = (refPieces before item).map (pieceMap f) := by
  rw [refPieces, refPieces, mentions_map, List.length_map]
  cases hm : item.mentions before.length with
  | none =>
    simp only
    have hl : (item.map f).listGroup = item.listGroup := by cases item <;> rfl
    rw [hl]
    cases item.listGroup with
    | none => rfl
    | some group => simp only [refEntries_map]; rfl
  | some x =>
    obtain ⟨group, id⟩ := x
    simp only
    have ho : refOpen (before.map (RefItem.map f)) = refOpen before := refOpenFrom_map f before none
    have hr : refOrder group (before.map (RefItem.map f) ++ [item.map f]) = refOrder group (before ++ [item]) := by
      have := refOrderFrom_map f group (before ++ [item]) 0 []
      rwa [List.map_append, List.map_singleton] at this
    rw [ho, hr]
    split <;> rfl

/-! ### The references of the elements -/

def Atom.numbered : Atom → Option (List (RefPiece RefText) × RefItem RefText)
  | .ref number attrs space note => some (kindPieces number note, refItem attrs space note)
  | _ => none

def numberedRefs (as : List Atom) : List (List (RefPiece RefText) × RefItem RefText) := as.filterMap Atom.numbered

def ItemsNumbered : List (RefItem RefText) → List (List (RefPiece RefText) × RefItem RefText) → Prop
  | _, [] => True
  | before, (pieces, item) :: rest => refPieces before item = pieces ∧ ItemsNumbered (before ++ [item]) rest

theorem atomsNumbered_iff (as : List Atom) : ∀ before, AtomsNumbered before as ↔ ItemsNumbered before (numberedRefs as) := by
  induction as with
  | nil => intro before; exact Iff.rfl
  | cons a as ih =>
    intro before
    cases a with
    | ref number attrs space note =>
      show _ ∧ _ ↔ _ ∧ _
      rw [ih]
      exact Iff.rfl
    | _ => exact ih before

theorem numberedRefs_append (as bs : List Atom) : numberedRefs (as ++ bs) = numberedRefs as ++ numberedRefs bs := List.filterMap_append

theorem numberedRefs_none {as : List Atom} (h : NoRefs as) : numberedRefs as = [] := by
  refine List.filterMap_eq_nil_iff.mpr fun a ha => ?_
  have := h a ha
  cases a with
  | ref _ _ _ _ => simp [Atom.isRef] at this
  | _ => rfl

def DLine.leaves {α : Type} : DLine α → List α
  | .blank => []
  | .one _ x _ => [x]
  | .pieces ps => ps.filterMap Sum.getRight?

theorem numberedRefs_line (l : DLine Leaf) : numberedRefs (lineAtoms l) = l.leaves.flatMap fun x => numberedRefs x.1 := by
  cases l with
  | blank => rfl
  | one pre x post =>
    show numberedRefs ([.text pre] ++ (x.1 ++ [.text post])) = _
    rw [numberedRefs_append, numberedRefs_append, numberedRefs_none (as := [.text pre]) (by simp [NoRefs, Atom.isRef]),
      numberedRefs_none (as := [.text post]) (by simp [NoRefs, Atom.isRef])]
    simp [DLine.leaves]
  | pieces ps =>
    show numberedRefs (ps.flatMap pieceAtoms) = _
    induction ps with
    | nil => rfl
    | cons p ps ih =>
      rw [List.flatMap_cons, numberedRefs_append, ih]
      cases p with
      | inl s => rfl
      | inr x => rfl

theorem numberedRefs_lines (ls : List (DLine Leaf)) : numberedRefs (flatLines ls) = (ls.flatMap DLine.leaves).flatMap fun x => numberedRefs x.1 := by
  induction ls with
  | nil => rfl
  | cons l ls ih =>
    cases ls with
    | nil => simp [flatLines, numberedRefs_line]
    | cons l' ls =>
      rw [flatLines, numberedRefs_append]
      rw [show numberedRefs (.text b!"\n" :: flatLines (l' :: ls)) = numberedRefs (flatLines (l' :: ls)) from rfl, ih, List.flatMap_cons (x := l), List.flatMap_append,
        numberedRefs_line]

end Verif.Model
