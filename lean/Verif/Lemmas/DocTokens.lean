import Verif.Lemmas.DocFormat
import Verif.Lemmas.DocRefList
import Verif.Props.PlainText

/-!
# The tokenizer on an article
-/

namespace Verif.Model
open Verif.Go Verif.Spec Verif.Lemmas Verif.Props
open scoped List

/-! ### The article before the first pass -/

def docBlk : DocBlock → Blk RichLine
  | .heading level before after title => .heading level before after title
  | .paragraph lines => .paragraph lines
  | .list l => .list l
  | .image p => .element [⟨none, [.image p]⟩]
  | .table t => .table t
  | .references attrs space entries => .element (referencesLine attrs space entries)
  | .gap => .paragraph []

def startDoc (doc : List (Nat × DocBlock)) : List (Nat × Blk RichLine) := doc.map fun b => (b.1, docBlk b.2)

theorem block_source (b : DocBlock) : b.source = (docBlk b).dlines.map (strOf lineSource) := by
  cases b with
  | heading level before after title => simp [DocBlock.source, docBlk, Blk.dlines, strOf, headPre, headPost]
  | paragraph lines => simp [DocBlock.source, docBlk, Blk.dlines, strOf]
  | list l =>
    have := toWiki_lines_of lineSource [] l
    simpa [DocBlock.source, docBlk, Blk.dlines] using this
  | image p => simp [DocBlock.source, docBlk, Blk.dlines, strOf, lineSource, Run.source, Inline.source]
  | table t => exact (table_source lineSource t).symm
  | references attrs space entries =>
    simp [DocBlock.source, docBlk, Blk.dlines, strOf, referencesLine, lineSource, Run.source, Inline.source, ArticleRef.source]
  | gap => rfl

/-- An image as the only part of a line. -/
theorem image_line_ok {env : ParserEnv} {p : ArticleImage} (h : p.WellFormed env) : RichLineOk env [⟨none, [.image p]⟩] := by
  have e : lineSource [⟨none, [.image p]⟩] = b!"[[" ++ (p.space ++ b!":" ++ p.written.inner) ++ b!"]]" := by
    simp [lineSource, Run.source, Inline.source, WikiImage.source, ArticleImage.written]
  refine ⟨by simp, ?_, trivial, ?_, ?_⟩
  · intro r hr
    rw [List.mem_singleton.mp hr]
    refine ⟨by simp, ?_, by simp⟩
    intro x hx
    rw [List.mem_singleton.mp hx]
    exact h
  · rw [e]
    refine trimSpace_visible ?_ ?_
    · intro c hc
      have : c = 0x5B := by simpa using hc.symm
      subst this
      decide
    · intro c hc
      rw [List.getLast?_append_of_ne_nil _ (by decide)] at hc
      have : c = 0x5D := by simpa using hc.symm
      subst this
      decide
  · intro c hc
    rw [e] at hc
    have : c = 0x5B := by simpa using hc.symm
    subst this
    decide

/-- A list of references as the only part of a line. -/
theorem references_line_ok {env : ParserEnv} {attrs : RefAttrs} {space : Nat} {entries : List (Nat × NoteText)}
    (h : (⟨0, attrs, space, .list entries⟩ : ArticleRef).WellFormed env) : RichLineOk env (referencesLine attrs space entries) := by
  have e : lineSource (referencesLine attrs space entries) = b!"<references" ++ (attrs.text ++ spaces space) ++ b!"/>" := by
    simp [referencesLine, lineSource, Run.source, Inline.source, ArticleRef.source]
  refine ⟨by simp [referencesLine], ?_, trivial, ?_, ?_⟩
  · intro r hr
    rw [List.mem_singleton.mp hr]
    refine ⟨by simp, ?_, by simp⟩
    intro x hx
    rw [List.mem_singleton.mp hx]
    exact h
  · rw [e]
    refine trimSpace_visible ?_ ?_
    · intro c hc
      have : c = 0x3C := by simpa using hc.symm
      subst this
      decide
    · intro c hc
      rw [List.getLast?_append_of_ne_nil _ (by decide)] at hc
      have : c = 0x3E := by simpa using hc.symm
      subst this
      decide
  · intro c hc
    rw [e] at hc
    have : c = 0x3C := by simpa using hc.symm
    subst this
    decide

theorem documentSource_lines (doc : List (Nat × DocBlock)) : documentSource doc = (docLines (startDoc doc)).map (strOf lineSource) := by
  induction doc with
  | nil => rfl
  | cons b doc ih =>
    rw [documentSource, List.flatMap_cons, ← documentSource, ih]
    show _ = (List.replicate b.1 DLine.blank ++ (docBlk b.2).dlines ++ docLines (startDoc doc)).map (strOf lineSource)
    rw [List.map_append, List.map_append, block_source, List.map_replicate]
    rfl

/-- The block is the block of the article as atoms. -/
def IsLeaf (env : ParserEnv) (html : HtmlEnv) (l : RichLine) (x : Leaf) : Prop := x = leafOf env html l

/-- The block of the article as atoms, with the same lines. -/
def Started (env : ParserEnv) (html : HtmlEnv) (a : Nat × DocBlock) (b : Nat × Blk Leaf) : Prop :=
  a.1 = b.1 ∧ BlkRel (IsLeaf env html) (docBlk a.2) b.2 ∧ b.2.dlines = (docBlk a.2).dlines.map (DLine.map (leafOf env html))

theorem started_lines {env : ParserEnv} {html : HtmlEnv} {doc : List (Nat × DocBlock)} {d : List (Nat × Blk Leaf)} (h : List.Forall₂ (Started env html) doc d) :
    docLines d = (docLines (startDoc doc)).map (DLine.map (leafOf env html)) := by
  induction h with
  | nil => rfl
  | @cons a b doc d h1 _ ih =>
    show List.replicate b.1 DLine.blank ++ b.2.dlines ++ docLines d = (List.replicate a.1 DLine.blank ++ (docBlk a.2).dlines ++ docLines (startDoc doc)).map _
    rw [ih, h1.2.2, ← h1.1, List.map_append, List.map_append, List.map_replicate]
    rfl

theorem start_atoms (env : ParserEnv) (html : HtmlEnv) (doc : List (Nat × DocBlock)) : ∃ d : List (Nat × Blk Leaf), List.Forall₂ (Started env html) doc d := by
  induction doc with
  | nil => exact ⟨[], .nil⟩
  | cons a doc ih =>
    obtain ⟨d, h⟩ := ih
    suffices ∃ b, BlkRel (IsLeaf env html) (docBlk a.2) b ∧ b.dlines = (docBlk a.2).dlines.map (DLine.map (leafOf env html)) by
      obtain ⟨b, h1, h2⟩ := this
      exact ⟨(a.1, b) :: d, .cons ⟨rfl, h1, h2⟩ h⟩
    refine blk_unflatten (docBlk a.2) _ ?_
    clear h
    generalize (docBlk a.2).dlines = ls
    induction ls with
    | nil => exact .nil
    | cons l ls ih =>
      refine .cons ?_ ih
      cases l with
      | blank => trivial
      | one pre x post => exact ⟨rfl, rfl, rfl⟩
      | pieces ps =>
        show List.Forall₂ _ ps (ps.map _)
        induction ps with
        | nil => exact .nil
        | cons p ps ih =>
          refine .cons ?_ ih
          cases p <;> rfl

theorem mem_src_written {a : Atom} (hr : a.isRef = false) {c : Byte} (hc : c ≠ 0x24 ∧ tokenChar c = false) (h : c ∈ a.src) : c ∈ writtenAtom a := by
  cases a with
  | mark m => exact absurd h (not_mem_keyed (marker_chars m) hc.1 hc.2)
  | image i file cap =>
    have hcap : c ∈ capText cap → c ∈ capWritten cap := by
      cases cap with
      | none => exact id
      | some x =>
        simp only [capWritten, capText, List.mem_append]
        rintro (h | h)
        · exact Or.inl h
        · obtain ⟨a, ha, h⟩ := mem_capSrc.mp h
          refine Or.inr (List.mem_flatMap.mpr ⟨a, ha, ?_⟩)
          cases a with
          | mark m => exact absurd h (not_mem_keyed (marker_chars m) hc.1 hc.2)
          | _ => exact h
    simp only [writtenAtom, Atom.src, List.mem_append] at h ⊢
    tauto
  | ref _ _ _ _ => simp [Atom.isRef] at hr
  | _ => exact h

theorem richAtoms_noRefs (env : ParserEnv) {l : RichLine} (h : lineRefs l = []) : NoRefs (richAtoms env l) := by
  intro a ha
  rcases mem_richAtoms ha with ⟨r, hr, p, hp, rfl⟩ | ⟨m, rfl⟩
  · cases p with
    | ref x =>
      have : x ∈ lineRefs l := List.mem_flatMap.mpr ⟨r, hr, List.mem_filterMap.mpr ⟨_, hp, rfl⟩⟩
      rw [h] at this
      cases this
    | _ => rfl
  · rfl

theorem not_mem_leaf {env : ParserEnv} {html : HtmlEnv} {l : RichLine} (hr : lineRefs l = []) {c : Byte} (h : c ∉ lineSource l) (hc : c ≠ 0x24 ∧ tokenChar c = false) :
    c ∉ srcs (leafOf env html l).1 := by
  rw [mem_srcs]
  rintro ⟨a, ha, hm⟩
  refine h ?_
  rw [lineSource_atoms env]
  exact List.mem_flatMap.mpr ⟨a, ha, mem_src_written (richAtoms_noRefs env hr a ha) hc hm⟩

theorem item_good {env : ParserEnv} {html : HtmlEnv} {c : ListMark} {p : Nat × RichLine} {q : Nat × Leaf} (h : RichLineOk env p.2 ∧ (c = .semicolon → NoColon p.2))
    (hr : Spaced (IsLeaf env html) p q) : ItemGood env c q := by
  obtain ⟨_, hr⟩ := hr
  rw [IsLeaf] at hr
  refine ⟨hr ▸ leafOf_ok html h.1, hr ▸ lineHtml_start html h.1, fun hc t ht => ?_⟩
  rw [hr] at ht
  rcases mem_richAtoms ht with ⟨r, hr, x, hx, e⟩ | ⟨m, e⟩
  · cases x with
    | text u => cases e; exact h.2 hc r hr _ hx _ rfl
    | link l => cases e
    | web url label => cases e
    | image p => cases e
    | math attributes formula => cases e
    | ref r => cases e
  · cases e

theorem block_good {env : ParserEnv} {html : HtmlEnv} {a : DocBlock} {b : Blk Leaf} (h : a.WellFormed env) (hr : BlkRel (IsLeaf env html) (docBlk a) b) : HeadGood env 7 b := by
  cases a with
  | heading level before after title =>
    cases b <;> first | exact hr.elim | skip
    obtain ⟨rfl, rfl, rfl, hr⟩ := hr
    rw [IsLeaf] at hr
    subst hr
    exact ⟨h.1, by have := h.2.1; omega, leafOf_ok html h.2.2.1, not_mem_leaf h.2.2.2.2 h.2.2.2.1 (by decide), richAtoms_noRefs env h.2.2.2.2⟩
  | paragraph lines =>
    cases b <;> first | exact hr.elim | skip
    rename_i xs
    have hr : List.Forall₂ (IsLeaf env html) lines xs := hr
    intro x hx
    obtain ⟨l, hl, e⟩ := forall₂_mem_right hr hx
    rw [show x = leafOf env html l from e]
    exact leafOf_ok html (h.2 l hl).1
  | gap =>
    cases b <;> first | exact hr.elim | skip
    rename_i xs
    have hr : List.Forall₂ (IsLeaf env html) [] xs := hr
    cases hr
    intro x hx
    cases hx
  | list l =>
    cases b <;> first | exact hr.elim | skip
    exact treeWellFormed_rel (R := Spaced (IsLeaf env html)) (p := fun c p => RichLineOk env p.2 ∧ (c = .semicolon → NoColon p.2))
      (fun c p q hp hq => item_good hp hq) l _ hr h
  | image p =>
    cases b <;> first | exact hr.elim | skip
    rename_i x
    have hr : x = leafOf env html [⟨none, [.image p]⟩] := hr
    subst hr
    exact leafOf_ok html (image_line_ok h)
  | references attrs space entries =>
    cases b <;> first | exact hr.elim | skip
    rename_i x
    have hr : x = leafOf env html (referencesLine attrs space entries) := hr
    subst hr
    exact leafOf_ok html (references_line_ok h)
  | table t =>
    cases b <;> first | exact hr.elim | skip
    have hr : TableRel (IsLeaf env html) t _ := hr
    refine hr.wellFormed (fun atMark l x hl hx => ?_) h.1
    rw [show x = leafOf env html l from hx]
    exact leafOf_cell html hl.1 hl.2

theorem forall₂_map_left' {α β γ : Type} {R : β → γ → Prop} {f : α → β} {as : List α} {bs : List γ} (h : List.Forall₂ R (as.map f) bs) :
    List.Forall₂ (fun a b => R (f a) b) as bs := by
  induction as generalizing bs with
  | nil => cases h; exact .nil
  | cons a as ih =>
    cases h with
    | cons h1 h2 => exact .cons h1 (ih h2)

/-! ### The blocks behind the first pass -/

/-- The line is not a key and nothing else. -/
def NotKey (x : Leaf) : Prop := ∀ a, x.1 = [a] → a.isText = true

theorem inlines_single {env : ParserEnv} {ps : List Inline} {a : Atom} (h : ps.map (inlineAtom env) = [a]) (ht : a.isText = false) :
    (∃ l, ps = [.link l]) ∨ (∃ url label, ps = [.web url label]) ∨ (∃ p, ps = [.image p]) ∨ (∃ attributes formula, ps = [.math attributes formula]) ∨ ∃ r, ps = [.ref r] := by
  match ps, h with
  | [p], h =>
    cases p with
    | text t =>
      have e : Atom.text t = a := by simpa [inlineAtom] using h
      rw [← e] at ht
      simp [Atom.isText] at ht
    | link l => exact Or.inl ⟨l, rfl⟩
    | web url label => exact Or.inr (Or.inl ⟨url, label, rfl⟩)
    | image p => exact Or.inr (Or.inr (Or.inl ⟨p, rfl⟩))
    | math attributes formula => exact Or.inr (Or.inr (Or.inr (Or.inl ⟨attributes, formula, rfl⟩)))
    | ref r => exact Or.inr (Or.inr (Or.inr (Or.inr ⟨r, rfl⟩)))

theorem leafOf_notKey {env : ParserEnv} {html : HtmlEnv} {l : RichLine} (h : RichLineOk env l) (hl : isLinkOnly l = false) : NotKey (leafOf env html l) := by
  intro a e
  rw [← Bool.not_eq_false]
  intro ht
  have e : richAtoms env l = [a] := e
  obtain ⟨r, rest, rfl⟩ := List.exists_cons_of_ne_nil h.nonEmpty
  have hr := runAtoms_ne env (h.runs r (by simp)).1
  have e : runAtoms env r ++ richAtoms env rest = [a] := e
  have hrest : rest = [] := by
    cases rest with
    | nil => rfl
    | cons r' rest =>
      have h' := runAtoms_ne env (h.runs r' (by simp)).1
      have hlen := congrArg List.length e
      have h1 := List.length_pos_iff.mpr hr
      have h2 := List.length_pos_iff.mpr h'
      have : (richAtoms env (r' :: rest)).length = (runAtoms env r').length + (richAtoms env rest).length := by simp [richAtoms]
      simp at hlen
      omega
  subst hrest
  obtain ⟨style, ps⟩ := r
  cases style with
  | none =>
    have e : ps.map (inlineAtom env) = [a] := by simpa [runAtoms, richAtoms] using e
    rcases inlines_single e ht with ⟨l, rfl⟩ | ⟨url, label, rfl⟩ | ⟨p, rfl⟩ | ⟨attributes, formula, rfl⟩ | ⟨r, rfl⟩ <;> simp [isLinkOnly] at hl
  | some s =>
    have hlen := congrArg List.length e
    cases s <;> simp [runAtoms, openMarks, closeMarks, openMarkers, closeMarkers, richAtoms] at hlen

theorem NotKey.next {x y : Leaf} (h : NotKey x) (hn : LeafNext x y) : NotKey y := by
  intro b e
  have h2 := hn.2
  rw [e] at h2
  match hx : x.1, h2 with
  | [a], .cons h1 .nil =>
    have := h a hx
    rcases h1.shape with ⟨t, rfl, rfl⟩ | ⟨h1, _⟩
    · rfl
    · rw [h1] at this; exact absurd this (by simp)

/-- A block of the article and what it has become. -/
def FinalBlk (env : ParserEnv) (html : HtmlEnv) (tokens : List (Str × Token)) (a : Nat × DocBlock) (b : Nat × Blk Leaf) : Prop :=
  a.1 = b.1 ∧ ((∃ y, a.2.isParagraph = false ∧ b.2 = .element y ∧ [y.2] = a.2.html (picHtml env html) ∧ (∃ type n, y.1 = [.key type n]) ∧ LeafFinal env html tokens y) ∨
    (∃ ls ys, a.2 = .paragraph ls ∧ b.2 = .paragraph ys ∧ ys ≠ [] ∧ ys.map (·.2) = ls.map (lineHtml (picHtml env html)) ∧
      ∀ y ∈ ys, LeafFinal env html tokens y ∧ NotKey y) ∨
    (a.2 = .gap ∧ b.2 = .paragraph []))

theorem leaves_html {env : ParserEnv} {html : HtmlEnv} {ls : List RichLine} {xs ys : List Leaf} (h : List.Forall₂ (IsLeaf env html) ls xs) (hn : List.Forall₂ LeafNext xs ys) :
    ys.map (·.2) = ls.map (lineHtml (picHtml env html)) := by
  induction h generalizing ys with
  | nil => cases hn; rfl
  | @cons l x _ _ e0 _ ih =>
    cases hn with
    | cons e1 e2 => rw [List.map_cons, List.map_cons, ih e2, e1.1, show x = leafOf env html l from e0]; rfl

theorem final_block {env : ParserEnv} {html : HtmlEnv} {tokens tokens' : List (Str × Token)} {a : Nat × DocBlock} {b b1 b2 : Nat × Blk Leaf}
    (h : a.2.WellFormed env) (hsi : ∀ attrs space entries, a.2 = .references attrs space entries → ∃ e, entries = [e])
    (h0 : a.1 = b.1 ∧ BlkRel (IsLeaf env html) (docBlk a.2) b.2) (h1 : HeadStep env html tokens (fun _ => True) b b1)
    (h2 : Became env html tokens' b1 b2) : FinalBlk env html tokens' a b2 := by
  obtain ⟨n, a⟩ := a
  obtain ⟨n0, b⟩ := b
  obtain ⟨n1, b1⟩ := b1
  obtain ⟨n2, b2⟩ := b2
  obtain ⟨e0, h0⟩ := h0
  obtain ⟨e1, h1⟩ := h1
  obtain ⟨e2, h2⟩ := h2
  simp only at e0 h0 e1 h1 e2 h2 h hsi
  refine ⟨by simp only; omega, ?_⟩
  simp only
  cases a with
  | heading level before after title =>
    left
    cases b <;> first | exact h0.elim | skip
    rename_i x
    obtain ⟨rfl, rfl, rfl, rfl⟩ := h0
    rcases h1 with ⟨_, _, _, _, y, e, _, rfl, hy, hk, _⟩ | ⟨h1, _⟩
    · cases e
      rcases h2 with ⟨y', e, _⟩ | ⟨hn, _, hf⟩
      · cases e
      · cases b2 <;> first | exact hn.elim | skip
        rename_i z
        obtain ⟨type, i, ek⟩ := hk
        have hz : z.1 = [.key type i] := by
          have h3 := hn.2
          rw [ek] at h3
          match hz : z.1, h3 with
          | [b], .cons h4 .nil => rw [h4.key type i rfl]
        refine ⟨z, rfl, rfl, ?_, ⟨type, i, hz⟩, hf⟩
        rw [hn.1, hy]
        rfl
    · exact absurd trivial (h1 _ _ _ _ rfl)
  | gap =>
    right
    right
    cases b <;> first | exact h0.elim | skip
    rename_i xs
    have h0 : List.Forall₂ (IsLeaf env html) [] xs := h0
    cases h0
    rcases h1 with ⟨_, _, _, _, y, e, _⟩ | ⟨_, rfl⟩
    · cases e
    · rcases h2 with ⟨y', e, _⟩ | ⟨hn, _, hf⟩
      · cases e
      · cases b2 <;> first | exact hn.elim | skip
        rename_i ys
        have hn : List.Forall₂ LeafNext [] ys := hn
        cases hn
        exact ⟨rfl, rfl⟩
  | paragraph lines =>
    right
    left
    cases b <;> first | exact h0.elim | skip
    rename_i xs
    have h0 : List.Forall₂ (IsLeaf env html) lines xs := h0
    rcases h1 with ⟨_, _, _, _, y, e, _⟩ | ⟨_, rfl⟩
    · cases e
    · rcases h2 with ⟨y', e, _⟩ | ⟨hn, _, hf⟩
      · cases e
      · cases b2 <;> first | exact hn.elim | skip
        rename_i ys
        have hn : List.Forall₂ LeafNext xs ys := hn
        refine ⟨lines, ys, rfl, rfl, ?_, ?_, fun y hy => ⟨hf y hy, ?_⟩⟩
        · rintro rfl
          rw [List.forall₂_nil_right_iff.mp hn] at h0
          exact h.1 (List.forall₂_nil_right_iff.mp h0)
        · exact leaves_html h0 hn
        · obtain ⟨x, hx, hxy⟩ := forall₂_mem_right hn hy
          obtain ⟨l, hl, e⟩ := forall₂_mem_right h0 hx
          refine NotKey.next ?_ hxy
          rw [show x = leafOf env html l from e]
          exact leafOf_notKey (h.2 l hl).1 (h.2 l hl).2.1
  | list t =>
    left
    cases b <;> first | exact h0.elim | skip
    rename_i t'
    rcases h1 with ⟨_, _, _, _, y, e, _⟩ | ⟨_, rfl⟩
    · cases e
    · rcases h2 with ⟨y', hh, rfl, hk, hf⟩ | ⟨_, hn, _⟩
      · refine ⟨y', rfl, rfl, ?_, hk, hf⟩
        rw [← Option.some.inj hh]
        show [_] = [_]
        congr 1
        exact (treeHtml_rel (R := Spaced (IsLeaf env html)) (fun p q hpq => by
          obtain ⟨e1, e2⟩ := hpq
          rw [IsLeaf] at e2
          simp [itemShown, e1, e2, leafOf]) t t' h0).symm
      · cases hn
  | image p =>
    left
    cases b <;> first | exact h0.elim | skip
    rename_i x
    have h0 : x = leafOf env html [⟨none, [.image p]⟩] := h0
    rcases h1 with ⟨_, _, _, _, y, e, _⟩ | ⟨_, rfl⟩
    · cases e
    · rcases h2 with ⟨y', e, _⟩ | ⟨hn, _, hf⟩
      · cases e
      · cases b2 <;> first | exact hn.elim | skip
        rename_i z
        refine ⟨z, rfl, rfl, ?_, ?_, hf⟩
        · rw [hn.1, h0]
          simp [leafOf, lineHtml, Run.html, Inline.html, DocBlock.html]
        · have h3 := hn.2
          have hx : x.1 = [inlineAtom env (.image p)] := by rw [h0]; simp [leafOf, richAtoms, runAtoms]
          rw [hx] at h3
          match hz : z.1, h3 with
          | [b], .cons h4 .nil =>
            have hpl := hf.plain b (by simp [hz])
            have hm := h4.mark
            have ht : b.isText = false := by
              rcases h4.shape with ⟨t, e, _⟩ | ⟨_, e⟩
              · cases e
              · exact e
            cases b with
            | key type n => exact ⟨type, n, rfl⟩
            | text t => simp [Atom.isText] at ht
            | mark m => simp [Atom.isMark, inlineAtom] at hm
            | link l => simp [Atom.isPlain] at hpl
            | web url label => simp [Atom.isPlain] at hpl
            | image i f c => simp [Atom.isPlain] at hpl
            | math b f => simp [Atom.isPlain] at hpl
            | ref _ _ _ _ => simp [Atom.isPlain] at hpl
  | references attrs space entries =>
    left
    obtain ⟨entry, rfl⟩ := hsi _ _ _ rfl
    cases b <;> first | exact h0.elim | skip
    rename_i x
    have h0 : x = leafOf env html (referencesLine attrs space [entry]) := h0
    rcases h1 with ⟨_, _, _, _, y, e, _⟩ | ⟨_, rfl⟩
    · cases e
    · rcases h2 with ⟨y', e, _⟩ | ⟨hn, _, hf⟩
      · cases e
      · cases b2 <;> first | exact hn.elim | skip
        rename_i z
        refine ⟨z, rfl, rfl, ?_, ?_, hf⟩
        · rw [hn.1, h0]
          simp [leafOf, lineHtml, Run.html, Inline.html, DocBlock.html, referencesLine, ArticleRef.html, join]
        · have h3 := hn.2
          have hx : x.1 = [inlineAtom env (.ref ⟨0, attrs, space, .list [entry]⟩)] := by rw [h0]; rfl
          rw [hx] at h3
          match hz : z.1, h3 with
          | [b], .cons h4 .nil =>
            have hpl := hf.plain b (by simp [hz])
            have hm := h4.mark
            have ht : b.isText = false := by
              rcases h4.shape with ⟨t, e, _⟩ | ⟨_, e⟩
              · cases e
              · exact e
            cases b with
            | key type n => exact ⟨type, n, rfl⟩
            | text t => simp [Atom.isText] at ht
            | mark m => simp [Atom.isMark, inlineAtom] at hm
            | link l => simp [Atom.isPlain] at hpl
            | web url label => simp [Atom.isPlain] at hpl
            | image i f c => simp [Atom.isPlain] at hpl
            | math b f => simp [Atom.isPlain] at hpl
            | ref _ _ _ _ => simp [Atom.isPlain] at hpl
  | table t =>
    left
    cases b <;> first | exact h0.elim | skip
    rename_i t'
    rcases h1 with ⟨_, _, _, _, y, e, _⟩ | ⟨_, rfl⟩
    · cases e
    · rcases h2 with ⟨y', hh, rfl, hk, hf⟩ | ⟨_, hn, _⟩
      · refine ⟨y', rfl, rfl, ?_, hk, hf⟩
        rw [← Option.some.inj hh]
        show [_] = [_]
        congr 1
        have h0 : TableRel (IsLeaf env html) t t' := h0
        exact (tableHtml_rel (fun l x hx => by rw [show x = leafOf env html l from hx]; rfl) h0).symm
      · cases hn

/-! ### The first pass -/

theorem forall₂_and {α β : Type} {R : α → β → Prop} {p : α → Prop} {as : List α} {bs : List β} (h : List.Forall₂ R as bs) (hp : ∀ a ∈ as, p a) :
    List.Forall₂ (fun a b => p a ∧ R a b) as bs := by
  induction h with
  | nil => exact .nil
  | cons h1 _ ih => exact .cons ⟨hp _ (by simp), h1⟩ (ih fun a ha => hp a (by simp [ha]))

theorem forall₂_comp {α β γ : Type} {R : α → β → Prop} {S : β → γ → Prop} {T : α → γ → Prop} (hT : ∀ a b c, R a b → S b c → T a c)
    {as : List α} {bs : List β} {cs : List γ} (h : List.Forall₂ R as bs) (h' : List.Forall₂ S bs cs) : List.Forall₂ T as cs := by
  induction h generalizing cs with
  | nil => cases h'; exact .nil
  | cons h1 _ ih =>
    cases h' with
    | cons h2 h3 => exact .cons (hT _ _ _ h1 h2) (ih h3)

theorem document_lines_ok {env : ParserEnv} {doc : List (Nat × DocBlock)} (h : ∀ b ∈ doc, b.2.WellFormed env) :
    ∀ l ∈ docLines (startDoc doc), l.All (RichLineOk env) := by
  intro l hl
  obtain ⟨b, hb, hl⟩ := List.mem_flatMap.mp hl
  rcases List.mem_append.mp hl with hl | hl
  · rw [List.eq_of_mem_replicate hl]; trivial
  · obtain ⟨a, ha, rfl⟩ := List.mem_map.mp hb
    have hw := h a ha
    cases hb2 : a.2 with
    | heading level before after title =>
      rw [hb2] at hw hl
      rw [docBlk, Blk.dlines, List.mem_singleton] at hl
      subst hl
      exact hw.2.2.1
    | paragraph lines =>
      rw [hb2] at hw hl
      obtain ⟨x, hx, rfl⟩ := List.mem_map.mp hl
      exact (hw.2 x hx).1
    | gap =>
      rw [hb2] at hl
      cases hl
    | list t =>
      rw [hb2] at hw hl
      exact tree_all (fun c a h => h.1) [] t hw l hl
    | image p =>
      rw [hb2] at hw hl
      rw [docBlk, Blk.dlines, List.mem_singleton] at hl
      subst hl
      exact image_line_ok hw
    | references attrs space entries =>
      rw [hb2] at hw hl
      rw [docBlk, Blk.dlines, List.mem_singleton] at hl
      subst hl
      exact references_line_ok hw
    | table t =>
      rw [hb2] at hw hl
      exact table_all (fun _ _ h => h.1) hw.1 l hl

theorem document_lines_rendered {html : HtmlEnv} {doc : List (Nat × DocBlock)} (h : ∀ b ∈ doc, b.2.AllLines (Rendered html)) :
    ∀ l ∈ docLines (startDoc doc), l.All (Rendered html) := by
  intro l hl
  obtain ⟨b, hb, hl⟩ := List.mem_flatMap.mp hl
  obtain ⟨b, hb', rfl⟩ := List.mem_map.mp hb
  have hw := h b hb'
  rcases List.mem_append.mp hl with hl | hl
  · rw [List.eq_of_mem_replicate hl]; trivial
  · cases hb2 : b.2 with
    | heading level before after title =>
      rw [hb2] at hw hl
      rw [docBlk, Blk.dlines, List.mem_singleton] at hl
      subst hl
      exact hw
    | paragraph lines =>
      rw [hb2] at hw hl
      rw [docBlk, Blk.dlines, List.mem_map] at hl
      obtain ⟨x, hx, rfl⟩ := hl
      exact hw x hx
    | gap =>
      rw [hb2] at hl
      cases hl
    | list t =>
      rw [hb2] at hw hl
      exact tree_all (fun c a h => h) [] t hw l hl
    | image p =>
      rw [hb2] at hw hl
      rw [docBlk, Blk.dlines, List.mem_singleton] at hl
      subst hl
      intro r hr p hp a f e
      rw [List.mem_singleton.mp hr] at hp
      rw [List.mem_singleton.mp hp] at e
      cases e
    | references attrs space entries =>
      rw [hb2] at hw hl
      rw [docBlk, Blk.dlines, List.mem_singleton] at hl
      subst hl
      intro r hr p hp a f e
      rw [List.mem_singleton.mp hr] at hp
      rw [List.mem_singleton.mp hp] at e
      cases e
    | table t =>
      rw [hb2] at hw hl
      exact table_all (p := fun _ l => Rendered html l) (fun _ _ h => h) hw l hl

theorem document_plain {env : ParserEnv} {doc : List (Nat × DocBlock)} (h : ∀ b ∈ doc, b.2.WellFormed env) : ∀ b ∈ startDoc doc, b.2.Plain := by
  intro b hb
  obtain ⟨a, ha, rfl⟩ := List.mem_map.mp hb
  have hw := h a ha
  generalize a.2 = a at hw
  cases a with
  | table t => exact table_imp (fun _ _ _ => trivial) hw.1
  | _ => trivial

/-! ### The references of an article -/

mutual
theorem tree_leaves {α : Type} (pre : Str) : ∀ (t : TreeList (Nat × α)), (TreeList.dlines pre t).flatMap DLine.leaves = t.texts.map Prod.snd
  | .mk m items => by rw [TreeList.dlines, TreeList.texts, items_leaves pre items]
theorem items_leaves {α : Type} (pre : Str) : ∀ (items : List (TreeItem (Nat × α))),
    (treeItemsDlines pre items).flatMap DLine.leaves = (treeItemsTexts items).map Prod.snd
  | [] => by rw [treeItemsDlines, treeItemsTexts]; rfl
  | .mk c x subs :: rest => by
    rw [treeItemsDlines, treeItemsTexts, List.flatMap_cons, List.flatMap_append, List.map_cons, List.map_append, trees_leaves (pre ++ [c.char]) subs,
      items_leaves pre rest]
    rfl
theorem trees_leaves {α : Type} (pre : Str) : ∀ (ts : List (TreeList (Nat × α))), (treesDlines pre ts).flatMap DLine.leaves = (treesTexts ts).map Prod.snd
  | [] => by rw [treesDlines, treesTexts]; rfl
  | t :: ts => by rw [treesDlines, treesTexts, List.flatMap_append, List.map_append, tree_leaves pre t, trees_leaves pre ts]
end

theorem cellPieces_leaves {α : Type} (c : DocCell α) : (cellPieces c).filterMap Sum.getRight? = c.text.toList := by
  unfold cellPieces
  cases c.text <;> rfl

theorem cells_leaves {α : Type} (l : DocCells α) : (cellsPieces l).filterMap Sum.getRight? = l.cells.filterMap DocCell.text := by
  have h : ∀ cs : List (DocCell α), (cs.flatMap (otherPieces l.heading)).filterMap Sum.getRight? = cs.filterMap DocCell.text := by
    intro cs
    induction cs with
    | nil => rfl
    | cons c cs ih =>
      rw [List.flatMap_cons, List.filterMap_append, ih, List.filterMap_cons]
      show (cellPieces c).filterMap Sum.getRight? ++ _ = _
      rw [cellPieces_leaves]
      cases c.text <;> rfl
  show (cellPieces l.first ++ l.others.flatMap (otherPieces l.heading)).filterMap Sum.getRight? = _
  rw [List.filterMap_append, h, cellPieces_leaves]
  simp only [DocCells.cells, List.filterMap_cons]
  cases l.first.text <;> rfl

theorem table_leaves {α : Type} (t : DocTable α) : (tableDlines t).flatMap DLine.leaves = t.texts := by
  rw [tableDlines, DocTable.texts, List.flatMap_cons, List.flatMap_append, List.flatMap_append]
  have h1 : (t.caption.toList.map captionDline).flatMap DLine.leaves = t.caption.toList.map Prod.snd := by
    cases t.caption <;> rfl
  have h2 : ∀ r : DocRow α, (rowDlines r).flatMap DLine.leaves = r.lines.flatMap fun l => l.cells.filterMap DocCell.text := by
    intro r
    rw [rowDlines, List.flatMap_append, List.flatMap_assoc]
    have : (r.separator.toList.map fun s => DLine.pieces (α := α) [.inl (b!"|-" ++ s)]).flatMap DLine.leaves = [] := by
      cases r.separator <;> rfl
    rw [this, List.nil_append]
    congr 1
    funext l
    simp only [List.flatMap_cons, List.flatMap_nil, List.append_nil, DLine.leaves]
    exact cells_leaves l
  rw [h1, List.flatMap_assoc]
  simp only [h2]
  show [] ++ (_ ++ (_ ++ [])) = _
  rw [List.nil_append, List.append_nil]

theorem block_refs (b : DocBlock) : ((docBlk b).dlines.flatMap DLine.leaves).flatMap lineRefs = b.texts.flatMap lineRefs := by
  cases b with
  | heading level before after title => rfl
  | paragraph lines =>
    show ((lines.map fun x => DLine.one [] x []).flatMap DLine.leaves).flatMap lineRefs = lines.flatMap lineRefs
    congr 1
    induction lines with
    | nil => rfl
    | cons l ls ih => rw [List.map_cons, List.flatMap_cons, ih]; rfl
  | list t => exact congrArg (List.flatMap lineRefs) (tree_leaves [] t)
  | image p => rfl
  | references attrs space entries => rfl
  | gap => rfl
  | table t => exact congrArg (List.flatMap lineRefs) (table_leaves t)

theorem documentRefs_lines (doc : List (Nat × DocBlock)) : ((docLines (startDoc doc)).flatMap DLine.leaves).flatMap lineRefs = documentRefs doc := by
  induction doc with
  | nil => rfl
  | cons b doc ih =>
    have : docLines (startDoc (b :: doc)) = List.replicate b.1 .blank ++ (docBlk b.2).dlines ++ docLines (startDoc doc) := rfl
    rw [this, List.flatMap_append, List.flatMap_append, List.flatMap_append, List.flatMap_append, ih, block_refs]
    have : (List.replicate b.1 (DLine.blank (α := RichLine))).flatMap DLine.leaves = [] := by
      generalize b.1 = n
      induction n with
      | zero => rfl
      | succ n ih => rw [List.replicate_succ, List.flatMap_cons, ih]; rfl
    rw [this]
    rfl

def numberedRef (r : ArticleRef) : List (RefPiece RefText) × RefItem RefText :=
  (kindPieces r.number (kindMap refText r.kind), refItem r.attrs r.space (kindMap refText r.kind))

theorem richAtoms_refs (env : ParserEnv) (l : RichLine) : numberedRefs (richAtoms env l) = (lineRefs l).map numberedRef := by
  induction l with
  | nil => rfl
  | cons r l ih =>
    have hp : ∀ ps : List Inline, numberedRefs (ps.map (inlineAtom env)) = (ps.filterMap fun | .ref x => some x | _ => none).map numberedRef := by
      intro ps
      induction ps with
      | nil => rfl
      | cons p ps ih =>
        cases p with
        | ref r =>
          show _ :: numberedRefs (ps.map (inlineAtom env)) = _ :: _
          rw [ih]
          rfl
        | _ => exact ih
    have hm : ∀ ms : List Marker, numberedRefs (ms.map Atom.mark) = [] := fun ms => numberedRefs_none fun a ha => by
      obtain ⟨m, _, rfl⟩ := List.mem_map.mp ha
      rfl
    show numberedRefs (runAtoms env r ++ richAtoms env l) = List.map _ (_ ++ lineRefs l)
    rw [numberedRefs_append, ih, List.map_append]
    congr 1
    refine Eq.trans ?_ (hp r.parts)
    unfold runAtoms
    split
    · rfl
    · rw [numberedRefs_append, numberedRefs_append, openMarks, closeMarks, hm, hm]
      simp

theorem leaves_map {α β : Type} (f : α → β) (l : DLine α) : (l.map f).leaves = l.leaves.map f := by
  cases l with
  | blank => rfl
  | one pre x post => rfl
  | pieces ps =>
    show (ps.map (Sum.map id f)).filterMap Sum.getRight? = (ps.filterMap Sum.getRight?).map f
    induction ps with
    | nil => rfl
    | cons p ps ih =>
      cases p with
      | inl s => exact ih
      | inr x => exact congrArg (f x :: ·) ih

theorem start_refs (env : ParserEnv) (html : HtmlEnv) {doc : List (Nat × DocBlock)} {d : List (Nat × Blk Leaf)}
    (e : docLines d = (docLines (startDoc doc)).map (DLine.map (leafOf env html))) : numberedRefs (flatDoc d) = (documentRefs doc).map numberedRef := by
  rw [flatDoc, numberedRefs_lines, e, ← documentRefs_lines]
  generalize docLines (startDoc doc) = ls
  induction ls with
  | nil => rfl
  | cons l ls ih =>
    rw [List.map_cons, List.flatMap_cons, List.flatMap_cons, List.flatMap_append, List.flatMap_append, List.map_append, ih, leaves_map]
    congr 1
    rw [List.flatMap_map, List.map_flatMap]
    congr 1
    funext x
    exact richAtoms_refs env x

theorem items_numbered (rs : List ArticleRef) : ∀ before, RefsNumbered before rs → ItemsNumbered (before.map (RefItem.map refText)) (rs.map numberedRef) := by
  induction rs with
  | nil => intro before _; trivial
  | cons r rs ih =>
    intro before h
    have e : (numberedRef r).2 = r.item.map refText := by
      unfold numberedRef ArticleRef.item
      cases r.kind <;> rfl
    have e2 : (numberedRef r).1 = r.pieces.map (pieceMap refText) := by
      unfold numberedRef ArticleRef.pieces
      cases r.kind <;> rfl
    have := ih _ h.2
    refine ⟨?_, ?_⟩
    · show refPieces _ (numberedRef r).2 = (numberedRef r).1
      rw [e, e2, ← h.1]
      exact refPieces_map refText before r.item
    · show ItemsNumbered (_ ++ [(numberedRef r).2]) _
      rw [e]
      rwa [List.map_append, List.map_singleton] at this

theorem head_refs {env : ParserEnv} {html : HtmlEnv} {tokens : List (Str × Token)} {n : Nat} {p : Nat → Prop} {d d' : List (Nat × Blk Leaf)}
    (hg : ∀ b ∈ d, HeadGood env n b.2) (h : List.Forall₂ (HeadStep env html tokens p) d d') : numberedRefs (flatDoc d') = numberedRefs (flatDoc d) := by
  rw [flatDoc, flatDoc, numberedRefs_lines, numberedRefs_lines]
  induction h with
  | nil => rfl
  | @cons a b d d' h1 h2 ih =>
    have ih := ih fun x hx => hg x (by simp [hx])
    have hc : ∀ (x : Nat × Blk Leaf) (d : List (Nat × Blk Leaf)), docLines (x :: d) = List.replicate x.1 .blank ++ x.2.dlines ++ docLines d := fun _ _ => rfl
    rw [hc, hc]
    simp only [List.flatMap_append]
    rw [ih, h1.1]
    congr 2
    rcases h1.2 with ⟨level, before, after, x, y, e1, _, e2, _, ⟨type, i, e3⟩, _⟩ | ⟨_, e⟩
    · have := hg a (by simp)
      rw [e1] at this
      rw [e1, e2]
      simp only [Blk.dlines, List.flatMap_cons, List.flatMap_nil, List.append_nil, DLine.leaves]
      rw [e3, numberedRefs_none (as := x.1) this.2.2.2.2]
      rfl
    · rw [e]

theorem mem_leaves {α : Type} {p : α → Prop} {l : DLine α} (h : l.All p) {x : α} (hx : x ∈ l.leaves) : p x := by
  cases l with
  | blank => cases hx
  | one pre y post => rw [List.mem_singleton.mp hx]; exact h
  | pieces ps =>
    obtain ⟨q, hq, e⟩ := List.mem_filterMap.mp hx
    cases q with
    | inl s => cases e
    | inr y => cases e; exact h _ hq

theorem documentRefs_ok {env : ParserEnv} {doc : List (Nat × DocBlock)} (h : ∀ b ∈ doc, b.2.WellFormed env) {r : ArticleRef} (hr : r ∈ documentRefs doc) :
    r.WellFormed env := by
  rw [← documentRefs_lines] at hr
  obtain ⟨l, hl, hr⟩ := List.mem_flatMap.mp hr
  obtain ⟨dl, hdl, hl⟩ := List.mem_flatMap.mp hl
  have hok : RichLineOk env l := mem_leaves (document_lines_ok h dl hdl) hl
  obtain ⟨run, hrun, hr⟩ := List.mem_flatMap.mp hr
  obtain ⟨p, hp, e⟩ := List.mem_filterMap.mp hr
  have := (hok.runs run hrun).2.1 p hp
  cases p with
  | ref x => cases e; exact this
  | _ => cases e

theorem note_good {env : ParserEnv} (html : HtmlEnv) {c : NoteText} (h : NoteOk env c) : NoteGood env html (refText c) := by
  refine ⟨leafOf env html (c.map NoteRun.run), note_leaf html h, ?_, ?_, ?_, ?_⟩
  · intro a ha
    rw [leafOf, ← noteAtoms_line env] at ha
    exact (noteAtoms_simple c a ha).2
  · intro tokens
    refine leafOf_shows env html tokens _ ?_
    intro r hr p hp attributes formula e
    obtain ⟨r', _, rfl⟩ := List.mem_map.mp hr
    obtain ⟨p', _, rfl⟩ := List.mem_map.mp hp
    cases p' <;> cases e
  · show srcs (noteAtoms c) = _
    rw [noteAtoms_line env]
    rfl
  · exact noteHtml_line _ c

theorem doc_notes {env : ParserEnv} (html : HtmlEnv) {doc : List (Nat × DocBlock)} (h : ∀ b ∈ doc, b.2.WellFormed env) {as : List Atom}
    (e : numberedRefs as = (documentRefs doc).map numberedRef) : NotesGood env html as := by
  intro number attrs space c hc
  have : ([.marker number], refItem attrs space (.define c)) ∈ numberedRefs as := List.mem_filterMap.mpr ⟨_, hc, rfl⟩
  rw [e] at this
  obtain ⟨r, hr, e⟩ := List.mem_map.mp this
  have hw := documentRefs_ok h hr
  have e2 : refItem r.attrs r.space (kindMap refText r.kind) = refItem attrs space (.define c) := congrArg Prod.snd e
  cases ht : r.kind with
  | mention => rw [ht] at e2; cases e2
  | list entries => rw [ht] at e2; cases e2
  | define c' =>
    rw [ht] at e2
    have : refText c' = c := by
      simp only [kindMap, refItem, RefItem.define.injEq] at e2
      exact e2.2.2.2.1
    rw [← this]
    exact note_good html (hw.text c' ht)

/-- Neither comments nor `nowiki` begin in the wikitext of a line. -/
theorem calmTags_of_no_lt {s : Str} (h : (0x3C : Byte) ∉ s) : CalmTags s := fun _ _ hi => h (hi.subset (by simp))

theorem CalmTags.append {x y : Str} (hx : CalmTags x) (hy : CalmTags y) (h : x.getLast? ≠ some 0x3C) : CalmTags (x ++ y) := by
  intro c hc hi
  rcases infix_append_cases hi with hi | hi | ⟨a, b, ha, hb, e, hax, hby⟩
  · exact hx c hc hi
  · exact hy c hc hi
  · have : a = [0x3C] := by
      match a, b, e with
      | [], _, _ => exact absurd rfl ha
      | [_], _, e => simp at e; rw [e.1]
      | _ :: _ :: a, b, e => simp at e; exact absurd e.2.2.2 hb
    subst this
    obtain ⟨t, rfl⟩ := hax
    exact h (by simp)

theorem written_calm {env : ParserEnv} {a : Atom} (h : a.Ok env) : CalmTags (writtenAtom a) ∧ (writtenAtom a).getLast? ≠ some 0x3C := by
  by_cases hm : a.isMath = true
  · cases a <;> simp [Atom.isMath] at hm
    refine ⟨(math_onlyMath h).calmTags, ?_⟩
    rw [writtenAtom, Atom.src, List.getLast?_append_of_ne_nil _ (by decide)]
    decide
    all_goals
      intros
      rename_i e
      cases e
  · by_cases hr : a.isRef = true
    · cases a with
      | ref number attrs space note =>
        have h : RefOk attrs note := h
        have ha : (0x3C : Byte) ∉ attrs.text ++ spaces space := by
          rw [List.mem_append]
          rintro (hc | hc)
          · exact (attrs_chars h.attributes _ hc).1 rfl
          · exact absurd (List.eq_of_mem_replicate hc) (by decide)
        have h1 : CalmTags (refWord note) ∧ (refWord note).getLast? ≠ some 0x3C := by cases note <;> (unfold CalmTags; simp only [refWord]; decide)
        have h2 := h1.1.append (calmTags_of_no_lt ha) h1.2
        have h3 : (refWord note ++ (attrs.text ++ spaces space)).getLast? ≠ some 0x3C := by
          rw [List.getLast?_append]
          cases hl : (attrs.text ++ spaces space).getLast? with
          | none => simpa using h1.2
          | some c =>
            intro e
            simp only [Option.some_or, Option.some.injEq] at e
            exact ha (e ▸ List.mem_of_getLast? hl)
        have h4 : CalmTags (refRest RefText.written note) ∧ (refRest RefText.written note).getLast? = some 0x3E := by
          cases note with
          | mention => exact ⟨calmTags_of_no_lt (by decide), by decide⟩
          | list entries => exact ⟨calmTags_of_no_lt (by simp [refRest]), by simp [refRest]⟩
          | define c =>
            have hw : (0x3C : Byte) ∉ b!">" ++ c.written := by
              rw [List.mem_append]
              rintro (hc | hc)
              · exact absurd hc (by decide)
              · rcases h.written c rfl _ hc with e | hc
                · exact absurd e (by decide)
                · exact (h.text c rfl).1 _ hc (by decide)
            refine ⟨CalmTags.append (calmTags_of_no_lt hw) (by unfold CalmTags; decide) (fun e => hw (List.mem_of_getLast? e)), ?_⟩
            rw [refRest, List.getLast?_append_of_ne_nil _ (by decide)]
            rfl
        refine ⟨?_, ?_⟩
        · rw [writtenAtom, List.append_assoc (refWord note)]
          exact h2.append h4.1 h3
        · rw [writtenAtom, List.getLast?_append, h4.2]
          simp
      | _ => simp [Atom.isRef] at hr
    · by_cases ht : a.isText = true
      · have hs := h.tagSafe (by simpa using hm) (by simpa using hr)
        cases a with
        | text t => exact ⟨hs.free.onlyMath.calmTags, hs.last⟩
        | _ => simp [Atom.isText] at ht
      · have : (0x3C : Byte) ∉ writtenAtom a := fun hc =>
          h.no_lt (fun t e => absurd (by rw [e]; rfl) ht) (by simpa using hm) (by simpa using hr) (mem_writtenAtom h (by decide) hc)
        exact ⟨calmTags_of_no_lt this, fun e => this (List.mem_of_getLast? e)⟩

theorem lineSource_calm {env : ParserEnv} {l : RichLine} (h : RichLineOk env l) {rest : Str} (hr : CalmTags rest) :
    CalmTags (lineSource l ++ rest) := by
  have h : ∀ a ∈ richAtoms env l, a.Ok env := fun a ha => by
    rcases mem_richAtoms ha with ⟨r, hr, p, hp, rfl⟩ | ⟨m, rfl⟩
    · exact inlineAtom_ok ((h.runs r hr).2.1 p hp)
    · trivial
  rw [lineSource_atoms env]
  generalize richAtoms env l = as at h
  induction as with
  | nil => exact hr
  | cons a as ih =>
    rw [List.flatMap_cons, List.append_assoc]
    obtain ⟨h1, h2⟩ := written_calm (h a (by simp))
    exact h1.append (ih fun x hx => h x (by simp [hx])) h2

theorem strOf_calm {env : ParserEnv} {l : DLine RichLine} (hf : l.Framed) (h : l.All (RichLineOk env)) :
    CalmTags (strOf lineSource l) := by
  cases l with
  | blank => exact calmTags_of_no_lt (by simp [strOf])
  | one pre x post =>
    have h1 : (0x3C : Byte) ∉ pre := fun hm => absurd (hf.1 _ hm) (by decide)
    have h2 : (0x3C : Byte) ∉ post := fun hm => absurd (hf.2 _ hm) (by decide)
    rw [strOf, List.append_assoc]
    exact (calmTags_of_no_lt h1).append (lineSource_calm h (calmTags_of_no_lt h2)) fun e => h1 (List.mem_of_getLast? e)
  | pieces ps =>
    have h1 : ∀ s, .inl s ∈ ps → (0x3C : Byte) ∉ s := fun s hs => (hf s hs).not_mem (by decide)
    have h2 : ∀ x, .inr x ∈ ps → RichLineOk env x := h
    rw [strOf]
    clear hf h
    induction ps with
    | nil => exact calmTags_of_no_lt (by simp)
    | cons p ps ih =>
      have ih := ih (fun s hs => h1 s (by simp [hs])) (fun x hx => h2 x (by simp [hx]))
      cases p with
      | inl s => exact (calmTags_of_no_lt (h1 s (by simp))).append ih fun e => h1 s (by simp) (List.mem_of_getLast? e)
      | inr x => exact lineSource_calm (h2 x (by simp)) ih

/-- Neither comments nor `nowiki` begin in the wikitext of an article. -/
theorem documentSource_calm {env : ParserEnv} {doc : List (Nat × DocBlock)} (h : ∀ b ∈ doc, b.2.WellFormed env) :
    CalmTags (join b!"\n" (documentSource doc)) := by
  rw [documentSource_lines]
  refine fun c hc => not_infix_lines (by simp) (fun hm => ?_) _ fun l hl => ?_
  · simp only [List.mem_cons, List.not_mem_nil, or_false] at hm
    rcases hm with hm | rfl
    · exact absurd hm (by decide)
    · exact absurd hc (by decide)
  obtain ⟨l', hl', rfl⟩ := List.mem_map.mp hl
  refine strOf_calm (docLines_framed (startDoc doc) (document_plain h) l' hl') (document_lines_ok h l' hl') c hc

/-! ### Lists of references with a single entry each -/

/-- A list of references as several lists with one entry each. -/
def expandBlock : Nat × DocBlock → List (Nat × DocBlock)
  | (_, .references attrs space entries) => entries.map fun e => (0, .references attrs space [e])
  | b => [b]

def expandDoc (doc : List (Nat × DocBlock)) : List (Nat × DocBlock) := doc.flatMap expandBlock

theorem expandBlock_other {a : Nat × DocBlock} (h : a.2.isReferences = false) : expandBlock a = [a] := by
  obtain ⟨n, a⟩ := a
  cases a <;> first | rfl | cases h

theorem expandDoc_html (pic : ArticlePictures) (env : ParserEnv) (doc : List (Nat × DocBlock)) (h : ∀ b ∈ doc, b.2.WellFormed env) :
    ∀ after, documentHtml pic after (expandDoc doc) = documentHtml pic after doc := by
  induction doc with
  | nil => intro; rfl
  | cons a doc ih =>
    intro after
    have hw := h a (by simp)
    have ih := ih fun b hb => h b (by simp [hb])
    obtain ⟨n, a⟩ := a
    show documentHtml pic after (expandBlock (n, a) ++ expandDoc doc) = _
    cases hr : a.isReferences with
    | false =>
      rw [expandBlock_other hr, List.singleton_append, documentHtml, documentHtml, ih]
    | true =>
      cases a with
      | references attrs space entries =>
        have hne : entries ≠ [] := fun e => hw.entries (congrArg RefKind.list e)
        have he : ∀ es : List (Nat × NoteText), documentHtml pic false ((es.map fun e => (0, DocBlock.references attrs space [e])) ++ expandDoc doc) =
            es.map entryHtml ++ documentHtml pic false doc := by
          intro es
          induction es with
          | nil => exact ih false
          | cons e es ih =>
            rw [List.map_cons, List.cons_append, documentHtml]
            show _ ++ [entryHtml e] ++ documentHtml pic false _ = _
            rw [ih]
            rfl
        have hp : ∀ (b : DocBlock) (m : Nat) (after : Bool) (rest), b.isParagraph = false →
            documentHtml pic after ((m, b) :: rest) = documentHtml pic false ((m, b) :: rest) := by
          intro b m after rest hb
          rw [documentHtml, documentHtml, hb]
          cases after <;> rfl
        obtain ⟨e, es, rfl⟩ := List.exists_cons_of_ne_nil hne
        have := he (e :: es)
        rw [hp _ n after doc rfl]
        show documentHtml pic after ((0, DocBlock.references attrs space [e]) :: _) = _
        rw [hp _ 0 after _ rfl]
        exact this
      | _ => cases hr

/-- The blocks can follow one another behind another block. -/
def Follows : Option DocBlock → List (Nat × DocBlock) → Prop
  | _, [] => True
  | prev, (n, b) :: rest => (∀ a ∈ prev, CanFollow a n b) ∧ Follows (some b) rest

theorem BlocksFollow.follows : ∀ {doc : List (Nat × DocBlock)}, BlocksFollow doc → Follows none doc := by
  have : ∀ (doc : List (Nat × DocBlock)) (n : Nat) (b : DocBlock), BlocksFollow ((n, b) :: doc) → Follows (some b) doc := by
    intro doc
    induction doc with
    | nil => intros; trivial
    | cons a doc ih =>
      intro n b h
      obtain ⟨m, a⟩ := a
      refine ⟨?_, ih m a h.2⟩
      intro x hx
      cases hx
      exact h.1
  intro doc h
  cases doc with
  | nil => trivial
  | cons a doc => exact ⟨by simp, this doc a.1 a.2 h⟩

theorem canFollow_references (a : DocBlock) {n : Nat} {attrs : RefAttrs} {space : Nat} {entries : List (Nat × NoteText)} :
    CanFollow a n (.references attrs space entries) ↔ n < 19 ∧ a ≠ .gap := by cases a <;> simp [CanFollow]

theorem canFollow_gap {a : DocBlock} {n : Nat} (h : CanFollow a n .gap) : 0 < n := by
  cases a <;> first | exact h | exact h.elim

theorem Follows.gap {doc : List (Nat × DocBlock)} (h : Follows (some .gap) doc) : doc = [] := by
  cases doc with
  | nil => rfl
  | cons a doc => exact (h.1 .gap rfl).elim

theorem references_canFollow {attrs attrs' : RefAttrs} {space space' : Nat} {entries entries' : List (Nat × NoteText)} {n : Nat} {b : DocBlock}
    (h : CanFollow (.references attrs space entries) n b) : CanFollow (.references attrs' space' entries') n b := by cases b <;> exact h

theorem Follows.references {attrs attrs' : RefAttrs} {space space' : Nat} {entries entries' : List (Nat × NoteText)} {doc : List (Nat × DocBlock)}
    (h : Follows (some (.references attrs space entries)) doc) : Follows (some (.references attrs' space' entries')) doc := by
  cases doc with
  | nil => trivial
  | cons a doc =>
    refine ⟨?_, h.2⟩
    intro x hx
    cases hx
    exact references_canFollow (h.1 _ rfl)

theorem Follows.expand {env : ParserEnv} {doc : List (Nat × DocBlock)} (hw : ∀ b ∈ doc, b.2.WellFormed env) : ∀ {prev : Option DocBlock}, Follows prev doc →
    Follows prev (expandDoc doc) := by
  induction doc with
  | nil => intro prev _; trivial
  | cons a doc ih =>
    intro prev h
    have hwa := hw a (by simp)
    have ih := ih (fun b hb => hw b (by simp [hb])) h.2
    obtain ⟨n, a⟩ := a
    show Follows prev (expandBlock (n, a) ++ expandDoc doc)
    cases hr : a.isReferences with
    | false =>
      rw [expandBlock_other hr]
      exact ⟨h.1, ih⟩
    | true =>
      cases a with
      | references attrs space entries =>
        have hne : entries ≠ [] := fun e => hwa.entries (congrArg RefKind.list e)
        have he : ∀ (es : List (Nat × NoteText)) (x : List (Nat × NoteText)),
            Follows (some (.references attrs space x)) ((es.map fun e => (0, DocBlock.references attrs space [e])) ++ expandDoc doc) := by
          intro es
          induction es with
          | nil => intro x; exact Follows.references ih
          | cons e es ih =>
            intro x
            refine ⟨?_, ih [e]⟩
            intro y hy
            cases hy
            show (0 : Nat) < 19
            decide
        obtain ⟨e, es, rfl⟩ := List.exists_cons_of_ne_nil hne
        refine ⟨?_, he es [e]⟩
        intro x hx
        rw [canFollow_references]
        exact ⟨by decide, ((canFollow_references x).mp (h.1 x hx)).2⟩
      | _ => cases hr

theorem Follows.near : ∀ {doc : List (Nat × DocBlock)} {a : DocBlock}, Follows (some a) doc → ∀ b ∈ doc, b.2.isReferences = true → b.1 < 19 := by
  intro doc
  induction doc with
  | nil => intro _ _ b hb; simp at hb
  | cons c doc ih =>
    intro a h b hb hr
    rcases List.mem_cons.mp hb with rfl | hb
    · obtain ⟨n, b⟩ := b
      cases b with
      | references attrs space entries => exact ((canFollow_references a).mp (h.1 a rfl)).1
      | _ => cases hr
    · exact ih h.2 b hb hr

theorem Follows.listsApart {doc : List (Nat × DocBlock)} {d : List (Nat × Blk Leaf)} {prev : Option DocBlock} (hf : Follows prev doc)
    (hs : prev = none → ∀ b ∈ doc.head?, b.2 ≠ .gap)
    (h : List.Forall₂ (fun a b => a.1 = b.1 ∧ (∀ t, b.2 = .list t → ∃ l, a.2 = .list l ∧ l.mark = t.mark) ∧ (b.2 = .paragraph [] → a.2 = .gap)) doc d) :
    ListsApart d := by
  induction h generalizing prev with
  | nil => trivial
  | @cons a b doc d h1 h2 ih =>
    refine ⟨⟨?_, ?_⟩, ih hf.2 (by simp)⟩
    · intro e
      have ha := h1.2.2 e
      obtain ⟨n, a⟩ := a
      simp only at ha
      subst ha
      rw [← h1.1]
      cases prev with
      | none => exact absurd rfl (hs rfl (n, .gap) rfl)
      | some x =>
        have := canFollow_gap (hf.1 x rfl)
        simp only
        omega
    intro b' hb' t t' e e' e0
    cases h2 with
    | nil => simp at hb'
    | @cons a2 b2 _ _ h3 h4 =>
      simp only [List.head?_cons, Option.mem_def, Option.some.injEq] at hb'
      subst hb'
      obtain ⟨l, e1, m1⟩ := h1.2.1 t e
      obtain ⟨l', e2, m2⟩ := h3.2.1 t' e'
      obtain ⟨n, a⟩ := a
      obtain ⟨n2, a2⟩ := a2
      simp only at e1 e2
      subst e1 e2
      have hc : 0 < n2 ∨ ¬ l.mark.Allows l'.mark := hf.2.1 _ rfl
      rw [← m1, ← m2]
      rcases hc with hc | hc
      · have := h3.1
        simp only at this
        omega
      · exact hc

theorem Follows.gapLast {doc : List (Nat × DocBlock)} {d : List (Nat × Blk Leaf)} {prev : Option DocBlock} (hf : Follows prev doc)
    (hs : prev = none → ∀ b ∈ doc.head?, b.2 ≠ .gap)
    (h : List.Forall₂ (fun a b => a.1 = b.1 ∧ (b.2 = .paragraph [] → a.2 = .gap)) doc d) : GapLast d := by
  induction h generalizing prev with
  | nil => trivial
  | @cons a b doc d h1 h2 ih =>
    refine ⟨?_, ih hf.2 (by simp)⟩
    intro e
    have ha := h1.2 e
    obtain ⟨n, a⟩ := a
    simp only at ha
    subst ha
    rw [← h1.1]
    refine ⟨?_, ?_⟩
    · cases prev with
      | none => exact absurd rfl (hs rfl (n, .gap) rfl)
      | some x =>
        have := canFollow_gap (hf.1 x rfl)
        simp only
        omega
    · have hd : doc = [] := Follows.gap hf.2
      subst hd
      cases h2
      rfl

theorem headed_gap {env : ParserEnv} {html : HtmlEnv} {tokens : List (Str × Token)} {a : Nat × DocBlock} {b0 b : Nat × Blk Leaf} (hw : a.2.WellFormed env)
    (h0 : BlkRel (IsLeaf env html) (docBlk a.2) b0.2) (h1 : HeadStep env html tokens (fun _ => True) b0 b) (e : b.2 = .paragraph []) : a.2 = .gap := by
  rcases h1.2 with ⟨_, _, _, _, _, _, _, e', _⟩ | ⟨_, e'⟩
  · rw [e'] at e; cases e
  · rw [← e', e] at h0
    obtain ⟨n, a⟩ := a
    cases a with
    | gap => rfl
    | paragraph lines =>
      have h0 : List.Forall₂ (IsLeaf env html) lines [] := h0
      exact absurd (List.forall₂_nil_right_iff.mp h0) hw.1
    | _ => exact h0.elim

/-- A block of the article and what it is behind the headings. -/
structure Headed (env : ParserEnv) (html : HtmlEnv) (tokens : List (Str × Token)) (a : Nat × DocBlock) (b : Nat × Blk Leaf) : Prop where
  wellFormed : a.2.WellFormed env
  single : ∀ attrs space entries, a.2 = .references attrs space entries → ∃ e, entries = [e]
  start : ∃ b0 : Nat × Blk Leaf, (a.1 = b0.1 ∧ BlkRel (IsLeaf env html) (docBlk a.2) b0.2) ∧ HeadStep env html tokens (fun _ => True) b0 b
  shows : ∀ l ∈ b.2.dlines, l.All fun x => LineShows html tokens x.1 x.2

theorem head_good {env : ParserEnv} {html : HtmlEnv} {tokens : List (Str × Token)} {b b1 : Nat × Blk Leaf} (h : HeadGood env 7 b.2)
    (h1 : HeadStep env html tokens (fun _ => True) b b1) : BlkGood env b1.2 := by
  rcases h1.2 with ⟨_, _, _, _, y, _, _, e', _, _, hf⟩ | ⟨hn, e'⟩
  · rw [e']; exact hf.leaf
  · rw [e']
    cases ha2 : b.2 with
    | heading level before after x => exact absurd trivial (hn _ _ _ _ ha2)
    | _ => rw [ha2] at h; exact h

theorem Headed.good {env : ParserEnv} {html : HtmlEnv} {tokens : List (Str × Token)} {a : Nat × DocBlock} {b : Nat × Blk Leaf} (h : Headed env html tokens a b) :
    BlkGood env b.2 := by
  obtain ⟨b0, h0, h1⟩ := h.start
  exact head_good (block_good h.wellFormed h0.2) h1

theorem Headed.lists {env : ParserEnv} {html : HtmlEnv} {tokens : List (Str × Token)} {a : Nat × DocBlock} {b : Nat × Blk Leaf} (h : Headed env html tokens a b) :
    a.1 = b.1 ∧ (∀ t, b.2 = .list t → ∃ l, a.2 = .list l ∧ l.mark = t.mark) ∧ (b.2 = .paragraph [] → a.2 = .gap) := by
  obtain ⟨b0, h0, h1⟩ := h.start
  refine ⟨h0.1.trans h1.1, fun t e => ?_, headed_gap h.wellFormed h0.2 h1⟩
  rcases h1.2 with ⟨_, _, _, _, _, _, _, e', _⟩ | ⟨_, e'⟩
  · rw [e'] at e; cases e
  · rw [← e', e] at h0
    cases ha : a.2 with
    | list l => rw [ha] at h0; exact ⟨l, rfl, TreeRel.mark h0.2⟩
    | _ => rw [ha] at h0; exact h0.2.elim

theorem spread_block {env : ParserEnv} {html : HtmlEnv} {tokens : List (Str × Token)} {a : Nat × DocBlock} {b b1 : Nat × Blk Leaf}
    (hw : a.2.WellFormed env) (h0 : a.1 = b.1 ∧ BlkRel (IsLeaf env html) (docBlk a.2) b.2) (h1 : HeadStep env html tokens (fun _ => True) b b1)
    (hs : ∀ l ∈ b1.2.dlines, l.All fun x => LineShows html tokens x.1 x.2) (hn : a.2.isReferences = true → a.1 < 19)
    (hl : a.2.isReferences = false → NoRefLists (flatDoc [b1])) : ∃ l, Spreads b1 l ∧ List.Forall₂ (Headed env html tokens) (expandBlock a) l := by
  cases hr : a.2.isReferences with
  | false =>
    refine ⟨[b1], .same b1 (hl hr), ?_⟩
    rw [expandBlock_other hr]
    refine .cons ⟨hw, ?_, ⟨b, h0, h1⟩, hs⟩ .nil
    intro attrs space entries e
    rw [e] at hr
    cases hr
  | true =>
    obtain ⟨n, a⟩ := a
    cases a with
    | references attrs space entries =>
      obtain ⟨n0, b⟩ := b
      obtain ⟨n1, b1⟩ := b1
      obtain ⟨e0, h0⟩ := h0
      have e1 := h1.1
      simp only at e0 e1 h0
      subst e0 e1
      cases b <;> first | exact h0.elim | skip
      rename_i x
      have h0 : x = leafOf env html (referencesLine attrs space entries) := h0
      rcases h1.2 with ⟨_, _, _, _, _, e, _⟩ | ⟨_, e⟩
      · cases e
      simp only at e
      subst e
      have hx : x.1 = [.ref 0 attrs space (.list (entries.map fun e => (e.1, refText e.2)))] := by
        rw [h0]
        rfl
      obtain ⟨x1, x2⟩ := x
      simp only at hx
      subst hx
      have hne : entries ≠ [] := fun e => hw.entries (congrArg RefKind.list e)
      refine ⟨_, .list n 0 attrs space _ x2 (by simpa using hne) (hn rfl), ?_⟩
      show List.Forall₂ _ (entries.map fun e => (0, DocBlock.references attrs space [e])) _
      rw [List.map_map]
      clear h0 h1 hs hne
      have hw' : ∀ e : Nat × NoteText, (⟨0, attrs, space, .list [e]⟩ : ArticleRef).WellFormed env := fun e =>
        ⟨hw.attributes, hw.chars, hw.pairs, by simp, by simp, by simp⟩
      clear hw hn hl hr
      clear * - hw'
      induction entries with
      | nil => exact .nil
      | cons e entries ih =>
        refine .cons ?_ ih
        have hj : join b!"\n" [noteEntry (e.1, refText e.2)] = noteEntry (e.1, refText e.2) := by simp [join]
        refine ⟨hw' e, ?_, ⟨(0, .element ([.ref 0 attrs space (.list [(e.1, refText e.2)])], noteEntry (e.1, refText e.2))), ⟨rfl, ?_⟩, ⟨rfl, Or.inr ⟨by simp, rfl⟩⟩⟩, ?_⟩
        · intro attrs' space' entries' e'
          cases e'
          exact ⟨e, rfl⟩
        · show _ = leafOf env html (referencesLine attrs space [e])
          refine Prod.ext rfl ?_
          show _ = lineHtml _ _
          simp [referencesLine, lineHtml, Run.html, Inline.html, ArticleRef.html, join, noteEntry, entryHtml, refText]
        · intro l hl
          rw [List.mem_singleton.mp hl]
          exact LineShows.single hj.symm
    | _ => cases hr

theorem spread_blocks {env : ParserEnv} {html : HtmlEnv} {tokens : List (Str × Token)} {doc : List (Nat × DocBlock)} {d : List (Nat × Blk Leaf)}
    (h : List.Forall₂ (fun a b => ∃ l, Spreads b l ∧ List.Forall₂ (Headed env html tokens) (expandBlock a) l) doc d) :
    ∃ ds, List.Forall₂ Spreads d ds ∧ List.Forall₂ (Headed env html tokens) (expandDoc doc) ds.flatten := by
  induction h with
  | nil => exact ⟨[], .nil, .nil⟩
  | @cons a b doc d h1 _ ih =>
    obtain ⟨l, h1, h2⟩ := h1
    obtain ⟨ds, h3, h4⟩ := ih
    exact ⟨l :: ds, .cons h1 h3, List.rel_append h2 h4⟩

theorem Became.step {env : ParserEnv} {html : HtmlEnv} {tokens tokens' : List (Str × Token)} {a b c : Nat × Blk Leaf} (hg : BlkGood env a.2)
    (h : a.1 = b.1 ∧ BlkRel (LeafRel (Step env html tokens)) a.2 b.2) (h' : Became env html tokens' b c) : Became env html tokens' a c := by
  have hn := BlkNext.of_rel hg h.2
  refine ⟨h.1.trans h'.1, ?_⟩
  rcases h'.2 with ⟨y, h1, h2⟩ | ⟨h1, h2, h3⟩
  · exact Or.inl ⟨y, by rw [← hn.shown]; exact h1, h2⟩
  · exact Or.inr ⟨hn.trans h1, by rw [← hn.shown]; exact h2, h3⟩

/-- There are no lists of references in blocks of other types. -/
theorem block_noRefLists {env : ParserEnv} {html : HtmlEnv} {tokens : List (Str × Token)} {a : Nat × DocBlock} {b b1 : Nat × Blk Leaf} (hw : a.2.WellFormed env)
    (h0 : Started env html a b) (h1 : HeadStep env html tokens (fun _ => True) b b1) (hl : ∀ l ∈ a.2.texts, NoReferences l) : NoRefLists (flatDoc [b1]) := by
  have hg : ∀ x ∈ [b], HeadGood env 7 x.2 := by
    intro x hx
    rw [List.mem_singleton.mp hx]
    exact block_good hw h0.2.1
  have e : numberedRefs (flatDoc [b1]) = (documentRefs [a]).map numberedRef := by
    rw [head_refs hg (.cons h1 .nil)]
    exact start_refs env html (started_lines (.cons h0 .nil))
  intro number attrs space entries hm
  have : (kindPieces number (.list entries), refItem attrs space (.list entries)) ∈ numberedRefs (flatDoc [b1]) := List.mem_filterMap.mpr ⟨_, hm, rfl⟩
  rw [e] at this
  obtain ⟨r, hr, e⟩ := List.mem_map.mp this
  have e2 : refItem r.attrs r.space (kindMap refText r.kind) = refItem attrs space (.list entries) := congrArg Prod.snd e
  have hr : r ∈ a.2.texts.flatMap lineRefs := by simpa [documentRefs] using hr
  obtain ⟨l, hl', hr⟩ := List.mem_flatMap.mp hr
  cases hk : r.kind with
  | mention => rw [hk] at e2; cases e2
  | define c => rw [hk] at e2; cases e2
  | list es => exact hl l hl' r hr es hk

/-- The first block is no list of references. -/
theorem first_no_list {env : ParserEnv} {a : Nat × DocBlock} {doc : List (Nat × DocBlock)} (h : DocOk env (a :: doc)) : a.2.isReferences = false := by
  have hw := h.blocks a (by simp)
  have hn := h.numbers
  obtain ⟨n, a⟩ := a
  cases a with
  | references attrs space entries =>
    have hn : refPieces [] (ArticleRef.item ⟨0, attrs, space, .list entries⟩) = [.list entries] := hn.1
    have : entries = [] := by simpa [ArticleRef.item, refPieces, refEntries, RefItem.mentions, RefItem.listGroup, refOrder, refOrderFrom, RefPiece.list.injEq] using hn.symm
    exact absurd (congrArg RefKind.list this) hw.entries
  | _ => rfl

theorem expandDoc_ne {env : ParserEnv} {doc : List (Nat × DocBlock)} (h : DocOk env doc) : expandDoc doc ≠ [] := by
  cases doc with
  | nil => exact absurd rfl h.nonEmpty
  | cons a doc =>
    rw [expandDoc, List.flatMap_cons, expandBlock_other (first_no_list h)]
    simp

theorem expandDoc_start {env : ParserEnv} {doc : List (Nat × DocBlock)} (h : DocOk env doc) : ∀ b ∈ (expandDoc doc).head?, b.2 ≠ .gap := by
  cases doc with
  | nil => exact absurd rfl h.nonEmpty
  | cons a doc =>
    rw [expandDoc, List.flatMap_cons, expandBlock_other (first_no_list h)]
    exact h.start

theorem first_pass (env : ParserEnv) (html : HtmlEnv) (hp : PlainPrefixes env) (doc : List (Nat × DocBlock)) (h : DocOk env doc)
    (hm : ∀ b ∈ doc, b.2.AllLines (Rendered html))
    (s : TokState) (hs : KeysCreated s) : ∃ d s', Ends (fun n => tokenizePass env (tokenizeContent env n) n (join b!"\n" (documentSource doc))) s
      (parseParagraphs (srcs (flatDoc d))) s' ∧ Grows s s' ∧ List.Forall₂ (FinalBlk env html s'.tokenMap) (expandDoc doc) d := by
  obtain ⟨d, r⟩ := start_atoms env html doc
  have e := started_lines r
  have hrel := forall₂_and r h.blocks
  have hgood : ∀ b ∈ d, HeadGood env 7 b.2 := by
    intro b hb
    obtain ⟨a, ha, hw, h1⟩ := forall₂_mem_right hrel hb
    exact block_good hw h1.2.1
  have hlines := document_lines_ok h.blocks
  have hne : docLines d ≠ [] := by
    rw [e]
    obtain ⟨a, rest, rfl⟩ := List.exists_cons_of_ne_nil h.nonEmpty
    have hw := h.blocks a (by simp)
    have hz := h.start a rfl
    have : (docBlk a.2).dlines ≠ [] := by
      cases hb2 : a.2 with
      | gap => exact absurd hb2 hz
      | heading level before after title => simp [docBlk, Blk.dlines]
      | paragraph lines => rw [hb2] at hw; simpa [docBlk, Blk.dlines] using hw.1
      | list t =>
        rw [hb2] at hw
        obtain ⟨m, items⟩ := t
        have hi := hw.1
        cases items with
        | nil => exact absurd rfl hi
        | cons i items => cases i; simp [docBlk, Blk.dlines, TreeList.dlines, treeItemsDlines]
      | image p => simp [docBlk, Blk.dlines]
      | references attrs space entries => simp [docBlk, Blk.dlines]
      | table t => simp [docBlk, Blk.dlines, tableDlines]
    simp [startDoc, docLines, this]
  have hshow : DocShows html s.tokenMap d := by
    intro l hl
    rw [e] at hl
    obtain ⟨l', hl', rfl⟩ := List.mem_map.mp hl
    cases l' with
    | blank => trivial
    | one pre x post => exact leafOf_shows env html _ x (document_lines_rendered hm _ hl')
    | pieces ps =>
      intro x hx
      obtain ⟨p, hp, e⟩ := List.mem_map.mp hx
      cases p with
      | inl s => cases e
      | inr y =>
        cases e
        exact leafOf_shows env html _ y (document_lines_rendered hm _ hl' y hp)
  have hmark : srcs (flatDoc d) = chunksMarked (docChunks (docLines (startDoc doc))) := by rw [docChunks_marked html _ hlines, flatDoc, e]
  have hsrc : join b!"\n" (documentSource doc) = chunksSource (docChunks (docLines (startDoc doc))) := by rw [docChunks_source, documentSource_lines]
  have hok := docChunks_ok (env := env) _ (docLines_framed (startDoc doc) (document_plain h.blocks)) (docLines_apart _) hlines
  obtain ⟨d1, s1, e1, g1, sh1, f1⟩ := headings_pass env html hp d hne hgood s hs hshow
  have hrefs : numberedRefs (flatDoc d1) = (documentRefs doc).map numberedRef := by rw [head_refs hgood f1, start_refs env html e]
  have hs1 := g1.keysCreated hs
  -- references
  obtain ⟨bs, s2, e2, g2, d0, f2, n2, head0⟩ : ∃ bs s2, Ends (fun n => parseReferences (tokenizeContent env n) n (srcs (flatDoc d1))) s1 (srcs bs) s2 ∧ Grows s1 s2 ∧
      ∃ d0, List.Forall₂ (Step env html s2.tokenMap) (flatDoc d0) bs ∧ NoRefs bs ∧ List.Forall₂ (Headed env html s1.tokenMap) (expandDoc doc) d0 := by
    have hsp : List.Forall₂ (fun a b => ∃ b0, Started env html a b0 ∧ HeadStep env html s1.tokenMap (fun _ => True) b0 b) doc d1 :=
      forall₂_comp (fun a b c h1 h2 => ⟨b, h1, h2⟩) r f1
    have hgood1 : ∀ b ∈ d1, BlkGood env b.2 := by
      intro b hb
      obtain ⟨a, ha, h1⟩ := forall₂_mem_right f1 hb
      exact head_good (hgood a ha) h1
    have hgap : GapLast d1 := (BlocksFollow.follows h.follow).gapLast (fun _ => h.start) (by
      refine (forall₂_and hsp h.blocks).imp ?_
      rintro a b ⟨hw, b0, h1, h2⟩
      exact ⟨h1.1.trans h2.1, headed_gap hw h1.2.1 h2⟩)
    have hnotes := doc_notes html h.blocks hrefs
    have hnum : AtomsNumbered [] (flatDoc d1) := by
      rw [atomsNumbered_iff, hrefs]
      exact items_numbered _ [] h.numbers
    have hblocks := h.blocks
    have hlists := h.lists
    have hfollow := BlocksFollow.follows h.follow
    have hsh : ∀ b ∈ d1, ∀ l ∈ b.2.dlines, l.All fun x => LineShows html s1.tokenMap x.1 x.2 :=
      fun b hb l hl => sh1 l (List.mem_flatMap.mpr ⟨b, hb, List.mem_append_right _ hl⟩)
    cases hsp with
    | nil => exact absurd rfl h.nonEmpty
    | @cons a b1 doc d1 h1 h2 =>
      have hna := first_no_list h
      obtain ⟨b0, h1, h3⟩ := h1
      have hb : NoRefLists (flatDoc [b1]) := block_noRefLists (hblocks a (by simp)) h1 h3 (hlists a (by simp) hna)
      have hrest : List.Forall₂ (fun a b => ∃ l, Spreads b l ∧ List.Forall₂ (Headed env html s1.tokenMap) (expandBlock a) l) doc d1 := by
        replace h2 := forall₂_and h2 (p := fun a => a.2.WellFormed env ∧ (a.2.isReferences = true → a.1 < 19) ∧ (a.2.isReferences = false → ∀ l ∈ a.2.texts, NoReferences l))
          fun x hx => ⟨hblocks x (by simp [hx]), hfollow.2.near x hx, hlists x (by simp [hx])⟩
        replace hsh : ∀ b ∈ d1, ∀ l ∈ b.2.dlines, l.All fun x => LineShows html s1.tokenMap x.1 x.2 := fun b hb => hsh b (by simp [hb])
        clear h hnum hnotes hgood1 hgap hblocks hlists hfollow hrefs hsrc hmark hok f1 hne hshow hlines hrel e r hgood e1 sh1 hm
        induction h2 with
        | nil => exact .nil
        | @cons a b doc d1 h4 _ ih =>
          obtain ⟨⟨w1, w2, w3⟩, b0, h5, h6⟩ := h4
          refine .cons (spread_block w1 ⟨h5.1, h5.2.1⟩ h6 (hsh b (by simp)) w2 fun hh => block_noRefLists w1 h5 h6 (w3 hh)) (ih fun b hb => hsh b (by simp [hb]))
      obtain ⟨ds, hds, hhd⟩ := spread_blocks hrest
      obtain ⟨bs, s2, x1, x2, x3, x4⟩ := refs_document env html hp hb hds hgood1 hgap hnotes hnum s1 hs1
      refine ⟨bs, s2, x1, x2, _, x3, x4, ?_⟩
      have : expandDoc (a :: doc) = a :: expandDoc doc := by rw [expandDoc, List.flatMap_cons, expandBlock_other hna]; rfl
      rw [this]
      refine .cons ⟨hblocks a (by simp), ?_, ⟨b0, ⟨h1.1, h1.2.1⟩, h3⟩, hsh b1 (by simp)⟩ hhd
      intro attrs space entries e
      rw [e] at hna
      cases hna
  have good0 : ∀ b ∈ d0, BlkGood env b.2 := by
    intro b hb
    obtain ⟨a, ha, h1⟩ := forall₂_mem_right head0 hb
    exact h1.good
  have apart0 : ListsApart d0 := ((BlocksFollow.follows h.follow).expand h.blocks).listsApart (fun _ => expandDoc_start h) (head0.imp fun _ _ hh => hh.lists)
  have shows0 : DocShows html s1.tokenMap d0 := by
    intro l hl
    obtain ⟨b, hb, hl⟩ := List.mem_flatMap.mp hl
    rcases List.mem_append.mp hl with hl | hl
    · rw [List.eq_of_mem_replicate hl]; trivial
    · obtain ⟨a, ha, h1⟩ := forall₂_mem_right head0 hb
      exact h1.shows l hl
  have ne0 : docLines d0 ≠ [] := by
    intro e0
    cases head0' : d0 with
    | nil =>
      rw [head0'] at head0
      exact expandDoc_ne h (List.forall₂_nil_right_iff.mp head0)
    | cons b d0' =>
      have hz : b.2 ≠ .paragraph [] := by
        intro hb
        rw [head0'] at head0
        have hst := expandDoc_start h
        cases hex : expandDoc doc with
        | nil => rw [hex] at head0; cases head0
        | cons a rest =>
          rw [hex] at head0 hst
          cases head0 with
          | cons h1 _ => exact hst a rfl (h1.lists.2.2 hb)
      rw [head0'] at e0 good0
      exact blk_dlines_ne (good0 b (by simp)) hz (List.append_eq_nil_iff.mp (List.flatMap_eq_nil_iff.mp e0 b (by simp))).2
  obtain ⟨dR, rR, rfl, lR⟩ := flatDoc_unflatten Step.text d0 bs f2
  have neR : docLines dR ≠ [] := by
    intro hz
    rw [hz] at lR
    exact ne0 (List.forall₂_nil_right_iff.mp lR)
  obtain ⟨d2, s3, e3, g3, f3⟩ := mid_pass env html hp dR neR (DocGood.step good0 rR) (apart0.step rR) s2 (g2.keysCreated hs1)
    ((shows0.extend (g2.extend hs1)).step lR) n2 e2
  refine ⟨d2, s3, ?_, g1.trans (g2.trans g3), ?_⟩
  · have ht : CalmTags (join b!"\n" (documentSource doc)) := documentSource_calm h.blocks
    refine Ends.congr ⟨0, fun n _ => tokenizePass_steps env _ n _⟩ ?_
    refine (Ends.noop s ⟨(join b!"\n" (documentSource doc)).length + 1, fun n hn => nowikiLoop_calm ht n 0 (by omega) (by omega)⟩).bind ?_
    refine (Ends.noop (a := srcs (flatDoc d)) s ⟨(docChunks (docLines (startDoc doc))).length + 1, fun n hn => ?_⟩).bind ?_
    · rw [hsrc, hmark]
      exact parseBoldAndItalic_chunks _ n hok (by omega)
    · exact e1.bind (e3.bind (Ends.pure _ _))
  · have hfin : ∀ a b c, Headed env html s1.tokenMap a b → (∃ bR, (b.1 = bR.1 ∧ BlkRel (LeafRel (Step env html s2.tokenMap)) b.2 bR.2) ∧ Became env html s3.tokenMap bR c) →
        FinalBlk env html s3.tokenMap a c := by
      intro a b c hh ⟨bR, h1, h2⟩
      obtain ⟨b0, h3, h4⟩ := hh.start
      exact final_block hh.wellFormed hh.single h3 h4 (h2.step hh.good h1)
    exact forall₂_comp hfin head0 (forall₂_comp (fun a b c h1 h2 => ⟨b, h1, h2⟩) rR f3)

/-! ### Paragraphs -/

def finalText : Blk Leaf → TextBlock
  | .element y => .element (srcs y.1)
  | .paragraph ys => .paragraph (ys.map fun y => srcs y.1)
  | _ => .element []

def Blk.isGap : Blk Leaf → Bool
  | .paragraph [] => true
  | _ => false

def finalTexts (d : List (Nat × Blk Leaf)) : List (Nat × TextBlock) := (d.filter fun b => !b.2.isGap).map fun b => (b.1, finalText b.2)

/-- The number of empty lines at the end. -/
def gapLines (d : List (Nat × Blk Leaf)) : Nat := (d.map fun b => if b.2.isGap then b.1 else 0).sum

theorem finalTexts_cons {b : Nat × Blk Leaf} (h : b.2.isGap = false) (d : List (Nat × Blk Leaf)) : finalTexts (b :: d) = (b.1, finalText b.2) :: finalTexts d := by
  simp [finalTexts, h]

theorem FinalBlk.gap {env : ParserEnv} {html : HtmlEnv} {tokens : List (Str × Token)} {a : Nat × DocBlock} {b : Nat × Blk Leaf} (h : FinalBlk env html tokens a b) :
    (a.2 = .gap ∧ b.2 = .paragraph []) ∨ (b.2.isGap = false ∧ a.2 ≠ .gap) := by
  rcases h.2 with ⟨y, ha, e, h1, _⟩ | ⟨ls, ys, ha, e, hy, _⟩ | h
  · refine Or.inr ⟨by rw [e]; rfl, fun e0 => ?_⟩
    rw [e0] at h1
    cases h1
  · refine Or.inr ⟨?_, by rw [ha]; simp⟩
    rw [e]
    cases ys with
    | nil => exact absurd rfl hy
    | cons _ _ => rfl
  · exact Or.inl h

theorem finals_end {env : ParserEnv} {html : HtmlEnv} {tokens : List (Str × Token)} {a : Nat × DocBlock} {doc : List (Nat × DocBlock)} {d : List (Nat × Blk Leaf)}
    (h : List.Forall₂ (FinalBlk env html tokens) doc d) (ha : a.2 = .gap) (hf : Follows (some a.2) doc) : doc = [] ∧ d = [] := by
  rw [ha] at hf
  have := Follows.gap hf
  subst this
  cases h
  exact ⟨rfl, rfl⟩

theorem key_tokenLine {type : Str} {n : Nat} (h : type ≠ [] ∧ ∀ c ∈ type, tokenChar c = true) : isTokenLine (tokenKey type n) = true := by
  have := matchToken_key type n h []
  rw [List.append_nil] at this
  rw [isTokenLine, this]
  rfl

theorem notKey_line {env : ParserEnv} {html : HtmlEnv} {tokens : List (Str × Token)} {y : Leaf} (h : LeafFinal env html tokens y) (hn : NotKey y) :
    isTokenLine (srcs y.1) = false := by
  rw [← Bool.not_eq_true, isTokenLine]
  intro hm
  have hm : matchToken (srcs y.1) = some [] := by simpa using hm
  have hp : b!"$$TOKEN_" <+: srcs y.1 := by
    rw [matchToken] at hm
    split at hm
    · rwa [← hasPrefix_iff]
    · cases hm
  obtain ⟨a, r, e⟩ := List.exists_cons_of_ne_nil h.leaf.nonEmpty
  have hok := h.leaf.ok a (by simp [e])
  have hpl := h.plain a (by simp [e])
  rw [e, srcs_cons] at hp hm
  cases a with
  | text t =>
    have ht : TextOk t := hok
    have h0 : t ≠ [] := h.leaf.texts t (by simp [e])
    have hd : b!"$$" <+: t ++ srcs r := List.IsPrefix.trans ⟨b!"TOKEN_", rfl⟩ hp
    match t, ht, h0 with
    | [c], ht, _ =>
      have : c = 0x24 := by simp [List.cons_prefix_cons] at hd; exact hd.1.symm
      subst this
      exact ht.last 0x24 (by decide) rfl
    | c :: c' :: t, ht, _ =>
      simp only [List.cons_append, List.cons_prefix_cons] at hd
      obtain ⟨rfl, rfl, _⟩ := hd
      exact ht.pairs 0x24 (by decide) ⟨[], t, rfl⟩
  | mark m =>
    have : b!"$$MARKER_" <+: (Atom.mark m).src ++ srcs r := by
      refine List.IsPrefix.trans ?_ (List.prefix_append _ _)
      cases m <;> decide
    have h1 : b!"$$T" <+: (Atom.mark m).src ++ srcs r := List.IsPrefix.trans ⟨b!"OKEN_", rfl⟩ hp
    have h2 : b!"$$M" <+: (Atom.mark m).src ++ srcs r := List.IsPrefix.trans ⟨b!"ARKER_", rfl⟩ this
    have := List.prefix_of_prefix_length_le h1 h2 (by simp)
    exact absurd this (by decide)
  | key type n =>
    have hk : matchToken ((Atom.key type n).src ++ srcs r) = some (srcs r) := matchToken_key type n hok (srcs r)
    rw [hk] at hm
    have hr : srcs r = [] := by simpa using hm
    cases r with
    | nil =>
      have := hn _ e
      simp [Atom.isText] at this
    | cons b r =>
      rw [srcs_cons, List.append_eq_nil_iff] at hr
      by_cases ht : b.isText = true
      · cases b with
        | text t => exact h.leaf.texts t (by simp [e]) hr.1
        | _ => simp [Atom.isText] at ht
      · obtain ⟨c, u, eu, _⟩ := Atom.src_head (a := b) (by simpa using ht)
        rw [eu] at hr
        exact absurd hr.1 (by simp)
  | link l => simp [Atom.isPlain] at hpl
  | web url label => simp [Atom.isPlain] at hpl
  | image i f c => simp [Atom.isPlain] at hpl
  | math b f => simp [Atom.isPlain] at hpl
  | ref _ _ _ _ => simp [Atom.isPlain] at hpl

theorem finalTexts_lines {env : ParserEnv} {html : HtmlEnv} {tokens : List (Str × Token)} {doc : List (Nat × DocBlock)} {d : List (Nat × Blk Leaf)}
    (h : List.Forall₂ (FinalBlk env html tokens) doc d) {prev : Option DocBlock} (hf : Follows prev doc) :
    (docLines d).map lineStr = blockLines (finalTexts d) ++ List.replicate (gapLines d) [] := by
  induction h generalizing prev with
  | nil => rfl
  | @cons a b doc d h1 h2 ih =>
    rcases h1.gap with ⟨ha, hb⟩ | ⟨hb, _⟩
    · obtain ⟨rfl, rfl⟩ := finals_end h2 ha hf.2
      simp [docLines, hb, Blk.dlines, finalTexts, Blk.isGap, gapLines, lineStr, blockLines]
    rw [docLines, List.flatMap_cons, ← docLines, List.map_append, ih hf.2, List.map_append, List.map_replicate, finalTexts_cons hb]
    have hg : gapLines (b :: d) = gapLines d := by simp [gapLines, hb]
    rw [hg]
    show _ = List.replicate b.1 [] ++ (finalText b.2).lines ++ blockLines (finalTexts d) ++ _
    rw [← List.append_assoc]
    congr 3
    rcases h1.2 with ⟨y, _, e, _⟩ | ⟨ls, ys, _, e, _⟩ | ⟨_, e⟩
    · rw [e]; simp [Blk.dlines, finalText, TextBlock.lines, lineStr]
    · rw [e]; simp [Blk.dlines, finalText, TextBlock.lines, lineStr]
    · rw [e]; simp [Blk.dlines, finalText, TextBlock.lines]

theorem finalTexts_wellFormed {env : ParserEnv} {html : HtmlEnv} {tokens : List (Str × Token)} {doc : List (Nat × DocBlock)} {d : List (Nat × Blk Leaf)}
    (h : List.Forall₂ (FinalBlk env html tokens) doc d) : ∀ b ∈ finalTexts d, b.2.WellFormed := by
  intro b hb
  obtain ⟨x, hx, rfl⟩ := List.mem_map.mp hb
  obtain ⟨hx, hxg⟩ := List.mem_filter.mp hx
  obtain ⟨a, _, h1⟩ := forall₂_mem_right h hx
  rcases h1.2 with ⟨y, _, e, _, ⟨type, n, hk⟩, hf⟩ | ⟨ls, ys, _, e, hne, _, hf⟩ | ⟨_, e⟩
  · simp only [e, finalText]
    have hok : type ≠ [] ∧ ∀ c ∈ type, tokenChar c = true := hf.leaf.ok (.key type n) (by simp [hk])
    show ElementLine _
    rw [← isTokenLine_iff, hk]
    simpa [srcs, Atom.src] using key_tokenLine hok
  · simp only [e, finalText]
    refine ⟨by simpa using hne, ?_⟩
    intro l hl
    obtain ⟨y, hy, rfl⟩ := List.mem_map.mp hl
    exact ⟨(hf y hy).1.leaf.srcs_ne, (not_elementLine_iff _).mp (notKey_line (hf y hy).1 (hf y hy).2), (hf y hy).1.leaf.oneLine⟩
  · rw [e] at hxg
    cases hxg

theorem finalText_paragraph {env : ParserEnv} {html : HtmlEnv} {tokens : List (Str × Token)} {a : Nat × DocBlock} {b : Nat × Blk Leaf}
    (h : FinalBlk env html tokens a b) (hb : b.2.isGap = false) : (finalText b.2).isParagraph = a.2.isParagraph := by
  rcases h.2 with ⟨y, ha, e, _⟩ | ⟨ls, ys, ha, e, _⟩ | ⟨_, e⟩
  · rw [e, ha]; rfl
  · rw [e, ha]; rfl
  · rw [e] at hb; cases hb

theorem finalTexts_separated {env : ParserEnv} {html : HtmlEnv} {tokens : List (Str × Token)} {doc : List (Nat × DocBlock)} {d : List (Nat × Blk Leaf)}
    (h : List.Forall₂ (FinalBlk env html tokens) doc d) {prev : Option DocBlock} (hf : Follows prev doc) :
    SeparatedFrom ((prev.map DocBlock.isParagraph).getD false) (finalTexts d) := by
  induction h generalizing prev with
  | nil => trivial
  | @cons a b doc d h1 h2 ih =>
    rcases h1.gap with ⟨ha, hb⟩ | ⟨hb, _⟩
    · obtain ⟨rfl, rfl⟩ := finals_end h2 ha hf.2
      simp [finalTexts, hb, Blk.isGap, SeparatedFrom]
    rw [finalTexts_cons hb]
    refine ⟨?_, ?_⟩
    · intro hh
      rw [Bool.and_eq_true, finalText_paragraph h1 hb] at hh
      rw [← h1.1]
      obtain ⟨n, a⟩ := a
      cases prev with
      | none => cases hh.1
      | some x =>
        have hc := hf.1 x rfl
        obtain ⟨h3, h4⟩ := hh
        cases x <;> simp [DocBlock.isParagraph] at h3
        cases a <;> simp [DocBlock.isParagraph] at h4
        exact hc
    · rw [finalText_paragraph h1 hb]
      exact ih hf.2

/-! ### The lines behind the first pass -/

def breakLeaf : Leaf := ([.mark .paragraph], b!"<br><br>")

def Blk.leaves : Blk Leaf → List Leaf
  | .element y => [y]
  | .paragraph ys => ys
  | _ => []

def Blk.isParagraph : Blk Leaf → Bool
  | .paragraph (_ :: _) => true
  | _ => false

def finalLeaves : Bool → List (Nat × Blk Leaf) → List Leaf
  | _, [] => []
  | after, (_, b) :: rest => (if after && b.isParagraph then [breakLeaf] else []) ++ b.leaves ++ finalLeaves b.isParagraph rest

theorem finalLeaves_marked {env : ParserEnv} {html : HtmlEnv} {tokens : List (Str × Token)} {doc : List (Nat × DocBlock)} {d : List (Nat × Blk Leaf)}
    (h : List.Forall₂ (FinalBlk env html tokens) doc d) {prev : Option DocBlock} (hf : Follows prev doc) (after : Bool) :
    markedLines after (finalTexts d) = (finalLeaves after d).map (fun y => srcs y.1) := by
  induction h generalizing after prev with
  | nil => rfl
  | @cons a b doc d h1 h2 ih =>
    have hg := h1.gap
    obtain ⟨n, b⟩ := b
    rcases hg with ⟨ha, hb⟩ | ⟨hg, _⟩
    · obtain ⟨rfl, rfl⟩ := finals_end h2 ha hf.2
      simp only at hb
      subst hb
      simp [finalTexts, Blk.isGap, finalLeaves, Blk.isParagraph, Blk.leaves, markedLines]
    have ih := ih hf.2
    rw [finalTexts_cons hg]
    show (if after && (finalText b).isParagraph then [markerParagraph] else []) ++ (finalText b).lines ++ markedLines (finalText b).isParagraph (finalTexts d) = _
    rw [ih, finalLeaves, List.map_append, List.map_append]
    have hb : (finalText b).isParagraph = b.isParagraph ∧ (finalText b).lines = b.leaves.map (fun y => srcs y.1) := by
      rcases h1.2 with ⟨y, _, e, _⟩ | ⟨ls, ys, _, e, hy, _⟩ | ⟨_, e⟩
      · simp only at e; subst e; exact ⟨rfl, rfl⟩
      · simp only at e; subst e
        cases ys with
        | nil => exact absurd rfl hy
        | cons _ _ => exact ⟨rfl, rfl⟩
      · simp only at e hg; subst e; cases hg
    rw [hb.1, hb.2]
    congr 2
    split <;> rfl

theorem finalLeaves_html {env : ParserEnv} {html : HtmlEnv} {tokens : List (Str × Token)} {doc : List (Nat × DocBlock)} {d : List (Nat × Blk Leaf)}
    (h : List.Forall₂ (FinalBlk env html tokens) doc d) (after : Bool) :
    documentHtml (picHtml env html) after doc = (finalLeaves after d).map (·.2) := by
  induction h generalizing after with
  | nil => rfl
  | @cons a b doc d h1 _ ih =>
    obtain ⟨n, b⟩ := b
    obtain ⟨m, a⟩ := a
    rw [documentHtml, finalLeaves, ih, List.map_append, List.map_append]
    have hb : a.isParagraph = b.isParagraph ∧ a.html (picHtml env html) = b.leaves.map (·.2) := by
      rcases h1.2 with ⟨y, ha, e, hy, _⟩ | ⟨ls, ys, ha, e, hz, hy, _⟩ | ⟨ha, e⟩
      · simp only at e ha hy; subst e
        exact ⟨ha, by rw [← hy]; rfl⟩
      · simp only at e ha; subst e; subst ha
        cases ys with
        | nil => exact absurd rfl hz
        | cons _ _ => exact ⟨rfl, hy.symm⟩
      · simp only at e ha; subst e; subst ha
        exact ⟨rfl, rfl⟩
    rw [hb.1, hb.2]
    congr 2
    split <;> rfl

/-- A line in which everything has been replaced. -/
structure FinalLine (env : ParserEnv) (html : HtmlEnv) (tokens : List (Str × Token)) (x : Leaf) : Prop where
  calm : CalmLine (srcs x.1)
  nonEmpty : srcs x.1 ≠ []
  ok : ∀ a ∈ x.1, a.Ok env
  plain : ∀ a ∈ x.1, a.isPlain = true
  shows : LineShows html tokens x.1 x.2

theorem LeafFinal.line {env : ParserEnv} {html : HtmlEnv} {tokens : List (Str × Token)} {x : Leaf} (h : LeafFinal env html tokens x) :
    FinalLine env html tokens x := ⟨by simpa [spaces] using h.calm 0, h.leaf.srcs_ne, h.leaf.ok, h.plain, h.shows⟩

theorem breakLeaf_line (env : ParserEnv) (html : HtmlEnv) (tokens : List (Str × Token)) : FinalLine env html tokens breakLeaf := by
  have e : srcs breakLeaf.1 = markerParagraph := by decide
  refine ⟨e ▸ calm_marker, by rw [e]; decide, ?_, ?_, LineShows.single rfl⟩
  · intro a ha
    rw [List.mem_singleton.mp ha]
    trivial
  · intro a ha
    rw [List.mem_singleton.mp ha]
    rfl

theorem finalLeaves_lines {env : ParserEnv} {html : HtmlEnv} {tokens : List (Str × Token)} {doc : List (Nat × DocBlock)} {d : List (Nat × Blk Leaf)}
    (h : List.Forall₂ (FinalBlk env html tokens) doc d) (after : Bool) : ∀ x ∈ finalLeaves after d, FinalLine env html tokens x := by
  induction h generalizing after with
  | nil => simp [finalLeaves]
  | @cons a b doc d h1 _ ih =>
    obtain ⟨n, b⟩ := b
    intro x hx
    rw [finalLeaves, List.mem_append, List.mem_append] at hx
    rcases hx with (hx | hx) | hx
    · split at hx
      · rw [List.mem_singleton.mp hx]; exact breakLeaf_line env html tokens
      · simp at hx
    · rcases h1.2 with ⟨y, _, e, _, _, hf⟩ | ⟨ls, ys, _, e, _, _, hf⟩ | ⟨_, e⟩
      · simp only at e; subst e
        rw [List.mem_singleton.mp hx]
        exact hf.line
      · simp only at e; subst e
        exact (hf x hx).1.line
      · simp only at e; subst e
        cases hx
    · exact ih _ x hx

theorem finalLeaves_ne {env : ParserEnv} {html : HtmlEnv} {tokens : List (Str × Token)} {doc : List (Nat × DocBlock)} {d : List (Nat × Blk Leaf)}
    (h : List.Forall₂ (FinalBlk env html tokens) doc d) (hne : doc ≠ []) (hs : ∀ b ∈ doc.head?, b.2 ≠ .gap) (after : Bool) : finalLeaves after d ≠ [] := by
  cases h with
  | nil => exact absurd rfl hne
  | @cons a b doc d h1 _ =>
    obtain ⟨n, b⟩ := b
    rw [finalLeaves]
    have : b.leaves ≠ [] := by
      rcases h1.2 with ⟨y, _, e, _⟩ | ⟨ls, ys, _, e, hy, _⟩ | ⟨e, _⟩
      · simp only at e; subst e; simp [Blk.leaves]
      · simp only at e; subst e; exact hy
      · exact absurd e (hs a rfl)
    simp [this]

theorem paragraphLines_full (ls : List Str) (h : ∀ l ∈ ls, l ≠ []) : ∀ before ignore, paragraphLines ls before ignore false = ls := by
  induction ls with
  | nil => intros; rfl
  | cons l ls ih =>
    intro before ignore
    have h1 := h l (by simp)
    have ih := ih (fun x hx => h x (by simp [hx]))
    rw [paragraphLines]
    cases ignore <;> simp [h1, ih]

theorem lines_show {html : HtmlEnv} {tokens : List (Str × Token)} (xs : List Leaf) (h : ∀ x ∈ xs, LineShows html tokens x.1 x.2) :
    LineShows html tokens (flatLines (xs.map fun x => .one [] x [])) (join b!"\n" (xs.map (·.2))) := by
  have hl : ∀ x : Leaf, LineShows html tokens x.1 x.2 → LineShows html tokens (lineAtoms (.one [] x [])) x.2 := by
    intro x hx
    have := LineShows.cons (a := .text []) (x := []) rfl (hx.append (LineShows.single (a := .text []) (x := []) rfl))
    simpa [lineAtoms] using this
  induction xs with
  | nil => exact LineShows.nil
  | cons x xs ih =>
    have ih := ih fun y hy => h y (by simp [hy])
    have hx := hl x (h x (by simp))
    cases xs with
    | nil => exact hx
    | cons y ys =>
      rw [List.map_cons, List.map_cons, flatLines]
      have := hx.append (LineShows.cons (a := .text b!"\n") (x := b!"\n") rfl ih)
      show LineShows html tokens _ (join b!"\n" (x.2 :: (y :: ys).map (·.2)))
      rw [join_cons_of_ne_nil (by simp), List.append_assoc]
      exact this

/-- The whole tokenizer on an article, and the HTML of the result. -/
theorem tokenize_document (env : ParserEnv) (html : HtmlEnv) (hp : PlainPrefixes env) (doc : List (Nat × DocBlock)) (h : DocOk env doc)
    (hm : ∀ b ∈ doc, b.2.AllLines (Rendered html))
    (s : TokState) (hs : KeysCreated s) : ∃ text s', Ends (fun n => tokenizeContent env n (join b!"\n" (documentSource doc))) s text s' ∧
      ∃ k, ∀ fuel, k ≤ fuel → expandString html s'.tokenMap fuel text = pure (join b!"\n" (documentHtml (picHtml env html) false doc)) := by
  obtain ⟨d, s', e, g, f⟩ := first_pass env html hp doc h hm s hs
  have hhtml := expandDoc_html (picHtml env html) env doc h.blocks false
  have hfol := (BlocksFollow.follows h.follow).expand h.blocks
  have hlines := finalLeaves_lines f false
  have hne := finalLeaves_ne f (expandDoc_ne h) (expandDoc_start h) false
  have hpar : parseParagraphs (srcs (flatDoc d)) = join b!"\n" ((finalLeaves false d).map fun y => srcs y.1) := by
    have hbl : blockLines (finalTexts d) ++ List.replicate (gapLines d) [] ≠ [] := by
      intro e0
      have hm : markedLines false (finalTexts d) ≠ [] := by rw [finalLeaves_marked f hfol]; simpa using hne
      have hw := finalTexts_wellFormed f
      cases hd : finalTexts d with
      | nil => rw [hd] at hm; exact hm rfl
      | cons b d' =>
        rw [hd] at e0 hw
        have e0 : List.replicate b.1 [] ++ b.2.lines ++ blockLines d' = [] := (List.append_eq_nil_iff.mp e0).1
        rw [List.append_eq_nil_iff, List.append_eq_nil_iff] at e0
        have hb := hw b (by simp)
        obtain ⟨n, b⟩ := b
        cases b with
        | element t => simp [TextBlock.lines] at e0
        | paragraph ls => exact hb.1 (by simpa [TextBlock.lines] using e0.1.2)
    have := C54_paragraphs (finalTexts d) (gapLines d) (finalTexts_wellFormed f) (finalTexts_separated f hfol) (by simpa using hbl)
    rw [srcs_flatDoc, finalTexts_lines f hfol, this, finalLeaves_marked f hfol]
  rw [hpar] at e
  have hcalm : ∀ l ∈ (finalLeaves false d).map fun y => srcs y.1, CalmLine l := by
    intro l hl
    obtain ⟨y, hy, rfl⟩ := List.mem_map.mp hl
    exact (hlines y hy).calm
  have hpar' : parseParagraphs (join b!"\n" ((finalLeaves false d).map fun y => srcs y.1)) = join b!"\n" ((finalLeaves false d).map fun y => srcs y.1) := by
    rw [parseParagraphs, split_join_singleton (by simpa using hne) (fun l hl => (hcalm l hl).oneLine), paragraphLines_full]
    intro l hl
    obtain ⟨y, hy, rfl⟩ := List.mem_map.mp hl
    exact (hlines y hy).nonEmpty
  refine ⟨_, s', e.content (Ends.noop s' ⟨(join b!"\n" ((finalLeaves false d).map fun y => srcs y.1)).length + 3, fun n hn => ?_⟩), ?_⟩
  · obtain ⟨m, rfl⟩ : ∃ m, n = m + 1 := ⟨n - 1, by omega⟩
    rw [tokenizeContent, tokenizePass_calm env _ (by simpa using hne) hcalm m (by omega), pure_bind, hpar', if_pos rfl]
  · have hsrc : srcs (flatLines ((finalLeaves false d).map fun x => .one [] x [])) = join b!"\n" ((finalLeaves false d).map fun y => srcs y.1) := by
      rw [srcs_flatLines, List.map_map]
      congr 1
      refine List.map_congr_left fun x _ => ?_
      simp [lineStr]
    have hatom : ∀ a ∈ flatLines ((finalLeaves false d).map fun x => .one [] x []), a.Ok env ∧ a.isPlain = true := by
      intro a ha
      rcases mem_flatLines ha with rfl | ⟨l, hl, ha⟩
      · exact ⟨textOk_frame (by decide), rfl⟩
      · obtain ⟨x, hx, rfl⟩ := List.mem_map.mp hl
        simp only [lineAtoms, List.mem_cons, List.mem_append, List.not_mem_nil, or_false] at ha
        rcases ha with rfl | ha | rfl
        · exact ⟨TextOk.nil, rfl⟩
        · exact ⟨(hlines x hx).ok a ha, (hlines x hx).plain a ha⟩
        · exact ⟨TextOk.nil, rfl⟩
    obtain ⟨k, hk⟩ := expandString_atoms (fun a ha => (hatom a ha).1) (fun a ha => (hatom a ha).2)
      (lines_show (finalLeaves false d) fun x hx => (hlines x hx).shows)
    refine ⟨k, fun fuel hf => ?_⟩
    rw [← hsrc, hk fuel hf, ← hhtml, finalLeaves_html f]

end Verif.Model
