import Verif.Lemmas.AtomHtml
import Verif.Lemmas.LinkItems
import Verif.Props.Links
import Verif.Lemmas.TableTokens

/-!
# The links of a line
-/

namespace Verif.Model
open Verif.Go Verif.Spec Verif.Lemmas Verif.Props
open scoped List

/-! ### The text of a link -/

theorem LabelText.calm {t : Str} (h : LabelText t) : CalmLine t := by
  have hb : (0x7B : Byte) ∉ t := Words.not_mem h.words (by decide)
  refine ⟨Words.not_mem h.words (by decide), ?_, ?_, ?_, Words.not_mem h.words (by decide), ?_, tagFree_of_no_lt (Words.not_mem h.words (by decide)),
    h.words.pairs _ (by decide)⟩
  · rw [h.trimmed]
    intro c hc hcc
    exact h.start c hc (by revert hcc; simp; tauto)
  · rw [h.trimmed]
    rintro ⟨⟨r, e⟩, -⟩
    exact h.start 0x3D (by rw [← e]; rfl) (by decide)
  · exact fun hi => hb (mem_of_mem_trimSpace (hi.subset (by simp)))
  · exact fun hi => hb (hi.subset (by simp))

theorem parseParagraphs_line {l : Str} (hn : (0x0A : Byte) ∉ l) (hne : l ≠ []) : parseParagraphs l = l := by
  rw [parseParagraphs, split_singleton_of_not_mem hn, paragraphLines]
  split
  · simp [paragraphLines, join]
  · simp [paragraphLines, join]

theorem tokenizeContent_calm (env : ParserEnv) {l : Str} (h : CalmLine l) (hne : l ≠ []) :
    ∃ k, ∀ n, k ≤ n → tokenizeContent env n l = pure l := by
  refine ⟨l.length + 3, fun n hn => ?_⟩
  obtain ⟨m, rfl⟩ : ∃ m, n = m + 1 := ⟨n - 1, by omega⟩
  have := tokenizePass_calm env (tokenizeContent env m) (ls := [l]) (by simp) (by simpa using h) m (by simp [join]; omega)
  rw [show join b!"\n" [l] = l from rfl] at this
  rw [tokenizeContent, this, pure_bind, parseParagraphs_line h.oneLine hne, if_pos rfl]

theorem LabelText.expand {t : Str} (h : LabelText t) (html : HtmlEnv) (tokens : List (Str × Token)) (fuel : Nat) (hf : 1 ≤ fuel) :
    expandString html tokens fuel t = pure t := by
  obtain ⟨f, rfl⟩ : ∃ f, fuel = f + 1 := ⟨fuel - 1, by omega⟩
  have := expandString_pieces html tokens f [] t (by simp) (h.words.pairs _ (by decide))
  simpa [piecesText, expandPieces] using this

/-! ### New tokens -/

theorem newToken_eq (kind : Str) (token : Token) (s : TokState) : newToken kind token s =
    some (.ok (tokenKey kind s.counter, { s with tokenMap := (tokenKey kind s.counter, token) :: s.tokenMap, counter := s.counter + 1 })) := rfl

theorem Ends.newToken (kind : Str) (token : Token) (s : TokState) : ∃ s', Ends (fun _ => newToken kind token) s (tokenKey kind s.counter) s' ∧
    Grows s s' ∧ lookupToken s'.tokenMap (tokenKey kind s.counter) = some token := by
  refine ⟨_, ⟨0, fun n _ => newToken_eq kind token s⟩, growing_newToken kind token s _ _ (newToken_eq kind token s), ?_⟩
  simp [lookupToken]

/-! ### Replacing elements by keys -/

def Atom.isMark : Atom → Bool
  | .mark _ => true
  | _ => false

/-- An element is replaced by another one that is shown in the same way. -/
structure Step (env : ParserEnv) (html : HtmlEnv) (tokens : List (Str × Token)) (a b : Atom) : Prop where
  shape : SameShape a b
  ok : a.Ok env → b.Ok env
  shown : ∀ tokens', TokensExtend tokens tokens' → ∀ h, AtomShows html tokens' a h → AtomShows html tokens' b h
  key : ∀ type n, a = .key type n → b = a
  mark : b.isMark = a.isMark
  ref : a.isRef = false → b.isRef = false

theorem Step.refl {env : ParserEnv} {html : HtmlEnv} {tokens : List (Str × Token)} (a : Atom) : Step env html tokens a a := by
  refine ⟨?_, id, fun _ _ _ h => h, fun _ _ _ => rfl, rfl, id⟩
  cases a with
  | text t => exact Or.inl ⟨t, rfl, rfl⟩
  | _ => exact Or.inr ⟨rfl, rfl⟩

theorem SameShape.trans {a b c : Atom} (h : SameShape a b) (h' : SameShape b c) : SameShape a c := by
  rcases h with ⟨t, rfl, rfl⟩ | ⟨h1, h2⟩
  · exact h'
  · rcases h' with ⟨t, rfl, rfl⟩ | ⟨_, h4⟩
    · exact Or.inr ⟨h1, h2⟩
    · exact Or.inr ⟨h1, h4⟩

theorem Step.trans {env : ParserEnv} {html : HtmlEnv} {tokens : List (Str × Token)} {a b c : Atom} (h : Step env html tokens a b)
    (h' : Step env html tokens b c) : Step env html tokens a c := by
  refine ⟨h.shape.trans h'.shape, fun x => h'.ok (h.ok x), fun t ht x hx => h'.shown t ht x (h.shown t ht x hx), ?_, h'.mark.trans h.mark, fun x => h'.ref (h.ref x)⟩
  rintro type n rfl
  have := h.key type n rfl
  subst this
  exact h'.key type n rfl

theorem Step.extend {env : ParserEnv} {html : HtmlEnv} {tokens tokens' : List (Str × Token)} {a b : Atom}
    (h : Step env html tokens a b) (he : TokensExtend tokens tokens') : Step env html tokens' a b :=
  ⟨h.shape, h.ok, fun t ht => h.shown t (he.trans ht), h.key, h.mark, h.ref⟩

theorem Step.line {env : ParserEnv} {html : HtmlEnv} {tokens : List (Str × Token)} {as bs : List Atom}
    (h : List.Forall₂ (Step env html tokens) as bs) {x : Str} (hx : LineShows html tokens as x) : LineShows html tokens bs x := by
  induction h generalizing x with
  | nil => exact hx
  | cons h _ ih =>
    obtain ⟨hs, h1, rfl⟩ := hx
    cases h1 with
    | cons h1 h2 =>
      rw [List.flatten_cons]
      exact (h.shown _ (.refl _) _ h1 |> LineShows.cons) (ih ⟨_, h2, rfl⟩)

theorem Step.steps_trans {env : ParserEnv} {html : HtmlEnv} {tokens : List (Str × Token)} {as bs cs : List Atom}
    (h : List.Forall₂ (Step env html tokens) as bs) (h' : List.Forall₂ (Step env html tokens) bs cs) :
    List.Forall₂ (Step env html tokens) as cs := by
  induction h generalizing cs with
  | nil => exact h'
  | cons h _ ih =>
    cases h' with
    | cons h1 h2 => exact .cons (h.trans h1) (ih h2)

theorem Step.all_ok {env : ParserEnv} {html : HtmlEnv} {tokens : List (Str × Token)} {as bs : List Atom}
    (h : List.Forall₂ (Step env html tokens) as bs) (ho : ∀ a ∈ as, a.Ok env) : ∀ b ∈ bs, b.Ok env := by
  induction h with
  | nil => exact ho
  | cons h _ ih =>
    intro x hx
    rcases List.mem_cons.mp hx with rfl | hx
    · exact h.ok (ho _ (by simp))
    · exact ih (fun y hy => ho y (by simp [hy])) x hx

theorem Step.no_refs {env : ParserEnv} {html : HtmlEnv} {tokens : List (Str × Token)} {as bs : List Atom}
    (h : List.Forall₂ (Step env html tokens) as bs) (ho : NoRefs as) : NoRefs bs := by
  induction h with
  | nil => exact ho
  | cons h _ ih =>
    intro x hx
    rcases List.mem_cons.mp hx with rfl | hx
    · exact h.ref (ho _ (by simp))
    · exact ih (fun y hy => ho y (by simp [hy])) x hx

/-- An element is replaced by a key. -/
theorem Step.toKey {env : ParserEnv} {html : HtmlEnv} {tokens : List (Str × Token)} {a : Atom} {type : Str} {n : Nat} (hp : a.isPlain = false)
    (ht : type ≠ [] ∧ ∀ c ∈ type, tokenChar c = true)
    (hs : ∀ tokens', TokensExtend tokens tokens' → ∀ h, AtomShows html tokens' a h → KeyShows html tokens' type n h) :
    Step env html tokens a (.key type n) := by
  refine ⟨Or.inr ⟨?_, rfl⟩, fun _ => ht, hs, ?_, ?_, fun _ => rfl⟩
  · cases a <;> simp_all [Atom.isPlain, Atom.isText]
  · rintro type n rfl
    simp [Atom.isPlain] at hp
  · cases a <;> simp_all [Atom.isPlain, Atom.isMark]

/-! ### Replacing links in captions -/

structure CapStep (env : ParserEnv) (html : HtmlEnv) (tokens : List (Str × Token)) (a b : CapAtom) : Prop where
  shape : (∃ t, a = .text t ∧ b = .text t) ∨ (a.isText = false ∧ b.isText = false)
  ok : a.Ok env → b.Ok env
  shown : ∀ tokens', TokensExtend tokens tokens' → ∀ h, CapShows html tokens' a h → CapShows html tokens' b h
  noLink : b.isLink = false

theorem CapStep.extend {env : ParserEnv} {html : HtmlEnv} {tokens tokens' : List (Str × Token)} {a b : CapAtom}
    (h : CapStep env html tokens a b) (he : TokensExtend tokens tokens') : CapStep env html tokens' a b :=
  ⟨h.shape, h.ok, fun t ht => h.shown t (he.trans ht), h.noLink⟩

theorem CapStep.keep {env : ParserEnv} {html : HtmlEnv} {tokens : List (Str × Token)} {a : CapAtom} (h : a.isLink = false) :
    CapStep env html tokens a a := by
  refine ⟨?_, id, fun _ _ _ h => h, h⟩
  cases a with
  | text t => exact Or.inl ⟨t, rfl, rfl⟩
  | _ => exact Or.inr ⟨rfl, rfl⟩

theorem capWhile_step {env : ParserEnv} {html : HtmlEnv} {tokens : List (Str × Token)} {c d : List CapAtom}
    (h : List.Forall₂ (CapStep env html tokens) c d) : c.takeWhile CapAtom.isText = d.takeWhile CapAtom.isText := by
  induction h with
  | nil => rfl
  | cons h _ ih =>
    rcases h.shape with ⟨t, rfl, rfl⟩ | ⟨h1, h2⟩
    · simp [List.takeWhile_cons, CapAtom.isText, ih]
    · simp [h1, h2]

theorem CapAtom.src_ne {a : CapAtom} (h : a.isText = false) : a.src ≠ [] := by
  cases a with
  | text t => simp [CapAtom.isText] at h
  | mark m => simp [CapAtom.src, Element.code]
  | key type n => simp [CapAtom.src, tokenKey]
  | link l => simp [CapAtom.src]

theorem capSrc_step {env : ParserEnv} {html : HtmlEnv} {tokens : List (Str × Token)} {c d : List CapAtom}
    (h : List.Forall₂ (CapStep env html tokens) c d) (hn : capSrc c ≠ []) : capSrc d ≠ [] := by
  induction h with
  | nil => exact hn
  | cons h _ ih =>
    rcases h.shape with ⟨t, rfl, rfl⟩ | ⟨h1, h2⟩
    · rw [capSrc_cons] at hn ⊢
      intro e
      rw [List.append_eq_nil_iff] at e
      rw [e.1, List.nil_append] at hn
      exact ih hn e.2
    · rw [capSrc_cons]
      intro e
      rw [List.append_eq_nil_iff] at e
      exact CapAtom.src_ne h2 e.1

theorem CapOk.step {env : ParserEnv} {html : HtmlEnv} {tokens : List (Str × Token)} {c d : List CapAtom}
    (h : List.Forall₂ (CapStep env html tokens) c d) (ho : CapOk env c) : CapOk env d := by
  have h1 : capLead c = capLead d := by rw [capLead, capWhile_step h, capLead]
  have h2 : capTrail c = capTrail d := by rw [capTrail, capWhile_step (List.forall₂_reverse_iff.mpr h), capTrail]
  refine ⟨?_, capSrc_step h ho.nonEmpty, h1 ▸ ho.lead, h1 ▸ ho.start, h2 ▸ ho.trail, ⟨h1 ▸ ho.free.1, h1 ▸ ho.free.2.1, h2 ▸ ho.free.2.2⟩, h1 ▸ ho.option⟩
  have h3 := ho.ok
  clear h1 h2 ho
  induction h with
  | nil => exact h3
  | cons h _ ih =>
    intro x hx
    rcases List.mem_cons.mp hx with rfl | hx
    · exact h.ok (h3 _ (by simp))
    · exact ih (fun y hy => h3 y (by simp [hy])) x hx

theorem CaptionShows.step {env : ParserEnv} {html : HtmlEnv} {tokens : List (Str × Token)} {c d : List CapAtom}
    (h : List.Forall₂ (CapStep env html tokens) c d) {x : Str} (hx : CaptionShows html tokens (some c) x) : CaptionShows html tokens (some d) x := by
  induction h generalizing x with
  | nil => exact hx
  | cons h _ ih =>
    obtain ⟨hs, h1, rfl⟩ := hx
    cases h1 with
    | cons h1 h2 =>
      obtain ⟨hs', h3, h4⟩ := ih ⟨_, h2, rfl⟩
      exact ⟨_ :: hs', .cons (h.shown _ (.refl _) _ h1) h3, by rw [List.flatten_cons, List.flatten_cons, h4]⟩

theorem Step.caption {env : ParserEnv} {html : HtmlEnv} {tokens : List (Str × Token)} {i : WikiImage} {file : Str} {c d : List CapAtom}
    (h : List.Forall₂ (CapStep env html tokens) c d) : Step env html tokens (.image i file (some c)) (.image i file (some d)) := by
  refine ⟨Or.inr ⟨rfl, rfl⟩, ?_, ?_, fun _ _ e => (by cases e), rfl, fun _ => rfl⟩
  · intro ho
    have ho : ImageOk env i file (some c) := ho
    refine ⟨ho.reads, ⟨ho.image.space, ho.image.name, ho.image.file, ho.image.options, fun e => by cases e⟩, ho.wanted, ho.space, ho.file, ho.words,
      ho.lead, ho.start, ho.trail, ?_⟩
    rintro _ ⟨⟩
    exact CapOk.step h (ho.cap c rfl)
  · rintro t ht x ⟨ch, h1, h2⟩
    exact ⟨ch, CaptionShows.step (h.imp fun _ _ h => h.extend ht) h1, h2⟩

/-! ### Links to articles -/

/-- The links of a caption; `x` is what is behind it. -/
def groupCap : List CapAtom → Str × List (LinkItem × Str) → Str × List (LinkItem × Str)
  | [], x => x
  | .link l :: rest, x => ([], (.link l, (groupCap rest x).1) :: (groupCap rest x).2)
  | a :: rest, x => (a.src ++ (groupCap rest x).1, (groupCap rest x).2)

def groupCaption : Option (List CapAtom) → Str × List (LinkItem × Str) → Str × List (LinkItem × Str)
  | none, x => x
  | some c, x => (b!"|" ++ (groupCap c x).1, (groupCap c x).2)

def groupLinks : List Atom → Str × List (LinkItem × Str)
  | [] => ([], [])
  | .link l :: rest => ([], (.link l, (groupLinks rest).1) :: (groupLinks rest).2)
  | .image i _ cap :: rest =>
    ([], (.file (frontOf i), (groupCaption cap (b!"]]" ++ (groupLinks rest).1, (groupLinks rest).2)).1) ::
      (groupCaption cap (b!"]]" ++ (groupLinks rest).1, (groupLinks rest).2)).2)
  | a :: rest => (a.src ++ (groupLinks rest).1, (groupLinks rest).2)

/-- Links and images. -/
def Atom.isDouble : Atom → Bool
  | .link _ => true
  | .image _ _ _ => true
  | _ => false

theorem groupCap_other {a : CapAtom} (h : a.isLink = false) (rest : List CapAtom) (x : Str × List (LinkItem × Str)) :
    groupCap (a :: rest) x = (a.src ++ (groupCap rest x).1, (groupCap rest x).2) := by
  cases a with
  | link l => simp [CapAtom.isLink] at h
  | _ => rfl

theorem groupLinks_other {a : Atom} (h : a.isDouble = false) (rest : List Atom) :
    groupLinks (a :: rest) = (a.src ++ (groupLinks rest).1, (groupLinks rest).2) := by
  cases a with
  | link l => simp [Atom.isDouble] at h
  | image _ _ _ => simp [Atom.isDouble] at h
  | _ => rfl

theorem linkFree_append {x t : Str} (hx : (0x5B : Byte) ∉ x) (ht : LinkFree t) : LinkFree (x ++ t) := by
  intro h
  rw [List.append_assoc] at h
  exact ht (infix_behind hx h)

theorem linkFree_web {x t : Str} (hx : (0x5B : Byte) ∉ x) (hne : x ≠ []) (ht : LinkFree t) : LinkFree (b!"[" ++ x ++ t) := by
  intro h
  rw [List.append_assoc, List.append_assoc, List.cons_append, List.nil_append, List.infix_cons_iff] at h
  rcases h with h | h
  · obtain ⟨c, r, rfl⟩ := List.exists_cons_of_ne_nil hne
    rw [List.cons_append, List.cons_prefix_cons, List.cons_prefix_cons] at h
    exact hx (by simp [← h.2.1])
  · exact ht (infix_behind hx h)

/-- A text with links is as it should be. -/
def LinkedOk (env : ParserEnv) (x : Str × List (LinkItem × Str)) : Prop := LinkFree x.1 ∧ ∀ y ∈ x.2, y.1.Good env ∧ LinkFree y.2

theorem linkFree_nil : LinkFree [] := by unfold LinkFree; rw [← contains_eq_false_iff]; decide

theorem CapAtom.Ok.no_bracket {env : ParserEnv} {a : CapAtom} (h : a.Ok env) (hp : a.isLink = false) : (0x5B : Byte) ∉ a.src := by
  cases a with
  | text t => exact TextOk.not_mem h.1 (by decide)
  | mark m => exact not_mem_keyed (marker_chars m) (by decide) (by decide)
  | key type n => exact not_mem_keyed (tokenKey_chars n h.2) (by decide) (by decide)
  | link l => simp [CapAtom.isLink] at hp

theorem groupCap_spec {env : ParserEnv} (c : List CapAtom) (h : ∀ a ∈ c, a.Ok env) (x : Str × List (LinkItem × Str)) (hx : LinkedOk env x) :
    (groupCap c x).1 ++ itemsText (groupCap c x).2 = capSrc c ++ (x.1 ++ itemsText x.2) ∧ LinkedOk env (groupCap c x) := by
  induction c with
  | nil => exact ⟨rfl, hx⟩
  | cons a c ih =>
    obtain ⟨h1, h2⟩ := ih fun y hy => h y (by simp [hy])
    have ha := h a (by simp)
    by_cases hl : a.isLink = true
    · cases a with
      | link l =>
        refine ⟨?_, linkFree_nil, ?_⟩
        · rw [groupCap, itemsText, capSrc_cons, List.append_assoc (CapAtom.src _), ← h1]; simp [CapAtom.src, LinkItem.text]
        · intro y hy
          rw [groupCap] at hy
          rcases List.mem_cons.mp hy with rfl | hy
          · exact ⟨ha.1, h2.1⟩
          · exact h2.2 y hy
      | _ => simp [CapAtom.isLink] at hl
    · rw [groupCap_other (by simpa using hl)]
      exact ⟨by rw [capSrc_cons, List.append_assoc, h1]; simp, linkFree_append (ha.no_bracket (by simpa using hl)) h2.1, h2.2⟩

theorem groupCaption_spec {env : ParserEnv} (cap : Option (List CapAtom)) (h : ∀ c, cap = some c → ∀ a ∈ c, a.Ok env)
    (x : Str × List (LinkItem × Str)) (hx : LinkedOk env x) :
    (groupCaption cap x).1 ++ itemsText (groupCaption cap x).2 = capText cap ++ (x.1 ++ itemsText x.2) ∧ LinkedOk env (groupCaption cap x) := by
  cases cap with
  | none => exact ⟨rfl, hx⟩
  | some c =>
    obtain ⟨h1, h2, h3⟩ := groupCap_spec c (h c rfl) x hx
    exact ⟨by rw [groupCaption, List.append_assoc, h1]; simp [capText], linkFree_append (x := b!"|") (by decide) h2, h3⟩

theorem groupLinks_spec {env : ParserEnv} (as : List Atom) (h : ∀ a ∈ as, a.Ok env) (hr : NoRefs as) :
    srcs as = (groupLinks as).1 ++ itemsText (groupLinks as).2 ∧ LinkedOk env (groupLinks as) := by
  induction as with
  | nil => exact ⟨rfl, linkFree_nil, by simp [groupLinks]⟩
  | cons a as ih =>
    obtain ⟨h1, h2, h3⟩ := ih (fun x hx => h x (by simp [hx])) fun x hx => hr x (by simp [hx])
    have ha := h a (by simp)
    by_cases hl : a.isDouble = true
    · cases a with
      | link l =>
        refine ⟨?_, linkFree_nil, ?_⟩
        · rw [srcs_cons, h1, groupLinks, itemsText]; simp [Atom.src, LinkItem.text]
        · intro x hx
          rw [groupLinks] at hx
          rcases List.mem_cons.mp hx with rfl | hx
          · exact ⟨ha.1, h2⟩
          · exact h3 x hx
      | image i file cap =>
        have ha : ImageOk env i file cap := ha
        obtain ⟨h4, h5, h6⟩ := groupCaption_spec cap (fun c hc => (ha.cap c hc).ok) (b!"]]" ++ (groupLinks as).1, (groupLinks as).2)
          ⟨linkFree_append (x := b!"]]") (by decide) h2, h3⟩
        refine ⟨?_, linkFree_nil, ?_⟩
        · rw [srcs_cons, h1, groupLinks, itemsText]
          simp only [List.append_assoc, LinkItem.text, Atom.src, List.nil_append] at h4 ⊢
          rw [h4]
        · intro x hx
          rw [groupLinks] at hx
          rcases List.mem_cons.mp hx with rfl | hx
          · refine ⟨⟨i.space, WikiImage.front i, by simp [frontOf], fun hm => ha.image.space.2 _ hm (by decide), ha.space, Words.not_mem ha.words (by decide)⟩, h5⟩
          · exact h6 x hx
      | _ => simp [Atom.isDouble] at hl
    · rw [groupLinks_other (by simpa using hl)]
      refine ⟨by rw [srcs_cons, h1]; simp, ?_, h3⟩
      by_cases hp : a.isPlain = true ∨ a.isMath = true
      · exact linkFree_append (ha.no_bracket hp) h2
      · cases a with
        | web url label =>
          have : (0x5B : Byte) ∉ (Bracket.web url label).inner := Words.not_mem ha.2.1 (by decide)
          have := linkFree_web (x := (Bracket.web url label).inner ++ b!"]") (t := (groupLinks as).1) (by simp [this]) (by simp) h2
          simpa [Atom.src] using this
        | link l => simp [Atom.isDouble] at hl
        | image _ _ _ => simp [Atom.isDouble] at hl
        | ref _ _ _ _ => have := hr _ (List.mem_cons_self ..); simp [Atom.isRef] at this
        | _ => simp [Atom.isPlain, Atom.isMath] at hp

/-- What becomes of a text with links. -/
def linksM (rec : Rec) (x : Str × List (LinkItem × Str)) : TokM Str := do
  let r ← tokenizedLinkItems rec x.2
  pure (x.1 ++ r)

theorem linksM_text (rec : Rec) (t : Str) (x : Str × List (LinkItem × Str)) : linksM rec (t ++ x.1, x.2) = (do
    let r ← linksM rec x
    pure (t ++ r)) := by
  simp [linksM]

theorem linksM_link (rec : Rec) (l : WikiLink) (x : Str × List (LinkItem × Str)) : linksM rec ([], (.link l, x.1) :: x.2) = (do
    let text ← rec l.shown
    let key ← newToken b!"INTERNAL_LINK" (.internalLink l.target text)
    let r ← linksM rec x
    pure (key ++ r)) := by
  simp [linksM, tokenizedLinkItems, LinkItem.tokenized]

theorem linksM_file (rec : Rec) (s : Str) (x : Str × List (LinkItem × Str)) : linksM rec ([], (.file s, x.1) :: x.2) = (do
    let r ← linksM rec x
    pure (b!"[[" ++ s ++ r)) := by
  simp [linksM, tokenizedLinkItems, LinkItem.tokenized]

theorem Ends.pureBind {f : Nat → TokM Str} {s s' : TokState} {a : Str} (h : Ends f s a s') (t : Str) :
    Ends (fun n => do let r ← f n; Pure.pure (t ++ r)) s (t ++ a) s' := h.bind (g := fun _ r => Pure.pure (t ++ r)) (Ends.pure _ _)

/-- One link becomes a key. -/
theorem link_ends (env : ParserEnv) (html : HtmlEnv) {l : WikiLink} (hl : LabelText l.shown) (s : TokState) (hs : KeysCreated s) :
    ∃ s1, Ends (fun n => do
        let text ← tokenizeContent env n l.shown
        newToken b!"INTERNAL_LINK" (.internalLink l.target text)) s (tokenKey b!"INTERNAL_LINK" s.counter) s1 ∧ Grows s s1 ∧
      ∀ s', Grows s1 s' → ∀ tokens', TokensExtend s'.tokenMap tokens' → KeyShows html tokens' b!"INTERNAL_LINK" s.counter l.shown := by
  obtain ⟨s1, e1, g1, l1⟩ := Ends.newToken b!"INTERNAL_LINK" (.internalLink l.target l.shown) s
  refine ⟨s1, (Ends.noop s (tokenizeContent_calm env (LabelText.calm hl) hl.nonEmpty)).bind
    (g := fun _ text => newToken b!"INTERNAL_LINK" (.internalLink l.target text)) e1, g1, ?_⟩
  intro s' g2 t ht tokens' ht'
  refine ⟨1, _, ht' _ _ (ht _ _ (g2.lookup (g1.keysCreated hs) l1)), fun fuel hf => ?_⟩
  exact LabelText.expand hl html tokens' fuel hf

theorem cap_step (env : ParserEnv) (html : HtmlEnv) (c : List CapAtom) (h : ∀ a ∈ c, a.Ok env) (x : Str × List (LinkItem × Str))
    (P : Str → TokState → Prop)
    (hx : ∀ s, KeysCreated s → ∃ t s', Ends (fun n => linksM (tokenizeContent env n) x) s t s' ∧ Grows s s' ∧ P t s') :
    ∀ s, KeysCreated s → ∃ d t s', Ends (fun n => linksM (tokenizeContent env n) (groupCap c x)) s (capSrc d ++ t) s' ∧ Grows s s' ∧
      List.Forall₂ (CapStep env html s'.tokenMap) c d ∧ P t s' := by
  induction c with
  | nil =>
    intro s hs
    obtain ⟨t, s', h1, h2, h3⟩ := hx s hs
    exact ⟨[], t, s', h1, h2, .nil, h3⟩
  | cons a c ih =>
    intro s hs
    have ih := ih fun y hy => h y (by simp [hy])
    have ha := h a (by simp)
    by_cases hl : a.isLink = true
    · cases a with
      | link l =>
        obtain ⟨s1, e1, g1, l1⟩ := link_ends env html ha.2.2 s hs
        obtain ⟨d, t, s', e2, g2, h2, h3⟩ := ih s1 (g1.keysCreated hs)
        refine ⟨.key b!"INTERNAL_LINK" s.counter :: d, t, s', ?_, g1.trans g2, .cons ?_ h2, h3⟩
        · have e3 := e1.bind (g := fun n key => do let r ← linksM (tokenizeContent env n) (groupCap c x); pure (key ++ r)) (e2.pureBind (tokenKey b!"INTERNAL_LINK" s.counter))
          simpa [groupCap, linksM_link, CapAtom.src] using e3
        · refine ⟨Or.inr ⟨rfl, rfl⟩, fun _ => ⟨by decide, by decide⟩, ?_, rfl⟩
          intro t ht x hx
          obtain rfl : x = l.shown := hx
          exact l1 s' g2 t ht
      | _ => simp [CapAtom.isLink] at hl
    · obtain ⟨d, t, s', e, g, h2, h3⟩ := ih s hs
      have hl' : a.isLink = false := by simpa using hl
      refine ⟨a :: d, t, s', ?_, g, .cons (CapStep.keep hl') h2, h3⟩
      have e3 := e.pureBind a.src
      simpa [groupCap_other hl', linksM_text] using e3

/-- There are no links to articles. -/
def Atom.linksDone : Atom → Prop
  | .link _ => False
  | .image _ _ (some c) => ∀ a ∈ c, a.isLink = false
  | _ => True

theorem links_step (env : ParserEnv) (html : HtmlEnv) (as : List Atom) (h : ∀ a ∈ as, a.Ok env) : ∀ (s : TokState) (_ : KeysCreated s),
    ∃ bs s', Ends (fun n => linksM (tokenizeContent env n) (groupLinks as)) s (srcs bs) s' ∧
      Grows s s' ∧ List.Forall₂ (Step env html s'.tokenMap) as bs ∧ ∀ b ∈ bs, b.linksDone := by
  induction as with
  | nil => exact fun s _ => ⟨[], s, Ends.pure _ s, Grows.refl s, .nil, by simp⟩
  | cons a as ih =>
    intro s hs
    have ih := ih fun x hx => h x (by simp [hx])
    have ha := h a (by simp)
    by_cases hl : a.isDouble = true
    · cases a with
      | link l =>
        obtain ⟨s1, e1, g1, l1⟩ := link_ends env html ha.2.2 s hs
        obtain ⟨bs, s', e2, g2, h2, h3⟩ := ih s1 (g1.keysCreated hs)
        refine ⟨.key b!"INTERNAL_LINK" s.counter :: bs, s', ?_, g1.trans g2, .cons ?_ h2, ?_⟩
        · have e3 := e1.bind (g := fun n key => do let r ← linksM (tokenizeContent env n) (groupLinks as); pure (key ++ r)) (e2.pureBind (tokenKey b!"INTERNAL_LINK" s.counter))
          simpa [groupLinks, linksM_link, Atom.src] using e3
        · refine Step.toKey rfl ⟨by decide, by decide⟩ ?_
          intro t ht x hx
          obtain rfl : x = l.shown := hx
          exact l1 s' g2 t ht
        · intro b hb
          rcases List.mem_cons.mp hb with rfl | hb
          · trivial
          · exact h3 b hb
      | image i file cap =>
        have ha : ImageOk env i file cap := ha
        have hrest : ∀ s, KeysCreated s → ∃ t s', Ends (fun n => linksM (tokenizeContent env n) (b!"]]" ++ (groupLinks as).1, (groupLinks as).2)) s t s' ∧
            Grows s s' ∧ ∃ bs, t = b!"]]" ++ srcs bs ∧ List.Forall₂ (Step env html s'.tokenMap) as bs ∧ ∀ b ∈ bs, b.linksDone := by
          intro s hs
          obtain ⟨bs, s', e2, g2, h2, h3⟩ := ih s hs
          refine ⟨_, s', ?_, g2, bs, rfl, h2, h3⟩
          exact Ends.congr ⟨0, fun n _ => linksM_text _ b!"]]" (groupLinks as)⟩ (e2.pureBind b!"]]")
        cases cap with
        | none =>
          obtain ⟨_, s', e1, g, bs, rfl, h2, h3⟩ := hrest s hs
          refine ⟨.image i file none :: bs, s', ?_, g, .cons (Step.refl _) h2, ?_⟩
          · have e3 := Ends.congr ⟨0, fun n _ => linksM_file _ (frontOf i) (b!"]]" ++ (groupLinks as).1, (groupLinks as).2)⟩
              (e1.pureBind (b!"[[" ++ frontOf i))
            simpa [groupLinks, groupCaption, Atom.src, capText] using e3
          · intro b hb
            rcases List.mem_cons.mp hb with rfl | hb
            · trivial
            · exact h3 b hb
        | some c =>
          obtain ⟨d, _, s', e1, g, hd, bs, rfl, h2, h3⟩ := cap_step env html c (ha.cap c rfl).ok _ _ hrest s hs
          refine ⟨.image i file (some d) :: bs, s', ?_, g, .cons (Step.caption hd) h2, ?_⟩
          · have e2 := Ends.congr ⟨0, fun n _ => linksM_text _ b!"|" (groupCap c (b!"]]" ++ (groupLinks as).1, (groupLinks as).2))⟩ (e1.pureBind b!"|")
            have e3 := Ends.congr ⟨0, fun n _ => linksM_file _ (frontOf i) (b!"|" ++ (groupCap c (b!"]]" ++ (groupLinks as).1, (groupLinks as).2)).1,
              (groupCap c (b!"]]" ++ (groupLinks as).1, (groupLinks as).2)).2)⟩ (e2.pureBind (b!"[[" ++ frontOf i))
            simpa [groupLinks, groupCaption, Atom.src, capText] using e3
          · intro b hb
            rcases List.mem_cons.mp hb with rfl | hb
            · exact cap_done hd
            · exact h3 b hb
      | _ => simp [Atom.isDouble] at hl
    · obtain ⟨bs, s', e, g, h2, h3⟩ := ih s hs
      have hl' : a.isDouble = false := by simpa using hl
      refine ⟨a :: bs, s', ?_, g, .cons (Step.refl a) h2, ?_⟩
      · have e3 := e.pureBind a.src
        simpa [groupLinks_other hl', linksM_text] using e3
      · intro b hb
        rcases List.mem_cons.mp hb with rfl | hb
        · cases b <;> simp_all [Atom.isDouble, Atom.linksDone]
        · exact h3 b hb
where
  cap_done {env : ParserEnv} {html : HtmlEnv} {tokens : List (Str × Token)} {c d : List CapAtom}
      (h : List.Forall₂ (CapStep env html tokens) c d) : ∀ a ∈ d, a.isLink = false := by
    induction h with
    | nil => simp
    | cons h _ ih =>
      intro x hx
      rcases List.mem_cons.mp hx with rfl | hx
      · exact h.noLink
      · exact ih x hx

/-- All links to articles are replaced by keys. -/
theorem links_pass (env : ParserEnv) (html : HtmlEnv) (hp : PlainPrefixes env) (as : List Atom) (h : ∀ a ∈ as, a.Ok env) (hr : NoRefs as) (s : TokState)
    (hs : KeysCreated s) : ∃ bs s', Ends (fun n => parseInternalLinks env (tokenizeContent env n) (srcs as)) s (srcs bs) s' ∧
      Grows s s' ∧ List.Forall₂ (Step env html s'.tokenMap) as bs ∧ ∀ b ∈ bs, b.linksDone := by
  obtain ⟨bs, s', e, g, h2, h3⟩ := links_step env html as h s hs
  obtain ⟨e1, e2, e3⟩ := groupLinks_spec as h hr
  refine ⟨bs, s', Ends.congr ⟨0, fun n _ => ?_⟩ e, g, h2, h3⟩
  rw [e1]
  exact parseInternalLinks_items _ hp _ _ e2 e3

/-! ### Links to web pages -/

def Atom.isWeb : Atom → Bool
  | .web _ _ => true
  | _ => false

def groupWeb : List Atom → Str × List (Bracket × Str)
  | [] => ([], [])
  | .web url label :: rest => ([], (.web url label, (groupWeb rest).1) :: (groupWeb rest).2)
  | a :: rest => (a.src ++ (groupWeb rest).1, (groupWeb rest).2)

theorem groupWeb_other {a : Atom} (h : a.isWeb = false) (rest : List Atom) :
    groupWeb (a :: rest) = (a.src ++ (groupWeb rest).1, (groupWeb rest).2) := by
  cases a with
  | web url label => simp [Atom.isWeb] at h
  | _ => rfl

theorem groupWeb_spec {env : ParserEnv} (as : List Atom) (h : ∀ a ∈ as, a.Ok env) (hn : ∀ a ∈ as, a.isDouble = false) (hr : NoRefs as) :
    srcs as = (groupWeb as).1 ++ bracketText (groupWeb as).2 ∧ (0x5B : Byte) ∉ (groupWeb as).1 ∧
      ∀ x ∈ (groupWeb as).2, x.1.WellFormed env ∧ (0x5B : Byte) ∉ x.2 := by
  induction as with
  | nil => exact ⟨rfl, by simp [groupWeb], by simp [groupWeb]⟩
  | cons a as ih =>
    obtain ⟨h1, h2, h3⟩ := ih (fun x hx => h x (by simp [hx])) (fun x hx => hn x (by simp [hx])) fun x hx => hr x (by simp [hx])
    have ha := h a (by simp)
    have hna := hn a (by simp)
    by_cases hl : a.isWeb = true
    · cases a with
      | web url label =>
        refine ⟨?_, by simp [groupWeb], ?_⟩
        · rw [srcs_cons, h1, groupWeb, bracketText]; simp [Atom.src]
        · intro x hx
          rw [groupWeb] at hx
          rcases List.mem_cons.mp hx with rfl | hx
          · exact ⟨ha.1, h2⟩
          · exact h3 x hx
      | _ => simp [Atom.isWeb] at hl
    · have hl' : a.isWeb = false := by simpa using hl
      rw [groupWeb_other hl']
      refine ⟨by rw [srcs_cons, h1]; simp, ?_, h3⟩
      have hra := hr a (by simp)
      have hp : a.isPlain = true ∨ a.isMath = true := by cases a <;> simp_all [Atom.isWeb, Atom.isDouble, Atom.isPlain, Atom.isMath, Atom.isRef]
      have := ha.no_bracket hp
      simp [this, h2]

theorem web_step (env : ParserEnv) (html : HtmlEnv) (as : List Atom) (h : ∀ a ∈ as, a.Ok env) : ∀ (s : TokState) (_ : KeysCreated s),
    ∃ bs s', Ends (fun n => do
        let r ← tokenizedBrackets (tokenizeContent env n) (groupWeb as).2
        pure ((groupWeb as).1 ++ r)) s (srcs bs) s' ∧
      Grows s s' ∧ List.Forall₂ (Step env html s'.tokenMap) as bs ∧ ∀ b ∈ bs, b.isPlain = true ∨ (b ∈ as ∧ b.isWeb = false) := by
  induction as with
  | nil => exact fun s _ => ⟨[], s, Ends.pure _ s, Grows.refl s, .nil, by simp⟩
  | cons a as ih =>
    intro s hs
    have ih := ih fun x hx => h x (by simp [hx])
    have ha := h a (by simp)
    by_cases hl : a.isWeb = true
    · cases a with
      | web url label =>
        obtain ⟨k, hk⟩ := tokenizeContent_calm env (LabelText.calm ha.2.2) ha.2.2.nonEmpty
        obtain ⟨s1, e1, g1, l1⟩ := Ends.newToken b!"EXTERNAL_LINK" (.externalLink url label) s
        obtain ⟨bs, s', ⟨k', e2⟩, g2, h2, h3⟩ := ih s1 (g1.keysCreated hs)
        obtain ⟨k1, e1⟩ := e1
        refine ⟨.key b!"EXTERNAL_LINK" s.counter :: bs, s', ⟨max k (max k' k1), fun n hn => ?_⟩, g1.trans g2, .cons ?_ h2, ?_⟩
        · have e2 := e2 n (by omega)
          have e1 := e1 n (by omega)
          beta_reduce at e1
          rw [TokM.bind_ok] at e2
          obtain ⟨r, s2, e2, e3⟩ := e2
          simp only [groupWeb, tokenizedBrackets]
          rw [hk n (by omega)]
          simp only [bind_assoc, pure_bind]
          rw [TokM.bind_eq, e1]
          simp only
          rw [TokM.bind_eq, e2]
          simp only [TokM.pure_eq, Option.some.injEq, Res.ok.injEq, Prod.mk.injEq] at e3 ⊢
          rw [srcs_cons, ← e3.1]
          exact ⟨by simp [Atom.src], e3.2⟩
        · refine Step.toKey rfl ⟨by decide, by decide⟩ ?_
          intro t ht x hx tokens' ht'
          obtain rfl : x = b!"<a href=\"" ++ url ++ b!"\">" ++ label ++ b!"</a>" := hx
          refine ⟨1, _, ht' _ _ (ht _ _ (g2.lookup (g1.keysCreated hs) l1)), fun fuel hf => ?_⟩
          rw [expandToken, LabelText.expand ha.2.2 html tokens' fuel hf]
          rfl
        · intro b hb
          rcases List.mem_cons.mp hb with rfl | hb
          · exact Or.inl rfl
          · exact (h3 b hb).imp id fun h => ⟨List.mem_cons_of_mem _ h.1, h.2⟩
      | _ => simp [Atom.isWeb] at hl
    · obtain ⟨bs, s', e, g, h2, h3⟩ := ih s hs
      have hl' : a.isWeb = false := by simpa using hl
      refine ⟨a :: bs, s', ?_, g, .cons (Step.refl a) h2, ?_⟩
      · rw [groupWeb_other hl']
        obtain ⟨k, e⟩ := e
        refine ⟨k, fun n hn => ?_⟩
        have e := e n hn
        rw [TokM.bind_ok] at e ⊢
        obtain ⟨r, s2, e1, e2⟩ := e
        refine ⟨r, s2, e1, ?_⟩
        simp only [TokM.pure_eq, Option.some.injEq, Res.ok.injEq, Prod.mk.injEq] at e2 ⊢
        rw [srcs_cons, ← e2.1]
        exact ⟨by simp, e2.2⟩
      · intro b hb
        rcases List.mem_cons.mp hb with rfl | hb
        · exact Or.inr ⟨by simp, hl'⟩
        · exact (h3 b hb).imp id fun h => ⟨List.mem_cons_of_mem _ h.1, h.2⟩

/-- All links to web pages are replaced by keys. -/
theorem web_pass (env : ParserEnv) (html : HtmlEnv) (as : List Atom) (h : ∀ a ∈ as, a.Ok env) (hn : ∀ a ∈ as, a.isDouble = false) (hr : NoRefs as)
    (s : TokState) (hs : KeysCreated s) : ∃ bs s', Ends (fun n => parseExternalLinks env (tokenizeContent env n) (srcs as)) s (srcs bs) s' ∧
      Grows s s' ∧ List.Forall₂ (Step env html s'.tokenMap) as bs ∧ ∀ b ∈ bs, b.isPlain = true ∨ b.isMath = true := by
  obtain ⟨bs, s', e, g, h2, h3⟩ := web_step env html as h s hs
  obtain ⟨e1, e2, e3⟩ := groupWeb_spec as h hn hr
  refine ⟨bs, s', Ends.congr ⟨0, fun n _ => ?_⟩ e, g, h2, ?_⟩
  · rw [e1]
    exact C42_links_to_web_pages_partial env _ _ _ e2 e3
  · intro b hb
    rcases h3 b hb with h | ⟨h1, h2⟩
    · exact Or.inl h
    · have := hn b h1
      have := hr b h1
      cases b <;> simp_all [Atom.isWeb, Atom.isDouble, Atom.isPlain, Atom.isMath, Atom.isRef]

end Verif.Model
