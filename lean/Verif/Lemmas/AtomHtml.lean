import Verif.Lemmas.Atoms

/-!
# The HTML of a line
-/

namespace Verif.Model
open Verif.Go Verif.Spec Verif.Lemmas
open scoped List

/-- All tokens of the first map are in the second one, too. -/
def TokensExtend (t t' : List (Str × Token)) : Prop := ∀ k tok, lookupToken t k = some tok → lookupToken t' k = some tok

theorem TokensExtend.refl (t : List (Str × Token)) : TokensExtend t t := fun _ _ h => h

theorem TokensExtend.trans {t t' t'' : List (Str × Token)} (h : TokensExtend t t') (h' : TokensExtend t' t'') : TokensExtend t t'' :=
  fun k tok hk => h' k tok (h k tok hk)

theorem Grows.extend {s s' : TokState} (h : Grows s s') (hs : KeysCreated s) : TokensExtend s.tokenMap s'.tokenMap :=
  fun _ _ hk => h.lookup hs hk

/-- The token with the key is shown as `h`, also if more tokens are added. -/
def KeyShows (html : HtmlEnv) (tokens : List (Str × Token)) (type : Str) (n : Nat) (h : Str) : Prop :=
  ∀ tokens', TokensExtend tokens tokens' → ∃ k tok, lookupToken tokens' (tokenKey type n) = some tok ∧
    ∀ fuel, k ≤ fuel → expandToken html (expandString html tokens' fuel) tok = pure h

theorem KeyShows.extend {html : HtmlEnv} {tokens tokens' : List (Str × Token)} {type : Str} {n : Nat} {h : Str}
    (hk : KeyShows html tokens type n h) (he : TokensExtend tokens tokens') : KeyShows html tokens' type n h :=
  fun t ht => hk t (he.trans ht)

/-- What a part of a caption is shown as. -/
def CapShows (html : HtmlEnv) (tokens : List (Str × Token)) : CapAtom → Str → Prop
  | .text t, h => h = t
  | .mark m, h => h = m.html
  | .key type n, h => KeyShows html tokens type n h
  | .link l, h => h = l.shown

/-- What a caption is shown as. -/
def CaptionShows (html : HtmlEnv) (tokens : List (Str × Token)) : Option (List CapAtom) → Str → Prop
  | none, h => h = []
  | some c, h => ∃ hs, List.Forall₂ (CapShows html tokens) c hs ∧ h = hs.flatten

/-- The line of a list for a reference. -/
def noteEntry (e : Nat × RefText) : Str := b!"[" ++ decimal (e.1 + 1) ++ b!"] " ++ e.2.html ++ b!"<br>"

/-- What an atom is shown as. -/
def AtomShows (html : HtmlEnv) (tokens : List (Str × Token)) : Atom → Str → Prop
  | .text t, h => h = t
  | .mark m, h => h = m.html
  | .key type n, h => KeyShows html tokens type n h
  | .link l, h => h = l.shown
  | .web url label, h => h = b!"<a href=\"" ++ url ++ b!"\">" ++ label ++ b!"</a>"
  | .image i file cap, h => ∃ ch, CaptionShows html tokens cap ch ∧ h = imageHtml (imageSource html file) i ch
  | .math _ formula, h => ∃ path width height style, html.math formula = .ok (path, width, height, style) ∧
      h = formulaHtml (escapePathComponents path) width height style
  | .ref _ _ _ (.list entries), h => h = join b!"\n" (entries.map noteEntry)
  | .ref number _ _ _, h => h = b!"[" ++ decimal (number + 1) ++ b!"]"

theorem CapShows.extend {html : HtmlEnv} {tokens tokens' : List (Str × Token)} {a : CapAtom} {h : Str}
    (hk : CapShows html tokens a h) (he : TokensExtend tokens tokens') : CapShows html tokens' a h := by
  cases a with
  | key type n => exact KeyShows.extend hk he
  | _ => exact hk

theorem CaptionShows.extend {html : HtmlEnv} {tokens tokens' : List (Str × Token)} {cap : Option (List CapAtom)} {h : Str}
    (hk : CaptionShows html tokens cap h) (he : TokensExtend tokens tokens') : CaptionShows html tokens' cap h := by
  cases cap with
  | none => exact hk
  | some c =>
    obtain ⟨hs, h1, h2⟩ := hk
    exact ⟨hs, h1.imp fun _ _ h => h.extend he, h2⟩

theorem AtomShows.extend {html : HtmlEnv} {tokens tokens' : List (Str × Token)} {a : Atom} {h : Str}
    (hk : AtomShows html tokens a h) (he : TokensExtend tokens tokens') : AtomShows html tokens' a h := by
  cases a with
  | key type n => exact KeyShows.extend hk he
  | image i file cap =>
    obtain ⟨ch, h1, h2⟩ := hk
    exact ⟨ch, h1.extend he, h2⟩
  | ref number attrs space kind => cases kind <;> exact hk
  | _ => exact hk

theorem CapShows.atom {html : HtmlEnv} {tokens : List (Str × Token)} {a : CapAtom} {h : Str} (hk : CapShows html tokens a h) :
    AtomShows html tokens a.atom h := by
  cases a <;> exact hk

/-- What a line is shown as. -/
def LineShows (html : HtmlEnv) (tokens : List (Str × Token)) (as : List Atom) (h : Str) : Prop :=
  ∃ hs, List.Forall₂ (AtomShows html tokens) as hs ∧ h = hs.flatten

theorem LineShows.nil {html : HtmlEnv} {tokens : List (Str × Token)} : LineShows html tokens [] [] := ⟨[], .nil, rfl⟩

theorem LineShows.cons {html : HtmlEnv} {tokens : List (Str × Token)} {a : Atom} {as : List Atom} {x h : Str}
    (ha : AtomShows html tokens a x) (hl : LineShows html tokens as h) : LineShows html tokens (a :: as) (x ++ h) := by
  obtain ⟨hs, h1, rfl⟩ := hl
  exact ⟨x :: hs, .cons ha h1, rfl⟩

theorem LineShows.append {html : HtmlEnv} {tokens : List (Str × Token)} {as bs : List Atom} {x y : Str}
    (ha : LineShows html tokens as x) (hb : LineShows html tokens bs y) : LineShows html tokens (as ++ bs) (x ++ y) := by
  obtain ⟨hs, h1, rfl⟩ := ha
  obtain ⟨hs', h2, rfl⟩ := hb
  exact ⟨hs ++ hs', List.rel_append h1 h2, by simp⟩

theorem LineShows.single {html : HtmlEnv} {tokens : List (Str × Token)} {a : Atom} {x : Str}
    (ha : AtomShows html tokens a x) : LineShows html tokens [a] x := ⟨[x], .cons ha .nil, by simp⟩

theorem LineShows.extend {html : HtmlEnv} {tokens tokens' : List (Str × Token)} {as : List Atom} {h : Str}
    (hk : LineShows html tokens as h) (he : TokensExtend tokens tokens') : LineShows html tokens' as h := by
  obtain ⟨hs, h1, rfl⟩ := hk
  exact ⟨hs, h1.imp fun _ _ h => h.extend he, rfl⟩

/-! ### Expansion -/

theorem TextOk.nil : TextOk [] := ⟨by simp, by simp, by simp, by simp, tagSafe_of_no_lt (by simp), by simp⟩

theorem TextOk.append {t u : Str} (h : TextOk t) (h' : TextOk u) : TextOk (t ++ u) := by
  refine ⟨?_, ?_, ?_, ?_, h.tags.append h'.tags, ?_⟩
  · intro c hc
    rcases List.mem_append.mp hc with hc | hc
    · exact h.chars c hc
    · exact h'.chars c hc
  · intro c hc
    exact no_pair_append (h.pairs c hc) (Or.inl (h.last c hc)) (h'.pairs c hc)
  · cases t with
    | nil => simpa using h'.first
    | cons c t => simpa using h.first
  · intro c hc
    rw [List.getLast?_append]
    have h1 := h.last c hc
    have h2 := h'.last c hc
    cases hu : u.getLast? with
    | none => simpa using h1
    | some d => rw [hu] at h2; simpa using h2
  · intro hm
    rcases List.mem_append.mp hm with hm | hm
    · obtain ⟨c, hc, hx⟩ := h.marker hm
      exact ⟨c, by simp [hc], hx⟩
    · obtain ⟨c, hc, hx⟩ := h'.marker hm
      exact ⟨c, by simp [hc], hx⟩

theorem TextOk.unambiguous {t : Str} (h : TextOk t) : Unambiguous t := by
  refine ⟨h.pairs _ (by decide), ?_, ?_⟩
  · rintro ⟨r, rfl⟩
    exact h.last 0x24 (by decide) (by simp)
  · intro m
    have h1 : (0x5F : Byte) ∈ m.name ∧ ∀ c ∈ m.name, tokenChar c = true := by cases m <;> decide
    refine ⟨fun e => ?_, fun e => ?_⟩
    · obtain ⟨c, hc, hx, _⟩ := h.marker (e ▸ h1.1)
      rw [h1.2 c (e ▸ hc)] at hx
      simp at hx
    · obtain ⟨c, hc, hx, hd⟩ := h.marker (e ▸ List.mem_append_right _ h1.1)
      rw [e] at hc
      rcases List.mem_append.mp hc with hc | hc
      · exact hd (by simpa using hc)
      · rw [h1.2 c hc] at hx
        simp at hx

/-- The pieces of a line; `t` is the text in front of it. -/
def atomPieces : Str → List Atom → List ElementPiece × Str
  | t, [] => ([], t)
  | t, .text u :: r => atomPieces (t ++ u) r
  | t, .mark m :: r => (⟨t, .marker m⟩ :: (atomPieces [] r).1, (atomPieces [] r).2)
  | t, .key type n :: r => (⟨t, .token type n⟩ :: (atomPieces [] r).1, (atomPieces [] r).2)
  | t, _ :: _ => ([], t)

theorem atomPieces_text {env : ParserEnv} (as : List Atom) : ∀ (t : Str), TextOk t → (∀ a ∈ as, a.Ok env) → (∀ a ∈ as, a.isPlain = true) →
    piecesText (atomPieces t as).1 (atomPieces t as).2 = t ++ srcs as ∧ (∀ p ∈ (atomPieces t as).1, p.WellFormed) ∧
      ¬ b!"$$" <:+: (atomPieces t as).2 := by
  induction as with
  | nil =>
    intro t ht _ _
    exact ⟨by simp [atomPieces, piecesText], by simp [atomPieces], ht.pairs _ (by decide)⟩
  | cons a as ih =>
    intro t ht ho hp
    have ho' : ∀ a ∈ as, a.Ok env := fun x hx => ho x (by simp [hx])
    have hp' : ∀ a ∈ as, a.isPlain = true := fun x hx => hp x (by simp [hx])
    have ha := ho a (by simp)
    cases a with
    | text u =>
      obtain ⟨h1, h2, h3⟩ := ih (t ++ u) (ht.append ha) ho' hp'
      exact ⟨by rw [atomPieces, h1]; simp [Atom.src], h2, h3⟩
    | mark m =>
      obtain ⟨h1, h2, h3⟩ := ih [] .nil ho' hp'
      refine ⟨?_, ?_, h3⟩
      · rw [atomPieces, piecesText_cons, h1]; simp [Atom.src]
      · intro p hm
        rcases List.mem_cons.mp hm with rfl | hm
        · exact ⟨ht.unambiguous, trivial⟩
        · exact h2 p hm
    | key type n =>
      obtain ⟨h1, h2, h3⟩ := ih [] .nil ho' hp'
      refine ⟨?_, ?_, h3⟩
      · rw [atomPieces, piecesText_cons, h1]; simp [Atom.src, Element.code]
      · intro p hm
        rcases List.mem_cons.mp hm with rfl | hm
        · exact ⟨ht.unambiguous, ha⟩
        · exact h2 p hm
    | link l => simpa [Atom.isPlain] using hp _ (List.mem_cons_self ..)
    | web url label => simpa [Atom.isPlain] using hp _ (List.mem_cons_self ..)
    | image i file cap => simpa [Atom.isPlain] using hp _ (List.mem_cons_self ..)
    | math attributes formula => simpa [Atom.isPlain] using hp _ (List.mem_cons_self ..)
    | ref number attrs space note => simpa [Atom.isPlain] using hp _ (List.mem_cons_self ..)

theorem expandPieces_atoms {html : HtmlEnv} {tokens : List (Str × Token)} {as : List Atom} {hs : List Str}
    (h : List.Forall₂ (AtomShows html tokens) as hs) (hp : ∀ a ∈ as, a.isPlain = true) :
    ∃ k, ∀ fuel, k ≤ fuel → ∀ t, expandPieces html tokens (expandString html tokens fuel) (atomPieces t as).1 (atomPieces t as).2 =
      pure (t ++ hs.flatten) := by
  induction h with
  | nil => exact ⟨0, fun fuel _ t => by simp [atomPieces, expandPieces]⟩
  | @cons a x as hs ha h ih =>
    obtain ⟨k, ih⟩ := ih fun x hx => hp x (by simp [hx])
    cases a with
    | text u =>
      refine ⟨k, fun fuel hf t => ?_⟩
      rw [atomPieces, ih fuel hf, show x = u from ha]
      simp
    | mark m =>
      refine ⟨k, fun fuel hf t => ?_⟩
      rw [atomPieces, expandPieces, ih fuel hf, show x = m.html from ha]
      simp [expandElement]
    | key type n =>
      obtain ⟨k', tok, h1, h2⟩ := (show KeyShows html tokens type n x from ha) tokens (.refl _)
      refine ⟨max k k', fun fuel hf t => ?_⟩
      rw [atomPieces, expandPieces, ih fuel (by omega)]
      simp [expandElement, h1, h2 fuel (by omega)]
    | link l => simpa [Atom.isPlain] using hp _ (List.mem_cons_self ..)
    | web url label => simpa [Atom.isPlain] using hp _ (List.mem_cons_self ..)
    | image i file cap => simpa [Atom.isPlain] using hp _ (List.mem_cons_self ..)
    | math attributes formula => simpa [Atom.isPlain] using hp _ (List.mem_cons_self ..)
    | ref number attrs space note => simpa [Atom.isPlain] using hp _ (List.mem_cons_self ..)

/-- The HTML of a line without links. -/
theorem expandString_atoms {env : ParserEnv} {html : HtmlEnv} {tokens : List (Str × Token)} {as : List Atom} {h : Str}
    (ho : ∀ a ∈ as, a.Ok env) (hp : ∀ a ∈ as, a.isPlain = true) (hs : LineShows html tokens as h) :
    ∃ k, ∀ fuel, k ≤ fuel → expandString html tokens fuel (srcs as) = pure h := by
  obtain ⟨hs, h1, rfl⟩ := hs
  obtain ⟨k, hk⟩ := expandPieces_atoms h1 hp
  obtain ⟨e1, e2, e3⟩ := atomPieces_text as [] .nil ho hp
  refine ⟨k + 1, fun fuel hf => ?_⟩
  obtain ⟨f, rfl⟩ : ∃ f, fuel = f + 1 := ⟨fuel - 1, by omega⟩
  rw [List.nil_append] at e1
  rw [← e1, expandString_pieces html tokens f _ _ e2 e3, hk f (by omega)]
  simp

end Verif.Model
