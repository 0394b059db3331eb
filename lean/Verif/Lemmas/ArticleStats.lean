import Verif.Model.ArticleStats
import Verif.Spec.ArticleStats
import Verif.Lemmas.Expand
import Verif.Lemmas.Stats

/-! Helper lemmas about the statistics of an article. -/

namespace Verif.Model
open Verif.Go Verif.Spec
open scoped List

theorem statsMarker_eq (s : Str) : statsMarker s = withoutMarkers s := rfl

/-- `expandString` after the markers have been removed. -/
def statsPlain (tokens : List (Str × Token)) (ex : Str → ExpM (List StatEvent)) (content : Str) : ExpM (List StatEvent) :=
  if hasToken content then expandLoop (fun s => [.text s]) (statsKey tokens ex) content content 0 0 none []
  else pure [.text content]

theorem statsString_succ (tokens : List (Str × Token)) (fuel : Nat) (content : Str) :
    statsString tokens (fuel + 1) content = statsPlain tokens (statsString tokens fuel) (withoutMarkers content) := rfl

/-- Without empty texts, which do not change anything. -/
def nonEmpty (events : List StatEvent) : List StatEvent := events.filter (· ≠ .text [])

theorem nonEmpty_append (a b : List StatEvent) : nonEmpty (a ++ b) = nonEmpty a ++ nonEmpty b := List.filter_append ..

/-- Text is remembered by its beginning. -/
theorem expandLoop_segment {α : Type} (simple : Str → List α) (ek : Str → ExpM (List α)) (content : Str) :
    ∀ (t R : Str) (i : Nat) (seg : Option Nat) (new : List α),
    ¬ b!"$$" <:+: t → (¬ b!"$" <:+ t ∨ ¬ b!"$" <+: R) →
    expandLoop simple ek content (t ++ R) 0 i seg new =
      expandLoop simple ek content R 0 (i + t.length) (seg.or (if t = [] then none else some i)) new := by
  intro t
  induction t with
  | nil => intro R i seg new _ _; simp
  | cons c t ih =>
    intro R i seg new h hR
    have hnp : hasPrefix (c :: (t ++ R)) b!"$$" = false := by
      rw [← Bool.not_eq_true, hasPrefix_iff]
      intro hp2
      rw [List.cons_prefix_cons] at hp2
      obtain ⟨rfl, hp3⟩ := hp2
      cases t with
      | nil =>
        rw [List.nil_append] at hp3
        rcases hR with hR | hR
        · exact hR (List.suffix_refl _)
        · exact hR hp3
      | cons d t =>
        rw [List.cons_append, List.cons_prefix_cons] at hp3
        obtain ⟨rfl, -⟩ := hp3
        exact h ⟨[], t, rfl⟩
    rw [List.cons_append, expandLoop, hnp]
    simp only [Bool.false_eq_true, if_false]
    rw [ih R (i + 1) (seg.or (some i)) new
      (fun hi => h (hi.trans (List.suffix_cons c t).isInfix))
      (by
        rcases hR with hR | hR
        · left; intro hs'; exact hR (hs'.trans (List.suffix_cons c t))
        · exact Or.inr hR)]
    have e : i + 1 + t.length = i + (c :: t).length := by simp; omega
    rw [e]
    congr 1
    cases seg <;> simp

/-- A piece of text and the events of the token behind it. -/
structure CountedPiece where
  text : Str
  type : Str
  n : Nat
  events : List StatEvent

/-- The text of some pieces. -/
def countedText : List CountedPiece → (last : Str) → Str
  | [], last => last
  | p :: ps, last => p.text ++ tokenKey p.type p.n ++ countedText ps last

/-- The events of some pieces. -/
def countedEvents : List CountedPiece → (last : Str) → List StatEvent
  | [], last => [.text last]
  | p :: ps, last => .text p.text :: p.events ++ countedEvents ps last

/-- A piece that can be expanded. -/
def CountedPiece.Ok (tokens : List (Str × Token)) (ex : Str → ExpM (List StatEvent)) (p : CountedPiece) : Prop :=
  Unambiguous p.text ∧ (p.type ≠ [] ∧ ∀ c ∈ p.type, tokenChar c = true) ∧
    ∃ token, lookupToken tokens (tokenKey p.type p.n) = some token ∧ statsToken ex token = pure p.events

theorem expandLoop_counted (tokens : List (Str × Token)) (ex : Str → ExpM (List StatEvent)) (content last : Str)
    (hl : ¬ b!"$$" <:+: last) (ps : List CountedPiece) (hp : ∀ p ∈ ps, p.Ok tokens ex) :
    ∀ (i : Nat) (new : List StatEvent), content.drop i = countedText ps last →
      ∃ events, expandLoop (fun s => [.text s]) (statsKey tokens ex) content (countedText ps last) 0 i none new =
        pure (new ++ events) ∧ nonEmpty events = nonEmpty (countedEvents ps last) := by
  induction ps with
  | nil =>
    intro i new hc
    have e := expandLoop_segment (fun s => [StatEvent.text s]) (statsKey tokens ex) content last [] i none new hl (Or.inr (by simp))
    simp only [List.append_nil, Option.none_or] at e
    simp only [countedText] at hc ⊢
    rw [e, expandLoop]
    by_cases h : last = []
    · refine ⟨[], ?_, ?_⟩
      · simp [h, addSegment]
      · simp [nonEmpty, countedEvents, h]
    · refine ⟨[.text last], ?_, rfl⟩
      simp [h, addSegment, hc]
  | cons p ps ih =>
    intro i new hc
    obtain ⟨⟨h1, h2, h3⟩, hw, token, hk, ht⟩ := hp p (by simp)
    rw [countedText, List.append_assoc] at hc ⊢
    rw [expandLoop_segment _ _ _ _ _ _ _ _ h1 (Or.inl h2)]
    have hc2 : content.drop (i + p.text.length) = tokenKey p.type p.n ++ countedText ps last := by
      rw [← List.drop_drop, hc, List.drop_left]
    have ek : tokenKey p.type p.n = b!"$$" ++ Element.key (.token p.type p.n) ++ b!"$$" := Element.code_eq (.token p.type p.n)
    rw [ek] at hc2 ⊢
    have hnd : (0x24 : Byte) ∉ Element.key (.token p.type p.n) := dollar_not_mem_key (e := .token p.type p.n) hw
    rw [expandLoop_key _ _ _ _ _ _ _ _ hnd hc2]
    have hs : statsKey tokens ex (Element.key (.token p.type p.n)) = pure p.events := by
      unfold statsKey
      rw [← ek, hk]
      exact ht
    rw [hs, ExpM.pure_bind]
    obtain ⟨events, e1, e2⟩ := ih (fun q hq => hp q (by simp [hq])) _
      (flush (fun s => [StatEvent.text s]) content (i + p.text.length) (Option.none.or (if p.text = [] then none else some i)) new ++ p.events)
      (by rw [← List.drop_drop, hc2, List.drop_left])
    rw [e1]
    by_cases h : p.text = []
    · refine ⟨p.events ++ events, ?_, ?_⟩
      · simp [h, flush, addSegment]
      · rw [nonEmpty_append, e2, countedEvents, h, List.cons_append]
        simp [nonEmpty]
    · refine ⟨.text p.text :: (p.events ++ events), ?_, ?_⟩
      · simp [h, flush, addSegment, hc]
      · have : StatEvent.text p.text :: (p.events ++ events) = (.text p.text :: p.events) ++ events := rfl
        rw [this, nonEmpty_append, e2, countedEvents, nonEmpty_append]

theorem matchToken_dd {s : Str} (h : (matchToken s).isSome = true) : b!"$$" <+: s := by
  unfold matchToken at h
  split at h
  · rename_i hp
    rw [hasPrefix_iff] at hp
    exact (show b!"$$" <+: b!"$$TOKEN_" from ⟨b!"TOKEN_", rfl⟩).trans hp
  · simp at h

theorem hasToken_of_not_dd {s : Str} (h : ¬ b!"$$" <:+: s) : hasToken s = false := by
  unfold hasToken
  induction s with
  | nil => rfl
  | cons c s ih =>
    have h1 : (matchToken (c :: s)).isSome = false := by
      rw [← Bool.not_eq_true]
      intro hm
      exact h (matchToken_dd hm).isInfix
    rw [matchesSomewhere, h1, ih (fun hi => h (hi.trans (List.suffix_cons c s).isInfix))]
    rfl

theorem statsPlain_counted (tokens : List (Str × Token)) (ex : Str → ExpM (List StatEvent)) (last : Str)
    (hl : ¬ b!"$$" <:+: last) (ps : List CountedPiece) (hp : ∀ p ∈ ps, p.Ok tokens ex) :
    ∃ events, statsPlain tokens ex (countedText ps last) = pure events ∧ nonEmpty events = nonEmpty (countedEvents ps last) := by
  unfold statsPlain
  cases ps with
  | nil =>
    rw [countedText, hasToken_of_not_dd hl]
    exact ⟨[.text last], rfl, rfl⟩
  | cons p ps =>
    have : hasToken (countedText (p :: ps) last) = true := by
      obtain ⟨-, hw, -⟩ := hp p (by simp)
      rw [countedText, List.append_assoc]
      exact matchesSomewhere_append _ _ _ (by rw [matchToken_key _ _ hw]; rfl)
    rw [this]
    obtain ⟨events, h1, h2⟩ := expandLoop_counted tokens ex (countedText (p :: ps) last) last hl (p :: ps) hp 0 [] rfl
    exact ⟨events, by simpa using h1, h2⟩

/-- The event of a token itself. -/
def ownEvents : Token → List StatEvent
  | .inlineImage .. => [.image]
  | .image .. => [.image]
  | .externalLink .. => [.externalLink]
  | .internalLink name _ => [.internalLink name]
  | .math _ => [.math]
  | .refDefinition .. => [.refDefinition]
  | .refUsage _ => [.refUsage]
  | _ => []

theorem forall₂_split {α β : Type} {R : α → β → Prop} {a b : List α} {l : List β} (h : List.Forall₂ R (a ++ b) l) :
    ∃ l₁ l₂, List.Forall₂ R a l₁ ∧ List.Forall₂ R b l₂ ∧ l = l₁ ++ l₂ := by
  induction a generalizing l with
  | nil => exact ⟨[], l, .nil, h, rfl⟩
  | cons x a ih =>
    cases h with
    | cons h1 h2 =>
      obtain ⟨l₁, l₂, i1, i2, rfl⟩ := ih h2
      exact ⟨_ :: l₁, l₂, .cons h1 i1, i2, rfl⟩

theorem mapM_counted {α : Type} (ex : Str → ExpM (List StatEvent)) (f : α → ExpM (List StatEvent)) (texts : α → List Str)
    (l : List α) (hf : ∀ a ∈ l, ∀ evs, List.Forall₂ (fun c ev => ex c = pure ev) (texts a) evs → f a = pure evs.flatten) :
    ∀ evs, List.Forall₂ (fun c ev => ex c = pure ev) (l.flatMap texts) evs →
      ∃ r, ExpM.mapM f l = pure r ∧ r.flatten = evs.flatten := by
  induction l with
  | nil =>
    intro evs h
    cases h
    exact ⟨[], rfl, rfl⟩
  | cons a l ih =>
    intro evs h
    rw [List.flatMap_cons] at h
    obtain ⟨e1, e2, h1, h2, rfl⟩ := forall₂_split h
    obtain ⟨r, r1, r2⟩ := ih (fun b hb => hf b (by simp [hb])) e2 h2
    refine ⟨e1.flatten :: r, ?_, by simp [r2]⟩
    rw [ExpM.mapM, hf a (by simp) e1 h1, ExpM.pure_bind, r1, ExpM.pure_bind]

theorem statsToken_counted (ex : Str → ExpM (List StatEvent)) (token : Token) (hc : Countable token) (evs : List (List StatEvent))
    (h : List.Forall₂ (fun c ev => ex c = pure ev) (tokenTexts token) evs) :
    statsToken ex token = pure (ownEvents token ++ evs.flatten) := by
  have one : ∀ {c : Str}, List.Forall₂ (fun c ev => ex c = pure ev) [c] evs → ∃ ev, evs = [ev] ∧ ex c = pure ev := by
    intro c h
    cases h with
    | cons h1 h2 => cases h2; exact ⟨_, rfl, h1⟩
  have none' : List.Forall₂ (fun c ev => ex c = pure ev) [] evs → evs = [] := fun h => by cases h; rfl
  cases token with
  | heading content depth =>
    obtain ⟨ev, rfl, e⟩ := one h
    simp [statsToken, ownEvents, e]
  | internalLink name text =>
    obtain ⟨ev, rfl, e⟩ := one h
    simp [statsToken, ownEvents, e]
  | externalLink name text =>
    obtain ⟨ev, rfl, e⟩ := one h
    simp [statsToken, ownEvents, e]
  | string s => exact hc.elim
  | table rows caption =>
    simp only [tokenTexts] at h
    obtain ⟨e1, e2, h1, h2, rfl⟩ := forall₂_split h
    obtain ⟨ev, rfl, e⟩ : ∃ ev, e2 = [ev] ∧ ex caption = pure ev := by
      cases h2 with
      | cons h1 h2 => cases h2; exact ⟨_, rfl, h1⟩
    have hrow : ∀ row ∈ rows, ∀ evs, List.Forall₂ (fun c ev => ex c = pure ev) (row.map TableCol.content) evs →
        statsRow ex row = pure evs.flatten := by
      intro row _ evs hr
      obtain ⟨r, r1, r2⟩ := mapM_counted ex (fun col => ex col.content) (fun col => [col.content]) row
        (fun col _ evs hc => by
          cases hc with
          | cons h1 h2 => cases h2; simpa using h1) evs (by rw [← List.map_eq_flatMap]; exact hr)
      rw [statsRow, r1, ExpM.pure_bind, r2]
    obtain ⟨r, r1, r2⟩ := mapM_counted ex (statsRow ex) _ rows hrow e1 h1
    rw [statsToken, statsTable, r1, ExpM.pure_bind, e, ExpM.pure_bind, r2]
    simp [ownEvents]
  | list l =>
    obtain ⟨kind, items⟩ := l
    have hflat : ∀ item ∈ items, match item with | .mk _ _ subLists => subLists = [] := hc
    have ht : itemsTexts items = items.flatMap (fun | .mk _ content _ => [content]) := by
      clear h hc
      induction items with
      | nil => rfl
      | cons item rest ih =>
        obtain ⟨type, content, subs⟩ := item
        have : subs = [] := hflat _ (List.mem_cons_self ..)
        subst this
        rw [itemsTexts, ih (fun i hi => hflat i (by simp [hi])), List.flatMap_cons]
        simp [itemTexts, listsTexts]
    simp only [tokenTexts, listTexts] at h
    rw [ht] at h
    obtain ⟨r, r1, r2⟩ := mapM_counted ex (statsItem ex) _ items
      (fun item _ evs hc => by
        obtain ⟨type, content, subs⟩ := item
        cases hc with
        | cons h1 h2 => cases h2; simpa [statsItem] using h1) evs h
    rw [statsToken, statsList, r1, ExpM.pure_bind, r2]
    simp [ownEvents]
  | image f c x y =>
    obtain ⟨ev, rfl, e⟩ := one h
    simp [statsToken, ownEvents, e]
  | inlineImage f x y =>
    rw [none' h]; simp [statsToken, ownEvents]
  | refDefinition i c =>
    obtain ⟨ev, rfl, e⟩ := one h
    simp [statsToken, ownEvents, e]
  | refUsage i => rw [none' h]; simp [statsToken, ownEvents]
  | math c => rw [none' h]; simp [statsToken, ownEvents]
  | nowiki c => exact hc.elim

/-- The events for what is in an article. -/
def eventsOf (items : List ReadItem) : List StatEvent :=
  items.flatMap fun | .text s => [.text s] | .token t => ownEvents t

/-- All tokens can be counted. -/
def AllCountable (items : List ReadItem) : Prop := ∀ t, .token t ∈ items → Countable t

theorem Shows.counted {tokens : List (Str × Token)} {contents : List Str} {items : List ReadItem}
    (h : Shows tokens contents items) (hc : AllCountable items) :
    ∃ N, ∀ fuel, N ≤ fuel → ∃ pieces : List (List CountedPiece × Str),
      List.Forall₂ (fun c p => c = countedText p.1 p.2 ∧ ¬ b!"$$" <:+: p.2 ∧ ∀ q ∈ p.1, q.Ok tokens (statsString tokens fuel)) contents pieces ∧
      nonEmpty (pieces.flatMap fun p => countedEvents p.1 p.2) = nonEmpty (eventsOf items) := by
  induction h with
  | nil => exact ⟨0, fun _ _ => ⟨[], .nil, rfl⟩⟩
  | @last text contents items h hr ih =>
    obtain ⟨N, hN⟩ := ih (fun t ht => hc t (by simp [ht]))
    refine ⟨N, fun fuel hf => ?_⟩
    obtain ⟨pieces, p1, p2⟩ := hN fuel hf
    refine ⟨([], text) :: pieces, .cons ⟨rfl, h, by simp⟩ p1, ?_⟩
    have e : eventsOf (.text text :: items) = [.text text] ++ eventsOf items := rfl
    rw [List.flatMap_cons, nonEmpty_append, p2, e, nonEmpty_append]
    rfl
  | @token text content type n token contents inner items h ht hk hi hr ih1 ih2 =>
    obtain ⟨N1, h1⟩ := ih1 (fun t ht => hc t (by simp [ht]))
    obtain ⟨N2, h2⟩ := ih2 (fun t ht => hc t (by simp [ht]))
    refine ⟨max (N1 + 1) N2, fun fuel hf => ?_⟩
    obtain ⟨fuel, rfl⟩ : ∃ k, fuel = k + 1 := ⟨fuel - 1, by omega⟩
    obtain ⟨q, q1, q2⟩ := h1 fuel (by omega)
    obtain ⟨r, r1, r2⟩ := h2 (fuel + 1) (by omega)
    cases r1 with
    | @cons _ p _ ps hp hps =>
    obtain ⟨hp1, hp2, hp3⟩ := hp
    -- the texts of the token
    have inner : ∃ evs, List.Forall₂ (fun c ev => statsString tokens (fuel + 1) c = pure ev) (tokenTexts token) evs ∧
        nonEmpty evs.flatten = nonEmpty (eventsOf inner) := by
      rw [← q2]
      clear q2 h1 h2 hi ih1
      generalize tokenTexts token = texts at q1
      induction texts generalizing q with
      | nil =>
        cases q1
        exact ⟨[], .nil, rfl⟩
      | cons c texts ih =>
        rw [List.map_cons] at q1
        cases q1 with
        | @cons _ p' _ ps' hq hqs =>
          obtain ⟨e1, e2, e3⟩ := hq
          obtain ⟨evs, v1, v2⟩ := ih ps' hqs
          obtain ⟨ev, w1, w2⟩ := statsPlain_counted tokens (statsString tokens fuel) p'.2 e2 p'.1 e3
          refine ⟨ev :: evs, .cons ?_ v1, ?_⟩
          · rw [statsString_succ, e1, w1]
          · rw [List.flatten_cons, nonEmpty_append, v2, w2, List.flatMap_cons, nonEmpty_append]
    obtain ⟨evs, v1, v2⟩ := inner
    have hs := statsToken_counted (statsString tokens (fuel + 1)) token (hc token (by simp)) evs v1
    refine ⟨(⟨text, type, n, ownEvents token ++ evs.flatten⟩ :: p.1, p.2) :: ps, .cons ⟨?_, hp2, ?_⟩ hps, ?_⟩
    · rw [countedText, hp1]
    · intro q hq
      rcases List.mem_cons.mp hq with rfl | hq
      · exact ⟨h, ht, token, hk, hs⟩
      · exact hp3 q hq
    · rw [List.flatMap_cons, nonEmpty_append] at r2 ⊢
      simp only [countedEvents]
      rw [nonEmpty_append, List.append_assoc, r2]
      simp only [eventsOf, List.flatMap_cons, List.flatMap_append] at v2 ⊢
      have e : StatEvent.text text :: (ownEvents token ++ evs.flatten) = [StatEvent.text text] ++ (ownEvents token ++ evs.flatten) := rfl
      rw [e]
      simp only [nonEmpty_append, v2, List.append_assoc]

theorem statsString_counted {tokens : List (Str × Token)} {content : Str} {items : List ReadItem}
    (h : Shows tokens [withoutMarkers content] items) (hc : AllCountable items) :
    ∃ N, ∀ fuel, N ≤ fuel → ∃ events, statsString tokens fuel content = pure events ∧ nonEmpty events = nonEmpty (eventsOf items) := by
  obtain ⟨N, hN⟩ := Shows.counted h hc
  refine ⟨N + 1, fun fuel hf => ?_⟩
  obtain ⟨fuel, rfl⟩ : ∃ k, fuel = k + 1 := ⟨fuel - 1, by omega⟩
  obtain ⟨pieces, p1, p2⟩ := hN fuel (by omega)
  cases p1 with
  | @cons _ p _ _ hp hps =>
    cases hps
    obtain ⟨e1, e2, e3⟩ := hp
    obtain ⟨ev, w1, w2⟩ := statsPlain_counted tokens (statsString tokens fuel) p.2 e2 p.1 e3
    refine ⟨ev, by rw [statsString_succ, e1, w1], ?_⟩
    rw [w2, ← p2]
    simp

/-! ### Counters -/

/-- The sum of something over all events. -/
def eventSum (w : StatEvent → Int) (events : List StatEvent) : Int := (events.map w).sum

theorem eventSum_nonEmpty (w : StatEvent → Int) (h : w (.text []) = 0) (events : List StatEvent) :
    eventSum w (nonEmpty events) = eventSum w events := by
  induction events with
  | nil => rfl
  | cons e events ih =>
    by_cases he : e = .text []
    · subst he
      rw [show nonEmpty (.text [] :: events) = nonEmpty events from rfl, ih]
      simp [eventSum, h]
    · rw [show nonEmpty (e :: events) = e :: nonEmpty events by simp [nonEmpty, he]]
      simp only [eventSum, List.map_cons, List.sum_cons] at ih ⊢
      rw [ih]

theorem eventSum_congr {w : StatEvent → Int} (h : w (.text []) = 0) {a b : List StatEvent} (hab : nonEmpty a = nonEmpty b) :
    eventSum w a = eventSum w b := by
  rw [← eventSum_nonEmpty w h a, hab, eventSum_nonEmpty w h]

/-- Counters are sums over the events. -/
theorem foldl_applyEvent {field : ArticleStats → Int} {w : StatEvent → Int} (env : RuneEnv)
    (h : ∀ s e, field (applyEvent env s e) = field s + w e) (events : List StatEvent) (s : ArticleStats) :
    field (events.foldl (applyEvent env) s) = field s + eventSum w events := by
  induction events generalizing s with
  | nil => simp [eventSum]
  | cons e events ih =>
    rw [List.foldl_cons, ih, h]
    simp only [eventSum, List.map_cons, List.sum_cons]
    omega

theorem eventSum_append (w : StatEvent → Int) (a b : List StatEvent) : eventSum w (a ++ b) = eventSum w a + eventSum w b := by
  simp [eventSum]

/-- The number of tokens of a kind is a sum over the events. -/
theorem eventSum_howMany (w : StatEvent → Int) (kind : Token → Bool) (ht : ∀ s, w (.text s) = 0)
    (hk : ∀ t, eventSum w (ownEvents t) = if kind t then 1 else 0) (items : List ReadItem) :
    eventSum w (eventsOf items) = howMany items kind := by
  induction items with
  | nil => rfl
  | cons item items ih =>
    cases item with
    | text s =>
      rw [show eventsOf (.text s :: items) = [.text s] ++ eventsOf items from rfl, eventSum_append, ih]
      simp [eventSum, ht, howMany]
    | token t =>
      rw [show eventsOf (.token t :: items) = ownEvents t ++ eventsOf items from rfl, eventSum_append, ih, hk]
      simp only [howMany, List.countP_cons]
      by_cases h : kind t <;> simp [h]; omega

/-- A sum over the texts is a sum over the events. -/
theorem eventSum_texts (w : StatEvent → Int) (f : Str → Int) (ht : ∀ s, w (.text s) = f s)
    (hk : ∀ t, eventSum w (ownEvents t) = 0) (items : List ReadItem) :
    eventSum w (eventsOf items) = ((textsOf items).map f).sum := by
  induction items with
  | nil => rfl
  | cons item items ih =>
    cases item with
    | text s =>
      rw [show eventsOf (.text s :: items) = [.text s] ++ eventsOf items from rfl, eventSum_append, ih]
      simp [eventSum, ht, textsOf]
    | token t =>
      rw [show eventsOf (.token t :: items) = ownEvents t ++ eventsOf items from rfl, eventSum_append, ih, hk]
      simp [textsOf]

end Verif.Model
