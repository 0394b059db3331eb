import Verif.Lemmas.WholeHtml
import Verif.Lemmas.HaltSteps

/-!
# The tokenizer keeps keys complete: the steps
-/

namespace Verif.Lemmas
open Verif.Go Verif.Model Verif.Spec
open scoped List

variable {X : Alphabet} {m0 : List (Str × Token)} {α β : Type}

/-! ### Images are not forgotten -/

/-- If there are no images in the end, there are none at the beginning. -/
structure KeepsKeys (f : TokM α) : Prop where
  run : ∀ s a s', f s = some (.ok (a, s')) → s'.images = [] → s.images = []

theorem KeepsKeys.of {f : TokM α} (h : Growing f) : KeepsKeys f := by
  constructor
  intro s a s' e hi
  obtain ⟨new, hn⟩ := (h s a s' e).images
  rw [hi] at hn
  exact (List.append_eq_nil_iff.mp hn.symm).1

theorem KeepsKeys.rec_of {rec : Rec} (h : ∀ c, Growing (rec c)) (c : Str) : KeepsKeys (rec c) := KeepsKeys.of (h c)

theorem KeepsKeys.pure (a : α) : KeepsKeys (Pure.pure a : TokM α) := KeepsKeys.of (Growing.pure a)
theorem KeepsKeys.panic : KeepsKeys (TokM.panic : TokM α) := KeepsKeys.of Growing.panic
theorem KeepsKeys.running : KeepsKeys (TokM.running : TokM α) := KeepsKeys.of Growing.running
theorem KeepsKeys.lift (r : Res α) : KeepsKeys (TokM.lift r) := KeepsKeys.of (Growing.lift r)
theorem KeepsKeys.getToken (type : Str) : KeepsKeys (getToken type) := ⟨by intro s a s' e hi; cases e; exact hi⟩
theorem KeepsKeys.setRawToken (key : Str) (token : Token) : KeepsKeys (setRawToken key token) := ⟨by intro s a s' e hi; cases e; exact hi⟩
theorem KeepsKeys.bind {f : TokM α} {g : α → TokM β} (hf : KeepsKeys f) (hg : ∀ a, KeepsKeys (g a)) : KeepsKeys (f >>= g) := by
  constructor
  intro s b s'' e hi
  obtain ⟨a, s', h1, h2⟩ := TokM.bind_ok.mp e
  exact hf.run s a s' h1 ((hg a).run s' b s'' h2 hi)

theorem growing_imageKey (env : ParserEnv) {rec : Rec} (h : ∀ c, Growing (rec c)) (content : Str) : Growing (imageKey env rec content) := by
  unfold imageKey
  exact Growing.ite (Growing.pure _) (growing_imageToken env h _)

theorem growing_linkSegments (env : ParserEnv) {rec : Rec} (h : ∀ c, Growing (rec c)) (x : LinkSyntax) (l : List Str) :
    Growing (linkSegments env rec x l) := by
  induction l with
  | nil => exact Growing.pure _
  | cons a l ih => exact Growing.bind (growing_linkSegment env h _ _) fun _ => Growing.bind ih fun _ => Growing.pure _

theorem growing_mathLoop (l : List (Str × Str)) : ∀ content, Growing (mathLoop l content) := by
  induction l with
  | nil => intro _; exact Growing.pure _
  | cons p l ih =>
    intro content
    obtain ⟨whole, inner⟩ := p
    unfold mathLoop
    exact Growing.token fun _ => ih _

/-- Proves `KeepsKeys` for sequences of known steps. -/
macro "keeps" : tactic => `(tactic| repeat' (first
  | intro _
  | exact KeepsKeys.pure _
  | exact KeepsKeys.panic
  | exact KeepsKeys.running
  | exact KeepsKeys.lift _
  | exact KeepsKeys.getToken _
  | exact KeepsKeys.setRawToken _ _
  | exact KeepsKeys.rec_of (by assumption) _
  | exact KeepsKeys.of (growing_nowikiLoop _ _ _)
  | exact KeepsKeys.of (growing_mathLoop _ _)
  | exact KeepsKeys.of (growing_refUsage _ _)
  | exact KeepsKeys.of (growing_refDefinitions _ _ _ _)
  | exact KeepsKeys.of (growing_escapeImages _ _)
  | exact KeepsKeys.of (growing_galleryImage _ _)
  | exact KeepsKeys.of (growing_galleryLines _ _ _)
  | exact KeepsKeys.of (growing_headingLines (by assumption) _ _)
  | exact KeepsKeys.of (growing_headingDepths (by assumption) _ _)
  | exact KeepsKeys.of (growing_linkSegments _ (by assumption) _ _)
  | exact KeepsKeys.of (growing_linkSegment _ (by assumption) _ _)
  | exact KeepsKeys.of (growing_refTag (by assumption) _ _ _ _)
  | exact KeepsKeys.of (growing_refLoop (by assumption) _ _ _ _)
  | exact KeepsKeys.of (growing_lineItems (by assumption) _ _)
  | exact KeepsKeys.of ((growing_lists (by assumption) _).1 _ _)
  | exact KeepsKeys.of ((growing_lists (by assumption) _).2 _ _ _)
  | exact KeepsKeys.of (growing_parseListLines (by assumption) _ _)
  | exact KeepsKeys.of (growing_tableEntry (by assumption) _)
  | exact KeepsKeys.of (growing_tableRow (by assumption) _ _)
  | exact KeepsKeys.of (growing_tableRows (by assumption) _ _ _)
  | exact KeepsKeys.of (growing_tokenizeTable (by assumption) _ _)
  | exact KeepsKeys.of ((growing_tables (by assumption) _).1 _ _)
  | exact KeepsKeys.of ((growing_tables (by assumption) _).2 _)
  | exact KeepsKeys.of (growing_tableLoop (by assumption) _ _)
  | refine KeepsKeys.bind ?_ ?_
  | split))

/-! ### Parts of the tokenizer that keep keys complete -/

/-- Starting with at least the given tokens, all of them built properly, this part of the tokenizer ends with properly built
tokens and a result with the property, if no images are found. -/
def Good (X : Alphabet) (m0 : List (Str × Token)) (f : TokM α) (Q : List (Str × Token) → α → Prop) : Prop :=
  ∀ s a s', f s = some (.ok (a, s')) → s'.images = [] → m0 <:+ s.tokenMap → Built X s.tokenMap →
    Built X s'.tokenMap ∧ s.tokenMap <:+ s'.tokenMap ∧ Q s'.tokenMap a

variable {Q : List (Str × Token) → β → Prop} {P : List (Str × Token) → α → Prop}

theorem Good.pure {a : α} (h : ∀ m, m0 <:+ m → P m a) : Good X m0 (Pure.pure a : TokM α) P := by
  intro s b s' e _ hm hb
  cases e
  exact ⟨hb, List.suffix_rfl, h _ hm⟩

theorem Good.panic : Good X m0 (TokM.panic : TokM α) P := by intro s a s' e; cases e
theorem Good.running : Good X m0 (TokM.running : TokM α) P := by intro s a s' e; cases e

theorem Good.lift {r : Res α} (h : ∀ a, r = .ok a → ∀ m, m0 <:+ m → P m a) : Good X m0 (TokM.lift r) P := by
  intro s b s' e _ hm hb
  cases r with
  | ok a => cases e; exact ⟨hb, List.suffix_rfl, h _ rfl _ hm⟩
  | err => cases e
  | panic => cases e
  | fatal => cases e

theorem Good.bind {f : TokM α} {g : α → TokM β} (hf : Good X m0 f P) (hg : ∀ a m, m0 <:+ m → P m a → Good X m (g a) Q)
    (hk : ∀ a, KeepsKeys (g a) := by keeps) : Good X m0 (f >>= g) Q := by
  intro s b s'' e hi hm hb
  obtain ⟨a, s', h1, h2⟩ := TokM.bind_ok.mp e
  obtain ⟨b1, s1, q1⟩ := hf s a s' h1 ((hk a).run s' b s'' h2 hi) hm hb
  obtain ⟨b2, s2, q2⟩ := hg a _ (hm.trans s1) q1 s' b s'' h2 hi List.suffix_rfl b1
  exact ⟨b2, s1.trans s2, q2⟩

theorem Good.mono {f : TokM α} {P' : List (Str × Token) → α → Prop} (h : Good X m0 f P) (hp : ∀ m a, m0 <:+ m → P m a → P' m a) : Good X m0 f P' := by
  intro s a s' e hi hm hb
  obtain ⟨h1, h2, h3⟩ := h s a s' e hi hm hb
  exact ⟨h1, h2, hp _ _ (hm.trans h2) h3⟩

theorem Good.ite {c : Prop} [Decidable c] {f g : TokM α} (hf : c → Good X m0 f P) (hg : ¬ c → Good X m0 g P) :
    Good X m0 (if c then f else g) P := by
  split
  · exact hf ‹_›
  · exact hg ‹_›

theorem Good.getToken (type : Str) : Good X m0 (getToken type) fun _ key => ∃ n, key = tokenKey type n := by
  intro s a s' e _ hm hb
  cases e
  exact ⟨hb, List.suffix_rfl, _, rfl⟩

/-- The type of a token. -/
def TypeName (type : Str) : Prop := type ≠ [] ∧ ∀ c ∈ type, tokenChar c = true

instance (type : Str) : Decidable (TypeName type) := by unfold TypeName; infer_instance

theorem Good.setRawToken {type key : Str} {token : Token} (hk : ∃ n, key = tokenKey type n) (ht : TypeName type)
    (hw : ∀ t ∈ tokenTexts token, Whole X m0 t) : Good X m0 (setRawToken key token) fun m _ => Whole X m key := by
  obtain ⟨n, rfl⟩ := hk
  intro s a s' e _ hm hb
  cases e
  refine ⟨⟨fun t h => (hw t h).mono hm, hb⟩, List.suffix_cons _ _, ?_⟩
  exact Whole.element (e := .token type n) ht ⟨token, by simp⟩

/-- A token with known texts. -/
theorem Good.token {type : Str} {token : Token} {k : Str → TokM β} (ht : TypeName type)
    (hw : ∀ t ∈ tokenTexts token, Whole X m0 t) (hg : ∀ key m, m0 <:+ m → Whole X m key → Good X m (k key) Q)
    (hk : ∀ key, KeepsKeys (k key) := by keeps) :
    Good X m0 (Model.getToken type >>= fun key => Model.setRawToken key token >>= fun _ => k key) Q := by
  refine Good.bind (Good.getToken type) (fun key m hm hkey => ?_) fun key => KeepsKeys.bind (KeepsKeys.setRawToken _ _) fun _ => hk key
  exact Good.bind (Good.setRawToken hkey ht fun t h => (hw t h).mono hm) (fun _ m' hm' hkey => hg key m' (hm.trans hm') hkey) fun _ => hk key

/-- The recursion keeps keys complete. -/
def RecGood (X : Alphabet) (rec : Rec) : Prop := ∀ m t, Whole X m t → Good X m (rec t) fun m' r => Whole X m' r

/-- All these texts are whole. -/
def Wholes (X : Alphabet) (m : List (Str × Token)) (l : List Str) : Prop := ∀ t ∈ l, Whole X m t

theorem Wholes.mono {m m' : List (Str × Token)} {l : List Str} (h : Wholes X m l) (hs : m <:+ m') : Wholes X m' l := fun t ht => (h t ht).mono hs
theorem Wholes.cons {m : List (Str × Token)} {t : Str} {l : List Str} (h : Whole X m t) (h' : Wholes X m l) : Wholes X m (t :: l) := by
  intro x hx
  rcases List.mem_cons.mp hx with rfl | hx
  · exact h
  · exact h' x hx

theorem Alphabet.plain_of (X : Alphabet) {c : Byte} (h : c ∉ b!"$MAKER_") : X.Plain c := by
  refine ⟨?_, ?_⟩
  · rintro rfl; exact h (by decide)
  · rintro rfl; exact h (List.mem_cons_of_mem _ X.letter)

/-- Markup is whole. -/
theorem Whole.literal {m : List (Str × Token)} {s : Str} (h : ∀ c ∈ s, c ∉ b!"$MAKER_") : Whole X m s := Whole.plain fun c hc => X.plain_of (h c hc)

theorem whole_newline {m : List (Str × Token)} : Whole X m b!"\n" := Whole.literal (by decide)

theorem Whole.lines {m : List (Str × Token)} {s : Str} (h : Whole X m s) : Wholes X m (Go.split s b!"\n") := h.split (by decide)
theorem Wholes.join {m : List (Str × Token)} {l : List Str} (h : Wholes X m l) : Whole X m (Go.join b!"\n" l) := Whole.join whole_newline h

/-! ### nowiki -/

theorem lower_byte {c d : Byte} (h : lowerByte c = lowerByte d) (hd : d ∈ b!"<>/[]\n!|") : c = d := by
  have h65 : ∀ d ∈ b!"<>/[]\n!|", lowerByte d = d ∧ ¬ ((97 : Byte) ≤ d ∧ d ≤ 122) := by decide
  obtain ⟨h1, h2⟩ := h65 d hd
  rw [h1] at h
  unfold lowerByte at h
  split at h
  · rename_i hc
    exfalso
    apply h2
    simp only [Bool.and_eq_true, decide_eq_true_eq] at hc
    subst h
    obtain ⟨h3, h4⟩ := hc
    rw [UInt8.le_iff_toNat_le] at *
    rw [UInt8.le_iff_toNat_le, UInt8.toNat_add]
    simp at *
    omega
  · exact h

/-- The text has the token at this position, up to the case of letters. -/
theorem equalsIgnoreCase_at {content tok : Str} {i : Nat} (h : equalsIgnoreCase ((content.drop i).take tok.length) tok = true) {j : Nat} {d : Byte}
    (hj : tok[j]? = some d) (hd : d ∈ b!"<>/[]\n!|") : content[i + j]? = some d := by
  unfold equalsIgnoreCase at h
  rw [beq_iff_eq] at h
  have h1 := congrArg (·[j]?) h
  simp only [List.getElem?_map, hj, Option.map_some] at h1
  have hlt : j < tok.length := (List.getElem?_eq_some_iff.mp hj).1
  rw [List.getElem?_take_of_lt hlt, List.getElem?_drop] at h1
  cases hc : content[i + j]? with
  | none => rw [hc] at h1; cases h1
  | some c =>
    rw [hc, Option.map_some, Option.some.injEq] at h1
    rw [lower_byte h1 hd]

/-- The closing token is where the search finds it. -/
theorem closeLoop_at {o c : Str} (hc : c ≠ []) (t : Str) : ∀ {skip i k j : Nat}, closeLoop true o c t skip i k = some j →
    i ≤ j ∧ equalsIgnoreCase ((t.drop (j - i)).take c.length) c = true := by
  induction t with
  | nil => intro skip i k j h; rw [closeLoop] at h; cases h
  | cons x t ih =>
    intro skip i k j h
    have next : ∀ {skip k}, closeLoop true o c t skip (i + 1) k = some j → i ≤ j ∧
        equalsIgnoreCase (((x :: t).drop (j - i)).take c.length) c = true := by
      intro skip k h
      obtain ⟨h1, h2⟩ := ih h
      refine ⟨by omega, ?_⟩
      rw [show j - i = (j - (i + 1)) + 1 by omega, List.drop_succ_cons]
      exact h2
    cases skip with
    | succ skip => rw [closeLoop] at h; exact next h
    | zero =>
      rw [closeLoop] at h
      split at h
      · exact next h
      · split at h
        · rename_i hs
          split at h
          · cases h
            refine ⟨Nat.le_refl _, ?_⟩
            rw [Nat.sub_self, List.drop_zero]
            simp only [sameToken, if_true, cursorText] at hs
            split at hs
            · exact hs
            · exfalso
              unfold equalsIgnoreCase at hs
              rw [beq_iff_eq, List.map_nil] at hs
              exact hc (List.map_eq_nil_iff.mp hs.symm)
          · exact next h
        · exact next h

theorem findCloseIgnoreCase_at {content o c : Str} {i j : Nat} (hc : c ≠ []) (h : findCloseIgnoreCase content i o c = some j) :
    equalsIgnoreCase ((content.drop j).take c.length) c = true := by
  obtain ⟨h1, h2⟩ := closeLoop_at hc _ h
  rw [List.drop_drop, show i + (j - i) = j by omega] at h2
  exact h2

variable {rec : Rec} {content : Str} {m : List (Str × Token)}

theorem nowikiLoop_good (fuel : Nat) : ∀ (m : List (Str × Token)) (content : Str) (i : Nat), Whole X m content →
    Good X m (nowikiLoop fuel content i) fun m' r => Whole X m' r := by
  induction fuel with
  | zero => intro _ _ _ _; exact Good.running
  | succ fuel ih =>
    intro m content i hw
    rw [nowikiLoop]
    refine Good.ite (fun _ => Good.ite (fun ht => ?_) fun _ => ih _ _ _ hw) fun _ => Good.pure fun _ h => hw.mono h
    cases hc : findCloseIgnoreCase content (i + 8) b!"<nowiki>" b!"</nowiki>" with
    | none => exact Good.panic
    | some endIndex =>
      have h1 : content[i]? = some 0x3C := tag_at ht
      have h2 : content[endIndex + 8]? = some 0x3E :=
        equalsIgnoreCase_at (findCloseIgnoreCase_at (by decide) hc) (j := 8) (by decide) (by decide)
      refine Good.token (by decide) (by simp [tokenTexts]) fun key m' hm hkey => ?_
      have hw := hw.mono hm
      exact ih _ _ _ (((hw.at h1 (by decide)).1.append hkey).append (hw.at h2 (by decide)).2.2.2)

theorem parseNowiki_good (fuel : Nat) (hw : Whole X m content) : Good X m (parseNowiki fuel content) fun m' r => Whole X m' r :=
  nowikiLoop_good fuel m content 0 hw

/-! ### Bold and italic text -/

/-- The items of groups of apostrophes in a text from a position on. -/
inductive MarksFrom (content : Str) : Nat → List MarkItem → Prop
  | nil (index : Nat) : MarksFrom content index []
  | italic {index at' : Nat} {o c : Bool} {rest : List MarkItem} : index ≤ at' → b!"''" <+: content.drop at' →
      MarksFrom content (at' + 2) rest → MarksFrom content index (italicItems at' o c ++ rest)
  | bold {index at' : Nat} {o c : Bool} {rest : List MarkItem} : index ≤ at' → b!"'''" <+: content.drop at' →
      MarksFrom content (at' + 3) rest → MarksFrom content index (boldItems at' o c ++ rest)

theorem MarksFrom.earlier {content : Str} {i j : Nat} {l : List MarkItem} (h : MarksFrom content j l) (hij : i ≤ j) : MarksFrom content i l := by
  cases h with
  | nil => exact .nil _
  | italic h1 h2 h3 => exact .italic (by omega) h2 h3
  | bold h1 h2 h3 => exact .bold (by omega) h2 h3

theorem tokenize_marks (content : Str) (repair : Bool) (steps : Nat) : ∀ (index : Nat) (stack : List MarkItem) (b i : Bool)
    (result : List MarkItem), tokenizeBoldAndItalic content repair steps index stack b i = some result →
    ∃ new, result = stack ++ new ∧ MarksFrom content index new := by
  induction steps with
  | zero => intro _ _ _ _ _ h; simp [tokenizeBoldAndItalic] at h
  | succ steps ih =>
    intro index stack b i result h
    have done : some stack = some result → ∃ new, result = stack ++ new ∧ MarksFrom content index new := by
      intro h; cases h; exact ⟨[], by simp, .nil _⟩
    rw [tokenizeBoldAndItalic] at h
    simp only at h
    split at h
    · split at h
      · rename_i r hr
        cases h
        split at hr
        · rename_i hp
          rw [Bool.and_eq_true] at hp
          obtain ⟨new, rfl, hn⟩ := ih _ _ _ _ _ hr
          exact ⟨_, by rw [List.append_assoc], .italic (Nat.le_refl _) (hasPrefix_iff.mp hp.1) hn⟩
        · cases hr
      · split at h
        · rename_i hp
          split at h
          · cases h
          · obtain ⟨new, rfl, hn⟩ := ih _ _ _ _ _ h
            exact ⟨_, by rw [List.append_assoc], .bold (Nat.le_refl _) (hasPrefix_iff.mp hp) hn⟩
        · split at h
          · cases h
          · split at h
            · cases h
            · split at h
              · exact done h
              · obtain ⟨new, e, hn⟩ := ih _ _ _ _ _ h
                exact ⟨new, e, hn.earlier (by omega)⟩
    · split at h
      · exact done h
      · cases h

theorem applyMarks_step (type : MarkType) (index length : Nat) (rest : List MarkItem) (p src r : Str) (offset i : Nat)
    (hp : p.length = index + offset) (hs : src.length = length) :
    applyMarks (⟨type, index, length⟩ :: rest) (p ++ src ++ r) offset i =
      applyMarks rest (p ++ type.marker ++ r) (offset + (type.marker.length - length)) (index + offset + type.marker.length) := by
  rw [applyMarks]
  simp only
  have e1 : (p ++ src ++ r).take p.length = p := by rw [List.append_assoc, List.take_left]
  have e2 : (p ++ src ++ r).drop (p.length + src.length) = r := by rw [← List.length_append, List.drop_left]
  rw [← hp, ← hs, e1, e2]

theorem markers_long (t : MarkType) : 3 ≤ t.marker.length := by cases t <;> decide

theorem whole_marker (t : MarkType) : Whole X m t.marker := by
  cases t with
  | boldOpen => exact Whole.element (e := .marker .boldOpen) trivial trivial
  | boldClose => exact Whole.element (e := .marker .boldClose) trivial trivial
  | italicOpen => exact Whole.element (e := .marker .italicOpen) trivial trivial
  | italicClose => exact Whole.element (e := .marker .italicClose) trivial trivial

/-- The items of one group. -/
theorem applyMarks_group (x y z : MarkType) (c : Bool) (n : Nat) (hn : n ≤ 3) (rest : List MarkItem) (p src r : Str) (at' offset i : Nat)
    (hp : p.length = at' + offset) (hs : src.length = n) :
    ∃ mid : Str, mid ∈ [y.marker, x.marker ++ y.marker ++ z.marker] ∧ ∃ i', n ≤ mid.length ∧
      applyMarks ((if c then [⟨x, at', 0⟩, ⟨y, at', n⟩, ⟨z, at' + n, 0⟩] else [⟨y, at', n⟩]) ++ rest) (p ++ src ++ r) offset i =
        applyMarks rest (p ++ mid ++ r) (offset + (mid.length - n)) i' := by
  have lx := markers_long x
  have ly := markers_long y
  have lz := markers_long z
  cases c with
  | false =>
    refine ⟨y.marker, by simp, at' + offset + y.marker.length, by omega, ?_⟩
    exact applyMarks_step _ _ _ _ _ _ _ _ _ hp hs
  | true =>
    refine ⟨x.marker ++ y.marker ++ z.marker, by simp, at' + n + (offset + (x.marker.length - 0) + (y.marker.length - n)) + z.marker.length, by simp; omega, ?_⟩
    simp only [if_true, List.cons_append, List.nil_append]
    have e1 := applyMarks_step x at' 0 (⟨y, at', n⟩ :: ⟨z, at' + n, 0⟩ :: rest) p [] (src ++ r) offset i hp rfl
    rw [List.append_nil, ← List.append_assoc] at e1
    rw [e1]
    have e2 := applyMarks_step y at' n (⟨z, at' + n, 0⟩ :: rest) (p ++ x.marker) src r (offset + (x.marker.length - 0)) (at' + offset + x.marker.length)
      (by simp; omega) hs
    rw [← List.append_assoc]
    rw [e2]
    have e3 := applyMarks_step z (at' + n) 0 rest (p ++ x.marker ++ y.marker) [] r (offset + (x.marker.length - 0) + (y.marker.length - n))
      (at' + (offset + (x.marker.length - 0)) + y.marker.length) (by simp; omega) rfl
    rw [List.append_nil] at e3
    rw [e3]
    congr 1
    · simp
    · simp; omega

theorem applyMarks_whole {content : Str} {index : Nat} {stack : List MarkItem} (h : MarksFrom content index stack) :
    ∀ (pre : Str) (offset i : Nat), pre.length = index + offset → Whole X m (pre ++ content.drop index) →
      Whole X m (applyMarks stack (pre ++ content.drop index) offset i).1 := by
  have group : ∀ (index at' n : Nat) (src : Str) (x y z : MarkType) (c : Bool) (rest : List MarkItem), n ≤ 3 → src.length = n → Markup src →
      index ≤ at' → src <+: content.drop at' →
      (∀ (pre : Str) (offset i : Nat), pre.length = at' + n + offset → Whole X m (pre ++ content.drop (at' + n)) →
        Whole X m (applyMarks rest (pre ++ content.drop (at' + n)) offset i).1) →
      ∀ (pre : Str) (offset i : Nat), pre.length = index + offset → Whole X m (pre ++ content.drop index) →
        Whole X m (applyMarks ((if c then [⟨x, at', 0⟩, ⟨y, at', n⟩, ⟨z, at' + n, 0⟩] else [⟨y, at', n⟩]) ++ rest) (pre ++ content.drop index) offset i).1 := by
    intro index at' n src x y z c rest hn hl hmk hle hp ih pre offset i hpre hw
    obtain ⟨r, hr⟩ := hp
    have e1 : content.drop index = (content.drop index).take (at' - index) ++ (src ++ r) := by
      rw [hr]
      conv_lhs => rw [← List.take_append_drop (at' - index) (content.drop index)]
      rw [List.drop_drop, show index + (at' - index) = at' by omega]
    have e2 : content.drop (at' + n) = r := by rw [← List.drop_drop, ← hr, ← hl, List.drop_left]
    have hlt : ((content.drop index).take (at' - index)).length = at' - index := by
      rw [List.length_take, List.length_drop]
      have h1 := congrArg List.length hr
      rw [List.length_append, List.length_drop] at h1
      have h2 : 0 < src.length := List.length_pos_iff.mpr hmk.1
      omega
    generalize (content.drop index).take (at' - index) = t at e1 hlt
    rw [e1, ← List.append_assoc, ← List.append_assoc] at hw ⊢
    obtain ⟨mid, hmid, i', hlen, e⟩ := applyMarks_group x y z c n hn rest (pre ++ t) src r at' offset i (by simp; omega) hl
    rw [e]
    have hw3 := hw.sep hmk
    have hmw : Whole X m mid := by
      simp only [List.mem_cons, List.not_mem_nil, or_false] at hmid
      rcases hmid with rfl | rfl
      · exact whole_marker y
      · exact ((whole_marker x).append (whole_marker y)).append (whole_marker z)
    rw [← e2]
    refine ih _ _ _ (by simp; omega) ?_
    rw [e2]
    exact (hw3.1.append hmw).append hw3.2.2
  induction h with
  | nil index => intro pre offset i _ hw; exact hw
  | @italic index at' o c rest h1 h2 _ ih =>
    exact group index at' 2 b!"''" .boldClose (if o then .italicClose else .italicOpen) .boldOpen c rest (by omega) rfl (by decide) h1 h2 ih
  | @bold index at' o c rest h1 h2 _ ih =>
    exact group index at' 3 b!"'''" .italicClose (if o then .boldClose else .boldOpen) .italicOpen c rest (by omega) rfl (by decide) h1 h2 ih

theorem boldItalicLoop_whole (fuel : Nat) : ∀ (content : Str) (index : Nat) (r : Str), Whole X m content →
    boldItalicLoop fuel content index = some r → Whole X m r := by
  induction fuel with
  | zero => intro _ _ _ _ h; cases h
  | succ fuel ih =>
    intro content index r hw h
    rw [boldItalicLoop] at h
    simp only at h
    generalize skipToMark (content.drop index) index = idx at h
    split at h
    · rename_i hidx
      split at h
      · rename_i stack hstack
        refine ih _ _ _ ?_ h
        have : ∃ repair, tokenizeBoldAndItalic content repair (content.length + 1 - idx) idx [] false false = some stack := by
          rw [findMarks] at hstack
          split at hstack
          · rename_i h; exact ⟨false, by rw [h]; exact hstack⟩
          · exact ⟨true, hstack⟩
        obtain ⟨repair, hrep⟩ := this
        obtain ⟨new, e, hn⟩ := tokenize_marks _ _ _ _ _ _ _ _ hrep
        rw [List.nil_append] at e
        subst e
        have := applyMarks_whole (X := X) (m := m) hn (content.take idx) 0 idx (by simp; omega) (by rwa [List.take_append_drop])
        rwa [List.take_append_drop] at this
      · cases h; exact hw
    · cases h; exact hw

theorem parseBoldAndItalic_good (fuel : Nat) (hw : Whole X m content) : Good X m (parseBoldAndItalic fuel content) fun m' r => Whole X m' r := by
  intro s a s' e _ hm hb
  unfold parseBoldAndItalic at e
  cases hl : boldItalicLoop fuel content 0 with
  | none => rw [hl] at e; cases e
  | some r =>
    rw [hl] at e
    cases e
    exact ⟨hb, List.suffix_rfl, boldItalicLoop_whole fuel content 0 _ (hw.mono hm) hl⟩

/-! ### Headings -/

theorem markup_equals (d : Nat) : Markup (repeatStr b!"=" (d + 1)) := by
  constructor
  · simp [repeatStr]
  · have : ∀ n, ∀ c ∈ repeatStr b!"=" n, c = 0x3D := by
      intro n
      induction n with
      | zero => intro c hc; cases hc
      | succ n ih =>
        intro c hc
        rw [repeatStr] at hc
        rcases List.mem_append.mp hc with hc | hc
        · simpa using hc
        · exact ih c hc
    intro c hc
    rw [this _ c (hc.elim List.mem_of_head? List.mem_of_getLast?)]
    decide

theorem headingLine_good (hr : RecGood X rec) (hg : ∀ c, Growing (rec c)) (d : Nat) {line : Str} (hw : Whole X m line) :
    Good X m (headingLine rec (d + 1) line) fun m' r => Whole X m' r := by
  unfold headingLine
  refine Good.ite (fun _ => ?_) fun _ => Good.pure fun _ h => hw.mono h
  refine Good.bind (Good.getToken _) fun key m1 h1 hkey => ?_
  have ht : Whole X m1 (headingText (d + 1) line) := ((hw.mono h1).trimSpace.replaceAll (markup_equals d) .nil).trimSpace
  refine Good.bind (hr m1 _ ht) fun c m2 h2 hc => ?_
  refine Good.bind (Good.setRawToken hkey (by decide) (by simpa [tokenTexts] using hc)) fun _ m3 h3 hk => ?_
  exact Good.pure fun _ h => hk.mono h

theorem growing_headingLine_step (hg : ∀ c, Growing (rec c)) (d : Nat) (line : Str) : Growing (headingLine rec d line) :=
  Growing.ite (Growing.reserved (fun _ => hg _) (fun _ _ => Growing.pure _)) (Growing.pure _)

theorem headingLines_good (hr : RecGood X rec) (hg : ∀ c, Growing (rec c)) (d : Nat) (lines : List Str) : ∀ m, Wholes X m lines →
    Good X m (headingLines rec (d + 1) lines) fun m' r => Wholes X m' r := by
  induction lines with
  | nil => intro m h; exact Good.pure fun _ _ t ht => absurd ht (by simp)
  | cons line rest ih =>
    intro m h
    rw [headingLines]
    refine Good.bind (headingLine_good hr hg d (h line (by simp))) fun l m1 h1 hl => ?_
    refine Good.bind (ih m1 fun t ht => (h t (by simp [ht])).mono h1) fun ls m2 h2 hls => ?_
    exact Good.pure fun _ h => .cons (hl.mono (h2.trans h)) (hls.mono h)

theorem headingDepths_good (hr : RecGood X rec) (hg : ∀ c, Growing (rec c)) (d : Nat) : ∀ (lines : List Str) (m), Wholes X m lines →
    Good X m (headingDepths rec d lines) fun m' r => Wholes X m' r := by
  induction d with
  | zero => intro lines m h; exact Good.pure fun _ hs => h.mono hs
  | succ d ih =>
    intro lines m h
    rw [headingDepths]
    exact Good.bind (headingLines_good hr hg d lines m h) fun ls m1 h1 hls => ih ls m1 hls

theorem parseHeadings_good (hr : RecGood X rec) (hg : ∀ c, Growing (rec c)) (hw : Whole X m content) :
    Good X m (parseHeadings rec content) fun m' r => Whole X m' r := by
  unfold parseHeadings
  exact Good.bind (headingDepths_good hr hg 7 _ m hw.lines) fun ls m1 _ hls => Good.pure fun _ h => (hls.mono h).join

/-! ### Formulas -/

theorem matchMath_shape {s whole inner : Str} (h : matchMath s = some (whole, inner)) :
    ∃ mid, whole = 0x3C :: (mid ++ [0x3E]) := by
  unfold matchMath at h
  split at h
  · split at h
    · cases h
    · split at h
      · cases h
      · split at h
        · cases h
        · cases h
          exact ⟨b!"math" ++ _ ++ b!">" ++ _ ++ b!"</math", by simp; rfl⟩
  · cases h

theorem findMath_shape (s : Str) : ∀ skip, ∀ p ∈ findMath s skip, ∃ mid, p.1 = 0x3C :: (mid ++ [0x3E]) := by
  induction s with
  | nil => intro skip p hp; cases skip <;> (rw [findMath] at hp; cases hp)
  | cons c t ih =>
    intro skip p hp
    cases skip with
    | succ skip => rw [findMath] at hp; exact ih _ p hp
    | zero =>
      rw [findMath] at hp
      split at hp
      · rename_i q hq
        rcases List.mem_cons.mp hp with rfl | hp
        · exact matchMath_shape hq
        · exact ih _ p hp
      · exact ih _ p hp

theorem replaceFirst_cases (old new : Str) (s : Str) : replaceFirst old new s = s ∨ ∃ a b, s = a ++ old ++ b ∧ replaceFirst old new s = a ++ new ++ b := by
  induction s with
  | nil => exact .inl rfl
  | cons c t ih =>
    rw [replaceFirst]
    split
    · rename_i h
      obtain ⟨b, hb⟩ := List.isPrefixOf_iff_prefix.mp h
      exact .inr ⟨[], b, by simp [hb], by rw [← hb, List.drop_left]; rfl⟩
    · rcases ih with h | ⟨a, b, h1, h2⟩
      · exact .inl (by rw [h])
      · exact .inr ⟨c :: a, b, by simp [h1], by rw [h2]; simp⟩

theorem mathLoop_good (l : List (Str × Str)) (hl : ∀ p ∈ l, ∃ mid, p.1 = 0x3C :: (mid ++ [0x3E])) : ∀ (content : Str) (m), Whole X m content →
    Good X m (mathLoop l content) fun m' r => Whole X m' r := by
  induction l with
  | nil => intro content m h; exact Good.pure fun _ hs => h.mono hs
  | cons p l ih =>
    intro content m hw
    obtain ⟨whole, inner⟩ := p
    obtain ⟨mid, hmid⟩ := hl (whole, inner) (by simp)
    simp only at hmid
    rw [mathLoop]
    refine Good.token (by decide) (by simp [tokenTexts]) fun key m1 h1 hkey => ?_
    refine ih (fun p hp => hl p (by simp [hp])) _ _ ?_
    have hw := hw.mono h1
    rcases replaceFirst_cases whole key content with e | ⟨a, b, e1, e2⟩
    · rw [e]; exact hw
    · rw [e2]
      rw [e1, hmid] at hw
      have ha : Whole X m1 a := by
        refine (Whole.cut_before (a := a) (b := mid ++ [0x3E] ++ b) (c := 0x3C) ?_ (by decide)).1
        simpa using hw
      have hb : Whole X m1 b := by
        refine (Whole.cut_after (a := a ++ 0x3C :: mid) (b := b) (c := 0x3E) ?_ (by decide)).2
        simpa using hw
      exact (ha.append hkey).append hb

theorem parseMath_good (hw : Whole X m content) : Good X m (parseMath content) fun m' r => Whole X m' r :=
  mathLoop_good _ (findMath_shape content 0) content m hw

/-! ### Paragraphs -/

theorem paragraphLines_whole (lines : List Str) : ∀ (before : Str) (i c : Bool), Wholes X m lines → Wholes X m (paragraphLines lines before i c) := by
  have hp : Whole X m markerParagraph := Whole.element (e := .marker .paragraph) trivial trivial
  induction lines with
  | nil => intro _ _ _ _ t ht; rw [paragraphLines] at ht; cases ht
  | cons line rest ih =>
    intro before i c h
    have hl := h line (by simp)
    have hr : Wholes X m rest := fun t ht => h t (by simp [ht])
    rw [paragraphLines]
    split
    · exact .cons hl (ih _ _ _ hr)
    · split
      · split
        · cases c with
          | false => exact Wholes.cons hl (ih _ _ _ hr)
          | true => exact Wholes.cons hp (Wholes.cons hl (ih _ _ _ hr))
        · exact ih _ _ _ hr
      · split
        · exact ih _ _ _ hr
        · exact .cons hl (ih _ _ _ hr)

theorem parseParagraphs_whole (hw : Whole X m content) : Whole X m (parseParagraphs content) :=
  (paragraphLines_whole _ _ _ _ hw.lines).join

end Verif.Lemmas
