import Verif.Lemmas.Expand
import Verif.Lemmas.Halts

/-!
# Texts in which all keys are complete
-/

namespace Verif.Lemmas
open Verif.Go Verif.Model Verif.Spec
open scoped List

/-- One of the characters that all names of markers have; it is looked for in the text of an article. -/
structure Alphabet where
  missing : Byte
  letter : missing ∈ b!"MAKER_"

/-- The character can be anywhere in the text. -/
def Alphabet.Plain (X : Alphabet) (c : Byte) : Prop := c ≠ 0x24 ∧ c ≠ X.missing

/-- A character of a key or of a word. -/
def keyByte (c : Byte) : Bool := tokenChar c || c = 0x24 || (97 ≤ c && c ≤ 122)

/-- A word: it has no dollar signs at its end or next to each other, and it is no part of the name of a marker. -/
structure Word (w : Str) : Prop where
  ne : w ≠ []
  chars : ∀ c ∈ w, keyByte c = true
  dollars : ¬ b!"$$" <:+: w
  last : ¬ b!"$" <:+ w
  name : ∀ k : Marker, ¬ w <:+: b!"$" ++ k.name

/-- A key that has been assigned a token, or a marker. -/
def Known (m : List (Str × Token)) : Element → Prop
  | .marker _ => True
  | .token type n => ∃ token, (tokenKey type n, token) ∈ m

/-- A text of plain characters, words and complete keys. -/
inductive Whole (X : Alphabet) (m : List (Str × Token)) : Str → Prop
  | nil : Whole X m []
  | byte {c : Byte} {t : Str} : X.Plain c → Whole X m t → Whole X m (c :: t)
  | word {w t : Str} : Word w → Whole X m t → Whole X m (w ++ t)
  | key {e : Element} {t : Str} : e.WellFormed → Known m e → Whole X m t → Whole X m (e.code ++ t)

variable {X : Alphabet} {m m' : List (Str × Token)}

theorem Known.mono {e : Element} (h : Known m e) (hs : m <:+ m') : Known m' e := by
  cases e with
  | marker _ => trivial
  | token type n => obtain ⟨t, ht⟩ := h; exact ⟨t, hs.mem ht⟩

theorem Whole.mono {s : Str} (h : Whole X m s) (hs : m <:+ m') : Whole X m' s := by
  induction h with
  | nil => exact .nil
  | byte hc _ ih => exact .byte hc ih
  | word hw _ ih => exact .word hw ih
  | key hw hk _ ih => exact .key hw (hk.mono hs) ih

theorem Whole.append {a b : Str} (ha : Whole X m a) (hb : Whole X m b) : Whole X m (a ++ b) := by
  induction ha with
  | nil => exact hb
  | byte hc _ ih => exact .byte hc ih
  | word hw _ ih => rw [List.append_assoc]; exact .word hw ih
  | key hw hk _ ih => rw [List.append_assoc]; exact .key hw hk ih

theorem Whole.plain {s : Str} (h : ∀ c ∈ s, X.Plain c) : Whole X m s := by
  induction s with
  | nil => exact .nil
  | cons c s ih => exact .byte (h c (by simp)) (ih fun d hd => h d (by simp [hd]))

theorem Whole.element {e : Element} (hw : e.WellFormed) (hk : Known m e) : Whole X m e.code := by
  have := Whole.key (X := X) hw hk .nil
  rwa [List.append_nil] at this

theorem keyByte_code {e : Element} (h : e.WellFormed) : ∀ c ∈ e.code, keyByte c = true := by
  have hd : ∀ n, ∀ c ∈ decimal n, keyByte c = true := by
    intro n c hc
    have := decimal_digits n c hc
    simp [keyByte, tokenChar, this.1, this.2]
  cases e with
  | marker k => cases k <;> decide
  | token type n =>
    intro c hc
    simp only [Element.code, tokenKey, List.mem_append] at hc
    rcases hc with (((hc | hc) | hc) | hc) | hc
    · revert c; decide
    · have := h.2 c hc; simp [keyByte, this]
    · revert c; decide
    · exact hd n c hc
    · revert c; decide

theorem code_ne_nil (e : Element) : e.code ≠ [] := by rw [Element.code_eq]; simp

/-- A block of characters of keys is not cut. -/
theorem Whole.cut_block {u t a b : Str} (hcode : ∀ c ∈ u, keyByte c = true) (he : u ++ t = a ++ b) (hu : Whole X m u)
    (hc : ∀ x, Whole X m x → Whole X m (u ++ x)) (ht : Whole X m t)
    (ih : ∀ {a b : Str}, t = a ++ b →
      (a = [] ∨ b = [] ∨ (∃ c, a.getLast? = some c ∧ keyByte c = false) ∨ (∃ c, b.head? = some c ∧ keyByte c = false)) →
      Whole X m a ∧ Whole X m b)
    (hs : a = [] ∨ b = [] ∨ (∃ c, a.getLast? = some c ∧ keyByte c = false) ∨ (∃ c, b.head? = some c ∧ keyByte c = false)) :
    Whole X m a ∧ Whole X m b := by
  rcases List.append_eq_append_iff.mp he with ⟨a', rfl, h2⟩ | ⟨x, h1, h2⟩
  · have := ih h2 (by
      rcases hs with hs | hs | ⟨x, hx, hk⟩ | hs
      · exact .inl (List.append_eq_nil_iff.mp hs).2
      · exact .inr (.inl hs)
      · cases a' with
        | nil => exact .inl rfl
        | cons y a' => exact .inr (.inr (.inl ⟨x, by rwa [List.getLast?_append_of_ne_nil _ (by simp)] at hx, hk⟩))
      · exact .inr (.inr (.inr hs)))
    exact ⟨hc _ this.1, this.2⟩
  · rw [h1] at hcode
    by_cases ha : a = []
    · subst ha
      rw [List.nil_append] at h1
      exact ⟨.nil, by rw [h2, ← h1]; exact hc _ ht⟩
    · by_cases hx : x = []
      · subst hx
        rw [List.append_nil] at h1
        rw [List.nil_append] at h2
        rw [← h1, h2]
        exact ⟨hu, ht⟩
      · exfalso
        rcases hs with hs | hs | ⟨y, hy, hk⟩ | ⟨y, hy, hk⟩
        · exact ha hs
        · rw [h2] at hs; exact hx (List.append_eq_nil_iff.mp hs).1
        · rw [hcode y (List.mem_append_left _ (List.mem_of_getLast? hy))] at hk; cases hk
        · cases x with
          | nil => exact hx rfl
          | cons z x =>
            rw [h2, List.cons_append, List.head?_cons, Option.some.injEq] at hy
            subst hy
            rw [hcode z (by simp)] at hk; cases hk

/-- The text can be cut between two characters if one of them is not a character of keys. -/
theorem Whole.cut {s : Str} (h : Whole X m s) : ∀ {a b : Str}, s = a ++ b →
    (a = [] ∨ b = [] ∨ (∃ c, a.getLast? = some c ∧ keyByte c = false) ∨ (∃ c, b.head? = some c ∧ keyByte c = false)) →
    Whole X m a ∧ Whole X m b := by
  induction h with
  | nil =>
    intro a b e _
    obtain ⟨rfl, rfl⟩ := List.append_eq_nil_iff.mp e.symm
    exact ⟨.nil, .nil⟩
  | @byte c t hc ht ih =>
    intro a b e hs
    cases a with
    | nil => exact ⟨.nil, by rw [List.nil_append] at e; rw [← e]; exact .byte hc ht⟩
    | cons d a =>
      rw [List.cons_append, List.cons.injEq] at e
      obtain ⟨rfl, e⟩ := e
      have := ih e (by
        rcases hs with hs | hs | ⟨x, hx, hk⟩ | hs
        · cases hs
        · exact .inr (.inl hs)
        · cases a with
          | nil => exact .inl rfl
          | cons y a => exact .inr (.inr (.inl ⟨x, by rwa [List.getLast?_cons_cons] at hx, hk⟩))
        · exact .inr (.inr (.inr hs)))
      exact ⟨.byte hc this.1, this.2⟩
  | @word w t hw ht ih =>
    intro a b he hs
    exact Whole.cut_block hw.chars he (by have := Whole.word (X := X) (m := m) hw .nil; rwa [List.append_nil] at this)
      (fun _ h => .word hw h) ht ih hs
  | @key e t hw hk ht ih =>
    intro a b he hs
    exact Whole.cut_block (keyByte_code hw) he (.element hw hk) (fun _ h => .key hw hk h) ht ih hs

theorem Whole.cut_before {a b : Str} {c : Byte} (h : Whole X m (a ++ c :: b)) (hc : keyByte c = false) :
    Whole X m a ∧ Whole X m (c :: b) := h.cut rfl (.inr (.inr (.inr ⟨c, rfl, hc⟩)))

theorem Whole.cut_after {a b : Str} {c : Byte} (h : Whole X m (a ++ c :: b)) (hc : keyByte c = false) :
    Whole X m (a ++ [c]) ∧ Whole X m b := h.cut (by simp) (.inr (.inr (.inl ⟨c, by simp, hc⟩)))

/-- The text can be cut at a character that is not part of keys, in front of it and behind it. -/
theorem Whole.at {s : Str} {i : Nat} {c : Byte} (h : Whole X m s) (hi : s[i]? = some c) (hc : keyByte c = false) :
    Whole X m (s.take i) ∧ Whole X m (s.drop i) ∧ Whole X m (s.take (i + 1)) ∧ Whole X m (s.drop (i + 1)) := by
  obtain ⟨hl, hi⟩ := List.getElem?_eq_some_iff.mp hi
  have e : s = s.take i ++ c :: s.drop (i + 1) := by
    rw [← hi, ← List.drop_eq_getElem_cons hl, List.take_append_drop]
  have e2 : s.take (i + 1) = s.take i ++ [c] := by rw [List.take_add_one, List.getElem?_eq_getElem hl, hi]; rfl
  have e3 : s.drop i = c :: s.drop (i + 1) := by rw [← hi, ← List.drop_eq_getElem_cons hl]
  rw [e] at h
  have h1 := h.cut_before hc
  have h2 := h.cut_after hc
  rw [e2, e3]
  exact ⟨h1.1, h1.2, h2.1, h2.2⟩

/-- The separator neither begins nor ends with a character of keys or words. -/
def Markup (sep : Str) : Prop := sep ≠ [] ∧ ∀ c, sep.head? = some c ∨ sep.getLast? = some c → keyByte c = false

theorem markup_iff (sep : Str) : Markup sep ↔ sep.head?.map keyByte = some false ∧ sep.getLast?.map keyByte = some false := by
  unfold Markup
  constructor
  · rintro ⟨h0, h⟩
    cases sep with
    | nil => exact absurd rfl h0
    | cons c t =>
      refine ⟨by simp [h c (.inl rfl)], ?_⟩
      rw [List.getLast?_eq_some_getLast (List.cons_ne_nil c t)]
      simp only [Option.map_some, Option.some.injEq]
      exact h _ (.inr (List.getLast?_eq_some_getLast _))
  · rintro ⟨h1, h2⟩
    refine ⟨by rintro rfl; simp at h1, ?_⟩
    rintro c (h | h)
    · rw [h] at h1; simpa using h1
    · rw [h] at h2; simpa using h2

instance (sep : Str) : Decidable (Markup sep) := decidable_of_iff _ (markup_iff sep).symm

theorem Whole.sep {a sep b : Str} (hs : Markup sep) (h : Whole X m (a ++ sep ++ b)) : Whole X m a ∧ Whole X m sep ∧ Whole X m b := by
  obtain ⟨h0, hk⟩ := hs
  obtain ⟨c, t, rfl⟩ := List.exists_cons_of_ne_nil h0
  rw [List.append_assoc] at h
  have h1 := h.cut rfl (.inr (.inr (.inr ⟨c, rfl, hk c (.inl rfl)⟩)))
  have h2 := h1.2.cut rfl (.inr (.inr (.inl ⟨(c :: t).getLast (by simp), List.getLast?_eq_some_getLast _, hk _ (.inr (List.getLast?_eq_some_getLast _))⟩)))
  exact ⟨h1.1, h2.1, h2.2⟩

theorem Whole.cut_eq {s sep a b : Str} (hs : Markup sep) (h : Whole X m s) (hc : Go.cut sep s = some (a, b)) :
    Whole X m a ∧ Whole X m b := by
  have := cut_eq_some hc
  subst this
  have := h.sep hs
  exact ⟨this.1, this.2.2⟩

theorem Whole.join {sep : Str} {l : List Str} (hs : Whole X m sep) (h : ∀ p ∈ l, Whole X m p) : Whole X m (join sep l) := by
  induction l with
  | nil => exact .nil
  | cons p l ih =>
    cases l with
    | nil => exact h p (by simp)
    | cons q r =>
      rw [Go.join]
      exact ((h p (by simp)).append hs).append (ih fun x hx => h x (by simp [hx]))

theorem Whole.of_join {sep : Str} (hs : Markup sep) {l : List Str} (h : Whole X m (Go.join sep l)) : ∀ p ∈ l, Whole X m p := by
  induction l with
  | nil => intro p hp; cases hp
  | cons p l ih =>
    cases l with
    | nil => intro x hx; rw [List.mem_singleton] at hx; exact hx ▸ h
    | cons q r =>
      rw [Go.join] at h
      have := h.sep hs
      intro x hx
      rcases List.mem_cons.mp hx with rfl | hx
      · exact this.1
      · exact ih this.2.2 x hx

theorem Whole.split {s sep : Str} (h : Whole X m s) (hs : Markup sep) : ∀ p ∈ split s sep, Whole X m p :=
  Whole.of_join hs (by rwa [join_split_self s hs.1])

theorem Whole.replaceAll {s old new : Str} (h : Whole X m s) (ho : Markup old) (hn : Whole X m new) :
    Whole X m (replaceAll s old new) := by
  rw [← join_split new s ho.1]
  exact Whole.join hn (h.split ho)

theorem Whole.trimSpace {s : Str} (h : Whole X m s) : Whole X m (trimSpace s) := by
  obtain ⟨-, -, l, r, ⟨l', hl', rfl⟩, ⟨r', hr', rfl⟩, e⟩ := trimSpace_spec s
  have hk : ∀ p ∈ spaceChars, ∀ c ∈ p, keyByte c = false := by decide
  have hl : ∀ c ∈ l'.flatten, keyByte c = false := fun c hc => by
    obtain ⟨p, hp, hc⟩ := List.mem_flatten.mp hc
    exact hk p (hl' p hp) c hc
  have hr : ∀ c ∈ r'.flatten, keyByte c = false := fun c hc => by
    obtain ⟨p, hp, hc⟩ := List.mem_flatten.mp hc
    exact hk p (hr' p hp) c hc
  rw [e, List.append_assoc] at h
  have h1 : Whole X m (Go.trimSpace s ++ r'.flatten) := by
    by_cases h0 : l'.flatten = []
    · rwa [h0, List.nil_append] at h
    · exact (h.cut rfl (.inr (.inr (.inl ⟨l'.flatten.getLast h0, List.getLast?_eq_some_getLast _, hl _ (List.getLast_mem _)⟩)))).2
  cases hf : r'.flatten with
  | nil => rwa [hf, List.append_nil] at h1
  | cons c t =>
    rw [hf] at h1
    exact (h1.cut_before (hr c (by rw [hf]; simp))).1

theorem Whole.trimPrefix {s p : Str} (h : Whole X m s) (hp : Markup p) : Whole X m (trimPrefix s p) := by
  unfold Go.trimPrefix
  split
  · rename_i hi
    obtain ⟨r, rfl⟩ := List.isPrefixOf_iff_prefix.mp hi
    rw [List.drop_left]
    have := (show Whole X m ([] ++ p ++ r) from h).sep hp
    exact this.2.2
  · exact h

theorem Whole.tail {c : Byte} {s : Str} (h : Whole X m (c :: s)) (hc : keyByte c = false) : Whole X m s :=
  ((show Whole X m ([] ++ c :: s) from h).cut_after hc).2

theorem Whole.getLastD {l : List Str} (h : ∀ p ∈ l, Whole X m p) : Whole X m (l.getLastD []) := by
  cases hl : l.getLast? with
  | none => rw [List.getLastD_eq_getLast?, hl]; exact .nil
  | some p => rw [List.getLastD_eq_getLast?, hl]; exact h p (List.mem_of_getLast? hl)

theorem Whole.headD {l : List Str} (h : ∀ p ∈ l, Whole X m p) : Whole X m (l.headD []) := by
  cases l with
  | nil => exact .nil
  | cons p l => exact h p (by simp)

theorem Whole.splitHead {s sep : Str} (h : Whole X m s) (hs : Markup sep) :
    Whole X m (splitHead s sep).1 ∧ ∀ p ∈ (splitHead s sep).2, Whole X m p := by
  have := h.split hs
  unfold Model.splitHead
  cases hl : Go.split s sep with
  | nil => exact ⟨.nil, fun p hp => absurd hp (by simp)⟩
  | cons p ps =>
    rw [hl] at this
    exact ⟨this p (by simp), fun q hq => this q (by simp [hq])⟩

theorem Whole.flatten {l : List Str} (h : ∀ p ∈ l, Whole X m p) : Whole X m l.flatten := by
  induction l with
  | nil => exact .nil
  | cons p l ih => exact (h p (by simp)).append (ih fun q hq => h q (by simp [hq]))

/-! ### The generator -/

/-- All texts of all tokens are whole with respect to the tokens that were set before. -/
def Built (X : Alphabet) : List (Str × Token) → Prop
  | [] => True
  | (_, token) :: m => (∀ t ∈ tokenTexts token, Whole X m t) ∧ Built X m

theorem Built.suffix {m m' : List (Str × Token)} (h : Built X m') (hs : m <:+ m') : Built X m := by
  induction m' with
  | nil => rw [List.suffix_nil.mp hs]; trivial
  | cons e m' ih =>
    rcases List.suffix_cons_iff.mp hs with rfl | hs
    · exact h
    · exact ih h.2 hs

/-- A text of plain characters and words. -/
inductive Wordy (X : Alphabet) : Str → Prop
  | nil : Wordy X []
  | byte {c : Byte} {t : Str} : X.Plain c → Wordy X t → Wordy X (c :: t)
  | word {w t : Str} : Word w → Wordy X t → Wordy X (w ++ t)

theorem dd_append {u v : Str} (hu : ¬ b!"$" <:+ u) (h : b!"$$" <:+: u ++ v) : b!"$$" <:+: u ∨ b!"$$" <:+: v := by
  induction u with
  | nil => exact .inr h
  | cons c u ih =>
    rw [List.cons_append, List.infix_cons_iff] at h
    rcases h with h | h
    · left
      cases u with
      | nil =>
        exfalso
        obtain ⟨r, hr⟩ := h
        injection hr with e _
        exact hu ⟨[], by rw [List.nil_append, ← e]⟩
      | cons d u =>
        obtain ⟨r, hr⟩ := h
        injection hr with e1 hr
        injection hr with e2 _
        rw [← e1, ← e2]
        exact (show b!"$$" <+: 0x24 :: 0x24 :: u from ⟨u, rfl⟩).isInfix
    · have hu' : ¬ b!"$" <:+ u := fun hx => hu (hx.trans (List.suffix_cons _ _))
      rcases ih hu' h with h | h
      · exact .inl (h.trans (List.suffix_cons _ _).isInfix)
      · exact .inr h

theorem Wordy.dollars {t : Str} (h : Wordy X t) : ¬ b!"$$" <:+: t ∧ ¬ b!"$" <:+ t := by
  induction h with
  | nil => decide
  | @byte c t hc _ ih =>
    have hs : ¬ b!"$" <:+ [c] := by
      intro hx
      have := hx.mem (a := 0x24) (by simp)
      rw [List.mem_singleton] at this
      exact hc.1 this.symm
    constructor
    · intro hx
      rcases dd_append (u := [c]) hs hx with hx | hx
      · have := hx.length_le
        simp at this
      · exact ih.1 hx
    · intro hx
      rcases List.suffix_cons_iff.mp hx with hx | hx
      · injection hx with e _
        exact hc.1 e.symm
      · exact ih.2 hx
  | @word w t hw _ ih =>
    constructor
    · intro hx
      rcases dd_append hw.last hx with hx | hx
      · exact hw.dollars hx
      · exact ih.1 hx
    · intro hx
      cases t with
      | nil => rw [List.append_nil] at hx; exact hw.last hx
      | cons d t =>
        refine ih.2 ?_
        obtain ⟨r, hr⟩ := hx
        have := congrArg List.getLast? hr
        rw [List.getLast?_append_of_ne_nil _ (by simp), List.getLast?_append_of_ne_nil _ (by simp)] at this
        exact ⟨(d :: t).dropLast, by
          have h2 : (d :: t).getLast? = some 0x24 := this.symm
          rw [List.getLast?_eq_some_getLast (List.cons_ne_nil d t), Option.some.injEq] at h2
          have := List.dropLast_append_getLast (List.cons_ne_nil d t)
          rwa [h2] at this⟩

theorem Wordy.missing {t : Str} (h : Wordy X t) (k : Marker) (hi : t <:+: b!"$" ++ k.name) : X.missing ∉ t := by
  induction h with
  | nil => simp
  | @byte c t hc _ ih =>
    have := ih ((List.suffix_cons c t).isInfix.trans hi)
    simp [this, hc.2.symm]
  | @word w t hw _ ih => exact absurd ((List.prefix_append w t).isInfix.trans hi) (hw.name k)

theorem Wordy.unambiguous {t : Str} (h : Wordy X t) : Unambiguous t := by
  have hname : ∀ k : Marker, X.missing ∈ k.name := by
    have : ∀ k : Marker, ∀ c ∈ b!"MAKER_", c ∈ k.name := by intro k; cases k <;> decide
    exact fun k => this k _ X.letter
  refine ⟨h.dollars.1, h.dollars.2, fun k => ⟨?_, ?_⟩⟩
  · rintro rfl; exact h.missing k (List.suffix_cons _ _).isInfix (hname k)
  · rintro rfl; exact h.missing k List.infix_rfl (List.mem_cons_of_mem _ (hname k))

theorem Whole.pieces {s : Str} (h : Whole X m s) : ∃ ps last, s = piecesText ps last ∧
    (∀ p ∈ ps, p.WellFormed ∧ Wordy X p.text ∧ Known m p.element) ∧ ¬ b!"$$" <:+: last := by
  suffices ∃ ps last, s = piecesText ps last ∧ (∀ p ∈ ps, p.element.WellFormed ∧ Wordy X p.text ∧ Known m p.element) ∧ Wordy X last by
    obtain ⟨ps, last, e, h1, h2⟩ := this
    exact ⟨ps, last, e, fun p hp => ⟨⟨(h1 p hp).2.1.unambiguous, (h1 p hp).1⟩, (h1 p hp).2⟩, h2.dollars.1⟩
  have extend : ∀ (u t : Str), (∀ x, Wordy X x → Wordy X (u ++ x)) →
      (∃ ps last, t = piecesText ps last ∧ (∀ p ∈ ps, p.element.WellFormed ∧ Wordy X p.text ∧ Known m p.element) ∧ Wordy X last) →
      ∃ ps last, u ++ t = piecesText ps last ∧ (∀ p ∈ ps, p.element.WellFormed ∧ Wordy X p.text ∧ Known m p.element) ∧ Wordy X last := by
    rintro u t hu ⟨ps, last, rfl, h1, h2⟩
    cases ps with
    | nil => exact ⟨[], u ++ last, rfl, by simp, hu _ h2⟩
    | cons p ps =>
      refine ⟨⟨u ++ p.text, p.element⟩ :: ps, last, by simp [piecesText], ?_, h2⟩
      intro q hq
      rcases List.mem_cons.mp hq with rfl | hq
      · have := h1 p (by simp)
        exact ⟨this.1, hu _ this.2.1, this.2.2⟩
      · exact h1 q (by simp [hq])
  induction h with
  | nil => exact ⟨[], [], rfl, by simp, .nil⟩
  | @byte c t hc _ ih => exact extend [c] t (fun x hx => .byte hc hx) ih
  | @word w t hw _ ih => exact extend w t (fun x hx => .word hw hx) ih
  | @key e t hw hk _ ih =>
    obtain ⟨ps, last, rfl, h1, h2⟩ := ih
    refine ⟨⟨[], e⟩ :: ps, last, by simp [piecesText], ?_, h2⟩
    intro q hq
    rcases List.mem_cons.mp hq with rfl | hq
    · exact ⟨hw, .nil, hk⟩
    · exact h1 q hq

end Verif.Lemmas
