import Verif.Lemmas.Tokens
import Verif.Lemmas.CloseToken
import Verif.Spec.Nowiki

/-!
# Lemmas about nowiki
-/

namespace Verif.Model
open Verif.Go Verif.Spec Verif.Lemmas
open scoped List

theorem lowered_append (a b : Str) : lowered (a ++ b) = lowered a ++ lowered b := List.map_append

theorem lowered_length (a : Str) : (lowered a).length = a.length := List.length_map _

theorem lowered_take (a : Str) (n : Nat) : lowered (a.take n) = (lowered a).take n := List.map_take

/-- Comparison of the next characters with a tag in lower case. -/
theorem take_same_iff {s tag : Str} (ht : lowered tag = tag) :
    equalsIgnoreCase (s.take tag.length) tag = true ↔ tag <+: lowered s := by
  unfold equalsIgnoreCase
  rw [beq_iff_eq]
  show lowered (s.take tag.length) = lowered tag ↔ _
  rw [ht, lowered_take, List.prefix_iff_eq_take, eq_comm]

theorem cursor_same_iff {s tag : Str} (h0 : tag ≠ []) (ht : lowered tag = tag) :
    sameToken true (cursorText s tag.length) tag = true ↔ tag <+: lowered s := by
  unfold cursorText sameToken
  rw [if_pos rfl]
  split
  · exact take_same_iff ht
  · rename_i hlen
    constructor
    · intro h
      unfold equalsIgnoreCase at h
      have h' := congrArg List.length (beq_iff_eq.mp h)
      simp only [List.map_nil, List.length_nil, List.length_map] at h'
      exact absurd (List.length_eq_zero_iff.mp h'.symm) h0
    · intro h
      have := h.length_le
      rw [lowered_length] at this
      omega

/-- A tag has its first character only once, so that it cannot begin inside of a text and end behind the next such
character. -/
theorem tag_prefix {c : Byte} {t a b : Str} (h : c ∉ t) (ha : a ≠ []) (hp : c :: t <+: a ++ c :: b) : c :: t <+: a := by
  obtain ⟨d, a, rfl⟩ := List.exists_cons_of_ne_nil ha
  rw [List.cons_append, List.cons_prefix_cons] at hp
  exact List.cons_prefix_cons.mpr ⟨hp.1, prefix_of_prefix_sep h hp.2⟩

theorem lowered_lt : lowerByte 0x3C = 0x3C := by decide

/-- The search finds the first closing tag behind a text without tags. -/
theorem closeLoop_first {o c : Str} {inner r : Str} (i : Nat)
    (hoc : o ≠ c) (ho : lowered (0x3C :: o) = 0x3C :: o) (hc : lowered (0x3C :: c) = 0x3C :: c)
    (h1 : (0x3C : Byte) ∉ o) (h2 : (0x3C : Byte) ∉ c) (hno : ¬ 0x3C :: o <:+: lowered inner)
    (hnc : ¬ 0x3C :: c <:+: lowered inner) (hr : 0x3C :: c <+: lowered r) (hr' : ¬ 0x3C :: o <+: lowered r) :
    closeLoop true (0x3C :: o) (0x3C :: c) (inner ++ r) 0 i 0 = some (i + inner.length) := by
  have hne : sameToken true (0x3C :: o) (0x3C :: c) = false := by
    unfold sameToken equalsIgnoreCase
    rw [if_pos rfl, beq_eq_false_iff_ne]
    show lowered _ ≠ lowered _
    rw [ho, hc]
    simpa using hoc
  induction inner generalizing i with
  | nil =>
    obtain ⟨x, r', hx⟩ : ∃ x r', r = x :: r' := by
      cases r with
      | nil => exact absurd hr.length_le (by simp [lowered])
      | cons x r' => exact ⟨x, r', rfl⟩
    subst hx
    rw [List.nil_append, closeLoop, if_neg, if_pos]
    · simp
    · exact (cursor_same_iff (by simp) hc).mpr hr
    · rintro ⟨_, h⟩
      exact hr' ((cursor_same_iff (by simp) ho).mp h)
  | cons x inner ih =>
    have key : ∀ t : Str, (0x3C : Byte) ∉ t → ¬ 0x3C :: t <:+: lowered (x :: inner) →
        ¬ 0x3C :: t <+: lowered (x :: (inner ++ r)) := by
      intro t ht hn hp
      obtain ⟨r', hr⟩ := hr
      rw [← List.cons_append, lowered_append, ← hr, List.cons_append] at hp
      exact hn (tag_prefix ht (by simp [lowered]) hp).isInfix
    rw [List.cons_append, closeLoop, if_neg, if_neg]
    · rw [ih (i + 1) (fun h => hno (h.trans (List.suffix_cons _ _).isInfix))
        (fun h => hnc (h.trans (List.suffix_cons _ _).isInfix))]
      simp; omega
    · rw [cursor_same_iff (by simp) hc]
      exact key c h2 hnc
    · rintro ⟨_, h⟩
      exact key o h1 hno ((cursor_same_iff (by simp) ho).mp h)

/-- Without a closing tag nothing is found. -/
theorem closeLoop_none {o c : Str} {inner : Str} (i k : Nat) (h0 : c ≠ [])
    (hc : lowered c = c) (hnc : ¬ c <:+: lowered inner) :
    closeLoop true o c inner 0 i k = none := by
  induction hn : inner.length using Nat.strongRecOn generalizing inner i k with
  | _ n ih =>
    cases inner with
    | nil => rfl
    | cons x inner =>
      have hlater : ∀ m, ¬ c <:+: lowered (inner.drop m) := fun m h =>
        hnc (h.trans (by
          have : lowered (inner.drop m) = (lowered inner).drop m := List.map_drop
          rw [this]
          exact ((List.drop_suffix _ _).trans (List.suffix_cons _ _)).isInfix))
      rw [closeLoop]
      split
      · rw [closeLoop_skip]
        exact ih _ (by subst hn; simp; omega) _ _ (hlater _) rfl
      · rw [if_neg]
        · exact ih _ (by subst hn; simp) _ _ (by simpa using hlater 0) rfl
        · rw [cursor_same_iff h0 hc]
          exact fun h => hnc h.isInfix

/-! ### The loop -/

theorem nowiki_char (fuel : Nat) (content : Str) (i : Nat) (s : TokState) (hlen : i + 9 < content.length)
    (h : ¬ b!"<nowiki>" <+: lowered (content.drop i)) :
    nowikiLoop (fuel + 1) content i s = nowikiLoop fuel content (i + 1) s := by
  rw [nowikiLoop, if_pos hlen, if_neg]
  have := take_same_iff (s := content.drop i) (tag := b!"<nowiki>") (by decide)
  rw [show (8 : Nat) = (b!"<nowiki>" : Str).length from rfl, this]
  exact h

/-- Characters in front of which there is no tag are skipped. -/
theorem nowiki_skip (fuel : Nat) (a t r : Str) (s : TokState) (hr : 9 ≤ r.length)
    (h : ∀ t', t' <:+ t → t' ≠ [] → ¬ b!"<nowiki>" <+: lowered (t' ++ r)) :
    nowikiLoop (fuel + t.length) (a ++ t ++ r) a.length s = nowikiLoop fuel (a ++ t ++ r) (a ++ t).length s := by
  induction t generalizing a with
  | nil => simp
  | cons c t ih =>
    rw [List.length_cons, ← Nat.add_assoc, nowiki_char]
    · have e : a ++ c :: t = (a ++ [c]) ++ t := by simp
      rw [e, show a.length + 1 = (a ++ [c]).length by simp]
      exact ih _ fun t' h1 h2 => h t' (h1.trans (List.suffix_cons _ _)) h2
    · simp; omega
    · rw [List.append_assoc, List.drop_left]
      exact h _ (List.suffix_refl _) (by simp)

theorem nowiki_last (n : Nat) : ∀ (fuel : Nat) (a t : Str) (s : TokState), t.length ≤ n → n < fuel →
    ¬ b!"<nowiki>" <:+: lowered t → nowikiLoop fuel (a ++ t) a.length s = some (.ok (a ++ t, s)) := by
  induction n with
  | zero =>
    intro fuel a t s h1 h2 _
    obtain ⟨f, rfl⟩ := Nat.exists_eq_add_of_le' h2
    have : t = [] := List.length_eq_zero_iff.mp (by omega)
    subst this
    rw [nowikiLoop, if_neg (by simp)]
    rfl
  | succ n ih =>
    intro fuel a t s h1 h2 h3
    obtain ⟨f, rfl⟩ := Nat.exists_eq_add_of_le' (Nat.lt_of_le_of_lt (Nat.zero_le _) h2 : 1 ≤ fuel)
    by_cases hl : a.length + 9 < (a ++ t).length
    · rw [nowiki_char _ _ _ _ hl]
      · cases t with
        | nil => simp at hl; omega
        | cons c t =>
          rw [show a ++ c :: t = (a ++ [c]) ++ t by simp, show a.length + 1 = (a ++ [c]).length by simp]
          exact ih f _ _ s (by simpa using h1) (by omega) fun h => h3 (h.trans (List.suffix_cons _ _).isInfix)
      · rw [List.drop_left]
        exact fun h => h3 h.isInfix
    · rw [nowikiLoop, if_neg hl]
      rfl

theorem suffix_lowered {t' t : Str} (h : t' <:+ t) : lowered t' <:+ lowered t := by
  obtain ⟨a, rfl⟩ := h
  rw [lowered_append]
  exact ⟨_, rfl⟩

/-- There is no `<` in a key with such a kind. -/
theorem lt_not_mem_tokenKey {t : Str} (ht : (0x3C : Byte) ∉ t) (n : Nat) : (0x3C : Byte) ∉ tokenKey t n := by
  unfold tokenKey
  simp only [List.mem_append, not_or]
  refine ⟨⟨⟨⟨by decide, ht⟩, by decide⟩, ?_⟩, by decide⟩
  intro h
  exact absurd (decimal_digits n _ h).2 (by decide)

theorem lt_not_mem_lowered {s : Str} (h : (0x3C : Byte) ∉ s) : (0x3C : Byte) ∉ lowered s := by
  intro hm
  obtain ⟨c, hc, he⟩ := List.mem_map.mp hm
  have : c = 0x3C := by
    unfold lowerByte at he
    split at he
    · rename_i h1
      simp only [Bool.and_eq_true, decide_eq_true_eq] at h1
      have : c = 0x3C - 32 := by rw [← he]; simp
      subst this
      exact absurd h1 (by decide)
    · exact he
  exact h (this ▸ hc)

/-- One element: text, tags and content. -/
theorem nowiki_part (p : NowikiPart) (hp : p.WellFormed) (a r : Str) (s : TokState) (fuel : Nat) :
    nowikiLoop (fuel + (p.text.length + 1)) (a ++ (p.text ++ p.opening ++ p.inner ++ p.closing ++ r)) a.length s =
      nowikiLoop fuel (a ++ (p.text ++ tokenKey b!"HEADINNOWIKI" s.counter ++ r)) ((a ++ p.text).length + 1)
        ⟨(tokenKey b!"HEADINNOWIKI" s.counter, .nowiki p.inner) :: s.tokenMap, s.counter + 1, s.images⟩ := by
  obtain ⟨text, opening, inner, closing⟩ := p
  obtain ⟨ho, hc, ht, hi, hi'⟩ := hp
  simp only at ho hc ht hi hi' ⊢
  have hol : opening.length = 8 := by rw [← lowered_length, ho]; rfl
  have hcl : closing.length = 9 := by rw [← lowered_length, hc]; rfl
  have e : a ++ (text ++ opening ++ inner ++ closing ++ r) = a ++ text ++ (opening ++ (inner ++ (closing ++ r))) := by
    simp [List.append_assoc]
  rw [e, show fuel + (text.length + 1) = (fuel + 1) + text.length by omega, nowiki_skip]
  · rw [nowikiLoop, if_pos (by simp; omega), List.drop_left, if_pos]
    · have hf : findCloseIgnoreCase (a ++ text ++ (opening ++ (inner ++ (closing ++ r)))) ((a ++ text).length + 8)
          b!"<nowiki>" b!"</nowiki>" = some ((a ++ text).length + 8 + inner.length) := by
        unfold findCloseIgnoreCase findCloseWith
        rw [show (a ++ text).length + 8 = ((a ++ text) ++ opening).length by simp [hol, Nat.add_assoc], ← List.append_assoc (a ++ text), List.drop_left]
        refine closeLoop_first _ (by decide) (by decide) (by decide) (by decide) (by decide) hi hi' ?_ ?_
        · rw [lowered_append, hc]; exact List.prefix_append _ _
        · rw [lowered_append, hc]; simp [List.cons_prefix_cons]
      rw [hf]
      have e2 : (a ++ text ++ (opening ++ (inner ++ (closing ++ r)))).drop ((a ++ text).length + 8 + inner.length + 9) = r := by
        have : a ++ text ++ (opening ++ (inner ++ (closing ++ r))) = (a ++ text ++ opening ++ inner ++ closing) ++ r := by
          simp [List.append_assoc]
        rw [this, List.drop_left']
        simp [hol, hcl]
        omega
      have e3 : ((a ++ text ++ (opening ++ (inner ++ (closing ++ r)))).take ((a ++ text).length + 8 + inner.length)).drop
          ((a ++ text).length + 8) = inner := by
        have : a ++ text ++ (opening ++ (inner ++ (closing ++ r))) = (a ++ text ++ opening ++ inner) ++ (closing ++ r) := by
          simp [List.append_assoc]
        rw [this, List.take_left' (by simp [hol]; omega), List.drop_left' (by simp [hol]; omega)]
      have e4 : (a ++ text ++ (opening ++ (inner ++ (closing ++ r)))).take (a ++ text).length = a ++ text := List.take_left
      simp only [e2, e3, e4]
      show nowikiLoop fuel (a ++ text ++ tokenKey b!"HEADINNOWIKI" s.counter ++ r) ((a ++ text).length + 1) _ = _
      simp [List.append_assoc]
    · have := take_same_iff (s := opening ++ (inner ++ (closing ++ r))) (tag := b!"<nowiki>") (by decide)
      rw [show (8 : Nat) = (b!"<nowiki>" : Str).length from rfl, this, lowered_append, ho]
      exact List.prefix_append _ _
  · simp; omega
  · intro t' h1 h2 h3
    rw [lowered_append, lowered_append, ho] at h3
    have := tag_prefix (c := 0x3C) (by decide) (by simpa [lowered] using h2) h3
    exact ht (this.isInfix.trans (suffix_lowered h1).isInfix)

/-- Behind a key the loop goes on with the next text. -/
theorem nowiki_key (a r : Str) (n : Nat) (s : TokState) (fuel : Nat) (hr : 9 ≤ r.length) :
    nowikiLoop (fuel + ((tokenKey b!"HEADINNOWIKI" n).length - 1)) (a ++ tokenKey b!"HEADINNOWIKI" n ++ r) (a.length + 1) s =
      nowikiLoop fuel (a ++ tokenKey b!"HEADINNOWIKI" n ++ r) (a ++ tokenKey b!"HEADINNOWIKI" n).length s := by
  have hk := lt_not_mem_tokenKey (t := b!"HEADINNOWIKI") (by decide) n
  obtain ⟨c, key, he⟩ : ∃ c key, tokenKey b!"HEADINNOWIKI" n = c :: key := ⟨_, _, rfl⟩
  rw [he] at hk ⊢
  have := nowiki_skip fuel (a ++ [c]) key r s hr (by
    intro t' h1 h2 h3
    obtain ⟨d, t', rfl⟩ := List.exists_cons_of_ne_nil h2
    rw [List.cons_append] at h3
    have h4 : (0x3C : Byte) = lowerByte d := (List.cons_prefix_cons.mp h3).1
    have h5 : (0x3C : Byte) ∈ lowered key := (suffix_lowered h1).subset (by rw [h4]; exact List.mem_cons_self)
    exact lt_not_mem_lowered (fun hm => hk (List.mem_cons_of_mem _ hm)) h5)
  simpa [List.append_assoc] using this

/-- What the text becomes, with the number of the first key. -/
def nowikiOut (n : Nat) : List NowikiPart → Str → Str
  | [], last => last
  | p :: ps, last => p.text ++ tokenKey b!"HEADINNOWIKI" n ++ nowikiOut (n + 1) ps last

/-- The tokens, the last one first. -/
def nowikiTokens (n : Nat) : List NowikiPart → List (Str × Token)
  | [] => []
  | p :: ps => nowikiTokens (n + 1) ps ++ [(tokenKey b!"HEADINNOWIKI" n, .nowiki p.inner)]

theorem nowikiText_cons (p : NowikiPart) (ps : List NowikiPart) (last : Str) :
    nowikiText (p :: ps) last = p.text ++ p.opening ++ p.inner ++ p.closing ++ nowikiText ps last := by
  simp [nowikiText, List.append_assoc]

theorem nowiki_infix_of_free {x y : Str} (h : (0x3C : Byte) ∉ x) (hi : b!"<nowiki>" <:+: lowered (x ++ y)) :
    b!"<nowiki>" <:+: lowered y := by
  have h' := lt_not_mem_lowered h
  rw [lowered_append] at hi
  generalize lowered x = x' at h' hi
  induction x' with
  | nil => exact hi
  | cons c x ih =>
    rw [List.cons_append, List.infix_cons_iff] at hi
    rcases hi with hi | hi
    · exact absurd ((List.cons_prefix_cons.mp hi).1 ▸ List.mem_cons_self) h'
    · exact ih (fun hm => h' (List.mem_cons_of_mem _ hm)) hi

/-- The whole loop. -/
theorem nowiki_parts (parts : List NowikiPart) (last : Str) (hp : ∀ p ∈ parts, p.WellFormed)
    (hl : ¬ b!"<nowiki>" <:+: lowered last) : ∀ (a : Str) (s : TokState), ∃ N, ∀ fuel, N ≤ fuel →
    nowikiLoop fuel (a ++ nowikiText parts last) a.length s = some (.ok (a ++ nowikiOut s.counter parts last,
      ⟨nowikiTokens s.counter parts ++ s.tokenMap, s.counter + parts.length, s.images⟩)) := by
  induction parts with
  | nil =>
    intro a s
    refine ⟨last.length + 1, fun fuel hf => ?_⟩
    exact nowiki_last last.length fuel a last s (Nat.le_refl _) hf hl
  | cons p ps ih =>
    intro a s
    have hk := lt_not_mem_tokenKey (t := b!"HEADINNOWIKI") (by decide) s.counter
    cases ps with
    | nil =>
      refine ⟨(tokenKey b!"HEADINNOWIKI" s.counter ++ last).length + (p.text.length + 1), fun fuel hf => ?_⟩
      obtain ⟨f, rfl⟩ := Nat.exists_eq_add_of_le' (Nat.le_trans (Nat.le_add_left _ _) hf : p.text.length + 1 ≤ fuel)
      rw [nowikiText_cons, nowiki_part p (hp p List.mem_cons_self)]
      obtain ⟨c, key, he⟩ : ∃ c key, tokenKey b!"HEADINNOWIKI" s.counter = c :: key := ⟨_, _, rfl⟩
      have h := nowiki_last (key ++ last).length f (a ++ p.text ++ [c]) (key ++ last)
        ⟨(tokenKey b!"HEADINNOWIKI" s.counter, .nowiki p.inner) :: s.tokenMap, s.counter + 1, s.images⟩
        (Nat.le_refl _) (by rw [he] at hf; simp at hf ⊢; omega)
        (fun h => hl (nowiki_infix_of_free (fun hm => hk (by rw [he]; exact List.mem_cons_of_mem _ hm)) h))
      simp only [nowikiOut, nowikiTokens, nowikiText, List.flatMap_nil, List.nil_append, List.length_singleton]
      rw [he] at h ⊢
      simp only [List.append_assoc, List.cons_append, List.nil_append] at h ⊢
      rw [← h]
      simp only [List.length_append, List.length_cons, List.length_nil]
      rfl
    | cons q qs =>
      obtain ⟨N, hN⟩ := ih (fun p h => hp p (List.mem_cons_of_mem _ h)) (a ++ p.text ++ tokenKey b!"HEADINNOWIKI" s.counter)
        ⟨(tokenKey b!"HEADINNOWIKI" s.counter, .nowiki p.inner) :: s.tokenMap, s.counter + 1, s.images⟩
      refine ⟨N + ((tokenKey b!"HEADINNOWIKI" s.counter).length - 1) + (p.text.length + 1), fun fuel hf => ?_⟩
      obtain ⟨f, rfl⟩ := Nat.exists_eq_add_of_le' (Nat.le_trans (Nat.le_add_left _ _) hf : p.text.length + 1 ≤ fuel)
      rw [nowikiText_cons, nowiki_part p (hp p List.mem_cons_self)]
      obtain ⟨f', rfl⟩ := Nat.exists_eq_add_of_le' (by omega : (tokenKey b!"HEADINNOWIKI" s.counter).length - 1 ≤ f)
      have hq := hp q (List.mem_cons_of_mem _ List.mem_cons_self)
      have hql : q.closing.length = 9 := by rw [← lowered_length, hq.closing]; rfl
      have h1 := nowiki_key (a ++ p.text) (nowikiText (q :: qs) last) s.counter
        ⟨(tokenKey b!"HEADINNOWIKI" s.counter, .nowiki p.inner) :: s.tokenMap, s.counter + 1, s.images⟩ f'
        (by rw [nowikiText_cons]; simp; omega)
      have h2 := hN f' (by omega)
      rw [← h1] at h2
      simp only [List.append_assoc] at h2 ⊢
      rw [h2]
      simp [nowikiOut, nowikiTokens, List.append_assoc]
      omega

end Verif.Model
