import Verif.Lemmas.RefAttrs

/-!
# Lemmas about the tags of references
-/

namespace Verif.Model
open Verif.Go Verif.Spec Verif.Lemmas
open scoped List

theorem foldPrefix_lowered {pat t : Str} (r : Str) (h : lowered t = pat) : foldPrefix pat (t ++ r) = some r := by
  induction t generalizing pat with
  | nil => subst h; rfl
  | cons b t ih =>
    subst h
    show foldPrefix (lowerByte b :: lowered t) (b :: (t ++ r)) = some r
    rw [foldPrefix.eq_def]
    simp only [if_true]
    exact ih rfl

theorem foldPrefix_nil {p : Byte} {pat : Str} : foldPrefix (p :: pat) [] = none := by rw [foldPrefix]

theorem foldPrefix_head {p c : Byte} {pat t : Str} (h : lowerByte c ≠ p) (hs : p ≠ 0x73) :
    foldPrefix (p :: pat) (c :: t) = none := by
  rw [foldPrefix.eq_def]
  simp only
  rw [if_neg h, if_neg (fun h => hs h.1)]

theorem lower_eq_lt {c : Byte} (h : lowerByte c = 0x3C) : c = 0x3C := by
  by_contra hc
  exact lt_not_mem_lowered (s := [c]) (by simpa using Ne.symm hc) (by simp [lowered, h])

/-- An expression that begins with `<` matches at the only such character only. -/
theorem matches_lt {f : Str → Bool} {pat : Str} {g : Str → Bool} (hf : f = fun s => ((foldPrefix (0x3C :: pat) s).map g).getD false)
    (c : Byte) {t : Str} (h : (0x3C : Byte) ∉ t) : matchesSomewhere f (c :: t) = f (c :: t) := by
  have key : ∀ t : Str, (0x3C : Byte) ∉ t → matchesSomewhere f t = false := by
    intro t
    induction t with
    | nil => intro _; rw [matchesSomewhere, hf]; simp [foldPrefix_nil]
    | cons d t ih =>
      intro h
      rw [matchesSomewhere, ih (fun hm => h (List.mem_cons_of_mem _ hm)), hf]
      simp only
      rw [foldPrefix_head (fun he => h (lower_eq_lt he ▸ List.mem_cons_self)) (by decide)]
      rfl
  rw [matchesSomewhere, key t h, Bool.or_false]

/-- A text of the given characters in upper or lower case. -/
theorem lowered_four {t : Str} {a b c d : Byte} (h : lowered t = [a, b, c, d]) :
    ∃ a' b' c' d', t = [a', b', c', d'] ∧ lowerByte a' = a ∧ lowerByte b' = b ∧ lowerByte c' = c ∧ lowerByte d' = d := by
  have hl : t.length = 4 := by rw [← lowered_length, h]; rfl
  match t, hl with
  | [a', b', c', d'], _ =>
    simp only [lowered, List.map_cons, List.map_nil, List.cons.injEq, and_true] at h
    exact ⟨a', b', c', d', rfl, h.1, h.2.1, h.2.2.1, h.2.2.2⟩

/-- `body` is what is between the keyword and the end of the tag. -/
structure TagBody (body : Str) : Prop where
  lt : (0x3C : Byte) ∉ body
  gt : (0x3E : Byte) ∉ body

theorem lt_not_mem_of_lowered {t : Str} {x : Byte} {xs : Str} (h : lowered t = x :: xs) (hx : (0x3C : Byte) ∉ xs) :
    ∃ c t', t = c :: t' ∧ lowered t' = xs ∧ lowerByte c = x ∧ (0x3C : Byte) ∉ t' := by
  cases t with
  | nil => cases h
  | cons c t' =>
    simp only [lowered, List.map_cons, List.cons.injEq] at h
    refine ⟨c, t', rfl, h.2, h.1, fun hm => hx ?_⟩
    rw [← h.2]
    exact List.mem_map.mpr ⟨_, hm, by decide⟩

section
variable {tag body : Str}

theorem ref_not_placeholder (ht : lowered tag = b!"<ref") (hb : TagBody body)
    (hh : ∀ c ∈ body.head?, c = 0x20 ∨ c = 0x2F) :
    isPlaceholderEnd (tag ++ body ++ b!">") = false ∧ isPlaceholderShort (tag ++ body ++ b!">") = false ∧
      isPlaceholderStart (tag ++ body ++ b!">") = false := by
  obtain ⟨c, t', rfl, h1, h2, h3⟩ := lt_not_mem_of_lowered ht (by decide)
  have hno : (0x3C : Byte) ∉ t' ++ body ++ b!">" := by
    simp only [List.mem_append, not_or]
    exact ⟨⟨h3, hb.lt⟩, by decide⟩
  have e : c :: t' ++ body ++ b!">" = c :: (t' ++ body ++ b!">") := rfl
  have hnext : ∃ d r, body ++ b!">" = d :: r ∧ lowerByte d ≠ 0x65 := by
    cases body with
    | nil => exact ⟨_, _, rfl, by decide⟩
    | cons d body =>
      refine ⟨d, _, rfl, ?_⟩
      rcases hh d (by simp) with rfl | rfl <;> decide
  obtain ⟨d, r, hd, hde⟩ := hnext
  have hlong : foldPrefix b!"<references" (c :: (t' ++ body ++ b!">")) = none := by
    rw [List.append_assoc, hd]
    obtain ⟨a1, a2, a3, a4, e1, l1, l2, l3, l4⟩ := lowered_four ht
    simp only [List.cons.injEq] at e1
    obtain ⟨rfl, rfl⟩ := e1
    simp only [List.cons_append, List.nil_append]
    rw [foldPrefix, if_pos l1, foldPrefix, if_pos l2, foldPrefix, if_pos l3, foldPrefix, if_pos l4]
    exact foldPrefix_head hde (by decide)
  refine ⟨?_, ?_, ?_⟩
  · rw [e, isPlaceholderEnd, matches_lt (pat := b!"/references") rfl c hno]
    obtain ⟨a1, a2, a3, a4, e1, l1, l2, l3, l4⟩ := lowered_four ht
    simp only [List.cons.injEq] at e1
    obtain ⟨rfl, rfl⟩ := e1
    simp only [List.cons_append, List.nil_append]
    rw [foldPrefix, if_pos l1, foldPrefix_head (by rw [l2]; decide) (by decide)]
    rfl
  · rw [e, isPlaceholderShort, matches_lt (pat := b!"references") rfl c hno]
    rw [hlong]
    rfl
  · rw [e, isPlaceholderStart, matches_lt (pat := b!"references") rfl c hno]
    rw [hlong]
    rfl

theorem slashClose_true {x : Str} (h : (0x0A : Byte) ∉ x) : slashClose (x ++ b!"/>") = true := by
  induction x with
  | nil => decide
  | cons c x ih =>
    rw [List.cons_append, slashClose, ih (fun hm => h (List.mem_cons_of_mem _ hm))]
    have : c ≠ 0x0A := fun e => h (e ▸ List.mem_cons_self)
    simp [this]

theorem startClose_true {x : Str} (h : (0x0A : Byte) ∉ x) : startClose (x ++ b!">") = true := by
  induction x with
  | nil => decide
  | cons c x ih =>
    rw [List.cons_append, startClose, ih (fun hm => h (List.mem_cons_of_mem _ hm))]
    have : c ≠ 0x0A := fun e => h (e ▸ List.mem_cons_self)
    simp [this]

/-- `/` and white space at the end of the text. -/
theorem slash_of_slashClose {x : Str} (h : (0x3E : Byte) ∉ x) (hs : slashClose (x ++ b!">") = true) :
    ∃ u sp, x = u ++ 0x2F :: sp ∧ ∀ c ∈ sp, regexSpace c = true := by
  induction x with
  | nil => exact absurd hs (by decide)
  | cons c x ih =>
    rw [List.cons_append, slashClose, Bool.or_eq_true, Bool.and_eq_true, Bool.and_eq_true] at hs
    rcases hs with ⟨h1, h2⟩ | ⟨_, h2⟩
    · simp only [decide_eq_true_eq] at h1
      refine ⟨[], x, by rw [h1]; rfl, ?_⟩
      have hx : (0x3E : Byte) ∉ x := fun hm => h (List.mem_cons_of_mem _ hm)
      clear ih h
      induction x with
      | nil => simp
      | cons d x ih =>
        intro e he
        have hd : regexSpace d = true := by
          by_contra hd
          rw [List.cons_append, List.dropWhile_cons_of_neg (by simpa using hd), hasPrefix_iff, List.cons_prefix_cons] at h2
          exact hx (h2.1 ▸ List.mem_cons_self)
        rcases List.mem_cons.mp he with rfl | he
        · exact hd
        · rw [List.cons_append, List.dropWhile_cons_of_pos hd] at h2
          exact ih h2 (fun hm => hx (List.mem_cons_of_mem _ hm)) e he
    · obtain ⟨u, sp, rfl, hsp⟩ := ih (fun hm => h (List.mem_cons_of_mem _ hm)) h2
      exact ⟨c :: u, sp, rfl, hsp⟩

theorem references_short (ht : lowered tag = b!"<references") (hb : TagBody body) (hn : (0x0A : Byte) ∉ body) :
    isPlaceholderShort (tag ++ body ++ b!"/>") = true := by
  obtain ⟨c, t', rfl, h1, h2, h3⟩ := lt_not_mem_of_lowered ht (by decide)
  have hno : (0x3C : Byte) ∉ t' ++ body ++ b!"/>" := by
    simp only [List.mem_append, not_or]
    exact ⟨⟨h3, hb.lt⟩, by decide⟩
  have e : c :: t' ++ body ++ b!"/>" = c :: (t' ++ body ++ b!"/>") := rfl
  rw [e, isPlaceholderShort, matches_lt (pat := b!"references") rfl c hno]
  rw [show c :: (t' ++ body ++ b!"/>") = (c :: t') ++ (body ++ b!"/>") by simp, foldPrefix_lowered _ ht]
  exact slashClose_true hn

theorem references_open (ht : lowered tag = b!"<references") (hb : TagBody body) (hn : (0x0A : Byte) ∉ body)
    (hs : ∀ u sp, body = u ++ 0x2F :: sp → ∃ c ∈ sp, regexSpace c = false) :
    isPlaceholderEnd (tag ++ body ++ b!">") = false ∧ isPlaceholderShort (tag ++ body ++ b!">") = false ∧
      isPlaceholderStart (tag ++ body ++ b!">") = true := by
  obtain ⟨c, t', rfl, h1, h2, h3⟩ := lt_not_mem_of_lowered ht (by decide)
  have hno : (0x3C : Byte) ∉ t' ++ body ++ b!">" := by
    simp only [List.mem_append, not_or]
    exact ⟨⟨h3, hb.lt⟩, by decide⟩
  have e : c :: t' ++ body ++ b!">" = c :: (t' ++ body ++ b!">") := rfl
  have e' : c :: (t' ++ body ++ b!">") = (c :: t') ++ (body ++ b!">") := by simp
  refine ⟨?_, ?_, ?_⟩
  · rw [e, isPlaceholderEnd, matches_lt (pat := b!"/references") rfl c hno]
    obtain ⟨d, t, rfl, _, l2, _⟩ := lt_not_mem_of_lowered (x := 0x72) h1 (by decide)
    simp only [List.cons_append]
    rw [foldPrefix, if_pos h2, foldPrefix_head (by rw [l2]; decide) (by decide)]
    rfl
  · rw [e, isPlaceholderShort, matches_lt (pat := b!"references") rfl c hno]
    rw [e', foldPrefix_lowered _ ht]
    show slashClose _ = false
    by_contra hc
    obtain ⟨u, sp, hu, hsp⟩ := slash_of_slashClose hb.gt (by simpa using hc)
    obtain ⟨d, hd, hd'⟩ := hs u sp hu
    rw [hsp d hd] at hd'
    cases hd'
  · rw [e, isPlaceholderStart, matches_lt (pat := b!"references") rfl c hno]
    rw [e', foldPrefix_lowered _ ht]
    exact startClose_true hn

theorem references_end (ht : lowered tag = b!"</references") : isPlaceholderEnd (tag ++ b!">") = true := by
  obtain ⟨c, t', rfl, h1, h2, h3⟩ := lt_not_mem_of_lowered ht (by decide)
  have hno : (0x3C : Byte) ∉ t' ++ b!">" := by
    simp only [List.mem_append, not_or]
    exact ⟨h3, by decide⟩
  rw [show c :: t' ++ b!">" = c :: (t' ++ b!">") from rfl, isPlaceholderEnd, matches_lt (pat := b!"/references") rfl c hno]
  rw [show c :: (t' ++ b!">") = (c :: t') ++ b!">" from rfl, foldPrefix_lowered _ ht]
  decide

end

/-- The end of a tag. -/
theorem closeLoop_gt {body r : Str} (i : Nat) (hb : TagBody body) :
    closeLoop true b!"<ref" b!">" (body ++ 0x3E :: r) 0 i 0 = some (i + body.length) := by
  have hlow : ∀ {p : Str} {d : Byte} {t : Str}, d ≠ 0x3C → ¬ 0x3C :: p <+: lowered (d :: t) := by
    intro p d t hd h
    simp only [lowered, List.map_cons] at h
    exact hd (lower_eq_lt (List.cons_prefix_cons.mp h).1.symm)
  obtain ⟨h1, h2⟩ := hb
  induction body generalizing i with
  | nil =>
    rw [List.nil_append, closeLoop, if_neg, if_pos]
    · simp
    · exact (cursor_same_iff (tag := b!">") (by simp) (by decide)).mpr
        (by simp only [lowered, List.map_cons]; rw [show lowerByte 0x3E = 0x3E by decide]; simp [List.cons_prefix_cons])
    · rintro ⟨_, h⟩
      exact hlow (by decide) ((cursor_same_iff (tag := b!"<ref") (by simp) (by decide)).mp h)
  | cons d body ih =>
    rw [List.cons_append, closeLoop, if_neg, if_neg]
    · rw [ih _ (fun hm => h1 (List.mem_cons_of_mem _ hm)) (fun hm => h2 (List.mem_cons_of_mem _ hm))]
      simp only [List.length_cons]
      congr 1; omega
    · rw [cursor_same_iff (tag := b!">") (by simp) (by decide)]
      intro h
      simp only [lowered, List.map_cons] at h
      have hd := (List.cons_prefix_cons.mp h).1
      have : d = 0x3E := by
        unfold lowerByte at hd
        split at hd
        · rename_i h1
          simp only [Bool.and_eq_true, decide_eq_true_eq] at h1
          have : d = 0x3E - 32 := by rw [hd]; simp
          subst this
          exact absurd h1 (by decide)
        · exact hd.symm
      exact h2 (this ▸ List.mem_cons_self)
    · rintro ⟨_, h⟩
      exact hlow (fun e => h1 (e ▸ List.mem_cons_self)) ((cursor_same_iff (tag := b!"<ref") (by simp) (by decide)).mp h)

end Verif.Model
