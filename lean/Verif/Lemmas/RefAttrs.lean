import Verif.Spec.References
import Verif.Lemmas.Nowiki
import Verif.Lemmas.WikiLinks

/-!
# Lemmas about the attributes of reference tags
-/

namespace Verif.Model
open Verif.Go Verif.Spec Verif.Lemmas
open scoped List

/-- An occurrence behind a value and a quotation mark. -/
theorem occurs_behind {v r pat q : Str} {s c : Byte} (hs : s ≠ c) (hc : c ∉ s :: pat) (hv : ¬ s :: pat <:+: v)
    (h : s :: pat ++ q <:+: v ++ c :: r) : s :: pat ++ q <:+: r := by
  induction v with
  | nil =>
    rw [List.nil_append, List.infix_cons_iff] at h
    rcases h with h | h
    · exact absurd (List.cons_prefix_cons.mp h).1 hs
    · exact h
  | cons d v ih =>
    rw [show d :: v ++ c :: r = d :: (v ++ c :: r) from rfl, List.infix_cons_iff] at h
    rcases h with h | h
    · refine absurd ?_ hv
      have h1 : s :: pat <+: (d :: v) ++ c :: r := (List.prefix_append _ _).trans h
      exact (prefix_of_prefix_sep hc h1).isInfix
    · exact ih (fun h' => hv (h'.trans (List.suffix_cons _ _).isInfix)) h

/-- The key of an attribute has no special character. -/
structure PlainKey (n : Str) : Prop where
  free : ∀ c ∈ n, c ≠ 0x20 ∧ c ≠ 0x22 ∧ c ≠ 0x3D

/-- `" " ++ n ++ "="` -/
def keyPat (n : Str) : Str := 0x20 :: (n ++ [0x3D])

theorem key_eq_of_prefix {n key r q : Str} (hn : (0x3D : Byte) ∉ n) (hk : (0x3D : Byte) ∉ key)
    (h : n ++ 0x3D :: q <+: key ++ 0x3D :: r) : key = n ∧ q <+: r := by
  induction n generalizing key with
  | nil =>
    cases key with
    | nil => exact ⟨rfl, (List.cons_prefix_cons.mp h).2⟩
    | cons d key => exact absurd ((List.cons_prefix_cons.mp h).1 ▸ List.mem_cons_self) hk
  | cons d n ih =>
    cases key with
    | nil => exact absurd ((List.cons_prefix_cons.mp h).1 ▸ List.mem_cons_self) hn
    | cons e key =>
      rw [List.cons_append, List.cons_append, List.cons_prefix_cons] at h
      obtain ⟨h1, h2⟩ := ih (fun h' => hn (List.mem_cons_of_mem _ h')) (fun h' => hk (List.mem_cons_of_mem _ h')) h.2
      exact ⟨by rw [h1, h.1], h2⟩

theorem attrText_cons (a : RefAttr) (as : RefAttrs) : RefAttrs.text (a :: as) = a.text ++ RefAttrs.text as := rfl

/-- Only an attribute with the key looks like one. -/
theorem attr_of_infix {n q : Str} (hn : PlainKey n) (as : RefAttrs) (has : ∀ a ∈ as, a.WellFormed)
    (hv : ∀ a ∈ as, ¬ keyPat n <:+: a.value) {p trail : Str} (hp : (0x20 : Byte) ∉ p)
    (htr : (0x3D : Byte) ∉ trail) (h : keyPat n ++ q <:+: p ++ (RefAttrs.text as ++ trail)) :
    ∃ a ∈ as, a.key = n ∧ (q.head? = some 0x22 → a.quoted = true) := by
  replace h : keyPat n ++ q <:+: RefAttrs.text as ++ trail := by
    rw [keyPat, List.cons_append] at h ⊢
    exact infix_behind hp h
  induction as with
  | nil =>
    exfalso
    simp only [RefAttrs.text, List.flatMap_nil, List.nil_append] at h
    exact htr (h.subset (by simp [keyPat]))
  | cons a as ih =>
    have ha := has a List.mem_cons_self
    have hkey : (0x3D : Byte) ∉ a.key := fun hm => (ha.key _ hm).2.2.2.1 rfl
    rw [attrText_cons, RefAttr.text] at h
    simp only [List.append_assoc] at h
    rw [show keyPat n ++ q = 0x20 :: (n ++ 0x3D :: q) by simp [keyPat], List.singleton_append, List.singleton_append, List.infix_cons_iff] at h
    rcases h with h | h
    · obtain ⟨h1, h2⟩ := key_eq_of_prefix (fun hm => (hn.free _ hm).2.2 rfl) hkey (List.cons_prefix_cons.mp h).2
      refine ⟨a, List.mem_cons_self, h1, fun hq => ?_⟩
      by_contra hf
      have hf : a.quoted = false := by simpa using hf
      rw [hf] at h2
      obtain ⟨x, v, hxv⟩ := List.exists_cons_of_ne_nil (ha.plain hf).1
      cases q with
      | nil => simp at hq
      | cons y q =>
        simp only [List.head?_cons, Option.some.injEq] at hq
        rw [hxv] at h2
        simp only [Bool.false_eq_true, if_false] at h2
        exact (ha.value x (by rw [hxv]; exact List.mem_cons_self)).1 (by rw [← (List.cons_prefix_cons.mp h2).1, hq])
    · have h3 : 0x20 :: (n ++ 0x3D :: q) <:+:
          (if a.quoted then b!"\"" ++ a.value ++ b!"\"" else a.value) ++ (RefAttrs.text as ++ trail) := by
        refine infix_behind (a := a.key ++ b!"=") ?_ (by simpa [List.append_assoc] using h)
        simp only [List.mem_append, List.mem_singleton, not_or]
        exact ⟨fun hm => (ha.key _ hm).1 rfl, by decide⟩
      have h4 : 0x20 :: (n ++ 0x3D :: q) <:+: RefAttrs.text as ++ trail := by
        cases hq : a.quoted with
        | false =>
          rw [hq] at h3
          refine infix_behind ?_ h3
          intro hm
          simp only [Bool.false_eq_true, if_false] at hm
          exact absurd ((ha.plain hq).2 _ hm).2.2 (by decide)
        | true =>
          rw [hq] at h3
          have h5 : keyPat n ++ q <:+: a.value ++ 0x22 :: (RefAttrs.text as ++ trail) := by
            rw [keyPat, List.cons_append]
            refine infix_behind (a := b!"\"") (by decide) ?_
            simpa [List.append_assoc] using h3
          have h6 := occurs_behind (pat := n ++ [0x3D]) (by decide) (by
            simp only [List.mem_cons, List.mem_append, List.not_mem_nil, or_false, not_or]
            exact ⟨by decide, fun hm => (hn.free _ hm).2.1 rfl, by decide⟩) (hv a List.mem_cons_self) h5
          simpa [List.append_assoc] using h6
      obtain ⟨a', hm, hr⟩ := ih (fun a' h' => has a' (List.mem_cons_of_mem _ h')) (fun a' h' => hv a' (List.mem_cons_of_mem _ h'))
        (by simpa [List.append_assoc, keyPat] using h4)
      exact ⟨a', List.mem_cons_of_mem _ hm, hr⟩

theorem key_eq_of_suffix {n key p : Str} (hn : (0x20 : Byte) ∉ n) (hk : (0x20 : Byte) ∉ key)
    (h : keyPat n <:+ p ++ keyPat key) : key = n := by
  rw [← List.reverse_prefix] at h
  simp only [List.reverse_append, keyPat, List.reverse_cons, List.append_assoc] at h
  have h' : n.reverse ++ [0x20] <+: key.reverse ++ (0x20 :: p.reverse) := by
    have : (0x3D : Byte) :: (n.reverse ++ [0x20]) <+: 0x3D :: (key.reverse ++ (0x20 :: p.reverse)) := by
      simpa using h
    exact (List.cons_prefix_cons.mp this).2
  have : ∀ (x y z : Str), (0x20 : Byte) ∉ x → (0x20 : Byte) ∉ y → x ++ [0x20] <+: y ++ 0x20 :: z → y = x := by
    intro x
    induction x with
    | nil =>
      intro y z _ hy h
      cases y with
      | nil => rfl
      | cons d y => exact absurd ((List.cons_prefix_cons.mp h).1 ▸ List.mem_cons_self) hy
    | cons d x ih =>
      intro y z hx hy h
      cases y with
      | nil => exact absurd ((List.cons_prefix_cons.mp h).1 ▸ List.mem_cons_self) hx
      | cons e y =>
        rw [List.cons_append, List.cons_append, List.cons_prefix_cons] at h
        rw [ih y z (fun h' => hx (List.mem_cons_of_mem _ h')) (fun h' => hy (List.mem_cons_of_mem _ h')) h.2, h.1]
  have := this n.reverse key.reverse _ (by simpa using hn) (by simpa using hk) h'
  simpa using congrArg List.reverse this

theorem quotedValue_skip {suffix part : Str} (rest : List Str) (h : ¬ suffix <:+ part) :
    quotedValue suffix (part :: rest) = quotedValue suffix rest := by
  rw [quotedValue.eq_def]
  simp only
  rw [if_neg (by rw [hasSuffix_iff]; exact h)]

/-- The value of a quoted attribute. -/
theorem quotedValue_attrs {n : Str} (hn : PlainKey n) (as : RefAttrs) (has : ∀ a ∈ as, a.WellFormed)
    (hv : ∀ a ∈ as, ¬ keyPat n <:+: a.value) (hd : (as.map RefAttr.key).Nodup) {a : RefAttr} (ha : a ∈ as)
    (hk : a.key = n) (hq : a.quoted = true) {p trail : Str} (hp : (0x22 : Byte) ∉ p) :
    quotedValue (keyPat n) (split (p ++ (RefAttrs.text as ++ trail)) b!"\"") = .ok a.value := by
  induction as generalizing p with
  | nil => exact absurd ha (by simp)
  | cons a' as ih =>
    have ha' := has a' List.mem_cons_self
    rw [List.map_cons, List.nodup_cons] at hd
    have hk22 : (0x22 : Byte) ∉ a'.key := fun hm => (ha'.key _ hm).2.1 rfl
    have hv22 : (0x22 : Byte) ∉ a'.value := fun hm => (ha'.value _ hm).1 rfl
    cases hq' : a'.quoted with
    | false =>
      have hm : a ∈ as := by
        rcases List.mem_cons.mp ha with rfl | hm
        · rw [hq] at hq'; cases hq'
        · exact hm
      rw [attrText_cons, List.append_assoc, ← List.append_assoc p]
      refine ih (fun a' h' => has a' (List.mem_cons_of_mem _ h')) (fun a' h' => hv a' (List.mem_cons_of_mem _ h')) hd.2 hm ?_
      simp only [RefAttr.text, hq', Bool.false_eq_true, if_false, List.mem_append, not_or]
      exact ⟨hp, ⟨⟨by decide, hk22⟩, by decide⟩, hv22⟩
    | true =>
      have e : p ++ (RefAttrs.text (a' :: as) ++ trail) =
          (p ++ keyPat a'.key) ++ 0x22 :: (a'.value ++ 0x22 :: (RefAttrs.text as ++ trail)) := by
        simp [attrText_cons, RefAttr.text, hq', List.append_assoc, keyPat]
      rw [e, split_singleton_append _ (by
        simp only [keyPat, List.mem_append, List.mem_cons, List.not_mem_nil, or_false, not_or]
        exact ⟨hp, by decide, hk22, by decide⟩), split_singleton_append _ hv22]
      by_cases hkn : a'.key = n
      · have : a' = a := by
          rcases List.mem_cons.mp ha with rfl | hm
          · rfl
          · exact absurd (List.mem_map.mpr ⟨a, hm, by rw [hk, hkn]⟩) hd.1
        rw [quotedValue, if_pos (by rw [hasSuffix_iff, hkn]; exact List.suffix_append _ _), this]
      · have hm : a ∈ as := by
          rcases List.mem_cons.mp ha with rfl | hm
          · exact absurd hk hkn
          · exact hm
        rw [quotedValue_skip, quotedValue_skip]
        · exact ih (fun a' h' => has a' (List.mem_cons_of_mem _ h')) (fun a' h' => hv a' (List.mem_cons_of_mem _ h')) hd.2 hm
            (p := []) (by simp)
        · exact fun h => hv a' List.mem_cons_self h.isInfix
        · exact fun h => hkn (key_eq_of_suffix (fun hm => (hn.free _ hm).1 rfl) (fun hm => (ha'.key _ hm).1 rfl) h)

theorem eq_of_key {as : RefAttrs} (hd : (as.map RefAttr.key).Nodup) {a a' : RefAttr} (h : a ∈ as) (h' : a' ∈ as)
    (hk : a.key = a'.key) : a = a' := by
  induction as with
  | nil => exact absurd h (by simp)
  | cons b as ih =>
    rw [List.map_cons, List.nodup_cons] at hd
    rcases List.mem_cons.mp h with rfl | h
    · rcases List.mem_cons.mp h' with rfl | h'
      · rfl
      · exact absurd (List.mem_map.mpr ⟨_, h', hk.symm⟩) hd.1
    · rcases List.mem_cons.mp h' with e | h'
      · exact absurd (List.mem_map.mpr ⟨_, h, by rw [hk, e]⟩) hd.1
      · exact ih hd.2 h h'

theorem noBorder_key {n : Str} (hn : PlainKey n) : NoBorder (keyPat n) := by
  refine ⟨by simp [keyPat], ?_⟩
  intro k hk h0 hp
  obtain ⟨j, rfl⟩ := Nat.exists_eq_add_of_le' h0
  unfold keyPat at hp hk
  rw [List.drop_succ_cons] at hp
  obtain ⟨c, t, hct⟩ := List.exists_cons_of_ne_nil (l := (n ++ [0x3D]).drop j) (by
    intro h
    have := List.drop_eq_nil_iff.mp h
    simp at this hk
    omega)
  rw [hct, List.cons_prefix_cons] at hp
  have hm : (0x20 : Byte) ∈ n ++ [0x3D] := (List.drop_subset j _) (by rw [hct, hp.1]; exact List.mem_cons_self)
  simp only [List.mem_append, List.mem_singleton] at hm
  rcases hm with hm | hm
  · exact (hn.free _ hm).1 rfl
  · exact absurd hm (by decide)

theorem takeWhile_stop {p : Byte → Bool} {v r : Str} (hv : ∀ c ∈ v, p c = true) (hr : ∀ c ∈ r.head?, p c = false) :
    (v ++ r).takeWhile p = v := by
  rw [List.takeWhile_append_of_pos hv]
  cases r with
  | nil => simp
  | cons c r => rw [List.takeWhile_cons_of_neg (by rw [hr c (by simp)]; simp), List.append_nil]

/-- `getAttribute` finds the value. -/
theorem getAttribute_attrs {n : Str} (hn : PlainKey n) (as : RefAttrs) (has : ∀ a ∈ as, a.WellFormed)
    (hv : ∀ a ∈ as, ¬ keyPat n <:+: a.value) (hd : (as.map RefAttr.key).Nodup) {p trail : Str}
    (hp : ∀ c ∈ p, c ≠ 0x20 ∧ c ≠ 0x22) (htr : ∀ c ∈ trail, c = 0x20 ∨ c = 0x2F) :
    getAttribute (p ++ (as.text ++ trail)) n = .ok (as.get n) := by
  have hp20 : (0x20 : Byte) ∉ p := fun hm => (hp _ hm).1 rfl
  have hp22 : (0x22 : Byte) ∉ p := fun hm => (hp _ hm).2 rfl
  have htr' : (0x3D : Byte) ∉ trail := fun hm => by rcases htr _ hm with h | h <;> exact absurd h (by decide)
  have ek : b!" " ++ n ++ b!"=" = keyPat n := rfl
  have ek' : b!" " ++ n ++ b!"=\"" = keyPat n ++ [0x22] := by simp [keyPat]
  unfold getAttribute RefAttrs.get
  rw [ek, ek']
  cases hf : as.find? fun a => decide (a.key = n) with
  | none =>
    have hno : ∀ q, ¬ keyPat n ++ q <:+: p ++ (as.text ++ trail) := by
      intro q h
      obtain ⟨a, hm, hk, _⟩ := attr_of_infix hn as has hv hp20 htr' h
      exact absurd (List.find?_eq_none.mp hf a hm) (by simp [hk])
    rw [if_neg (by rw [contains_iff]; exact hno _)]
    have hcut : cut (keyPat n) (p ++ (as.text ++ trail)) = none := by
      rw [cut_eq_none (noBorder_key hn).1]
      simpa using hno []
    rw [hcut]
    rfl
  | some a =>
    have hk : a.key = n := by simpa using List.find?_some hf
    obtain ⟨as1, as2, rfl, hfirst⟩ := List.find?_eq_some_iff_append.mp hf |>.2
    have hm : a ∈ as1 ++ a :: as2 := by simp
    cases hq : a.quoted with
    | true =>
      rw [if_pos, quotedValue_attrs hn _ has hv hd hm hk hq hp22]
      · rfl
      · rw [contains_iff]
        refine ⟨p ++ RefAttrs.text as1, a.value ++ b!"\"" ++ RefAttrs.text as2 ++ trail, ?_⟩
        simp [RefAttrs.text, RefAttr.text, hq, hk, keyPat]
    | false =>
      have hno : ¬ keyPat n ++ [0x22] <:+: p ++ (RefAttrs.text (as1 ++ a :: as2) ++ trail) := by
        intro h
        obtain ⟨a', hm', hk', hq'⟩ := attr_of_infix hn _ has hv hp20 htr' h
        have : a' = a := eq_of_key hd hm' hm (by rw [hk, hk'])
        rw [this, hq] at hq'
        exact absurd (hq' rfl) (by simp)
      rw [if_neg (by rw [contains_iff]; exact hno)]
      have e : p ++ (RefAttrs.text (as1 ++ a :: as2) ++ trail) =
          (p ++ RefAttrs.text as1) ++ keyPat n ++ (a.value ++ (RefAttrs.text as2 ++ trail)) := by
        simp [RefAttrs.text, RefAttr.text, hq, hk, keyPat]
      have hcut : cut (keyPat n) (p ++ (RefAttrs.text (as1 ++ a :: as2) ++ trail)) =
          some (p ++ RefAttrs.text as1, a.value ++ (RefAttrs.text as2 ++ trail)) := by
        rw [e]
        refine (noBorder_key hn).cut_append _ ?_
        intro h
        obtain ⟨a', hm', hk', _⟩ := attr_of_infix (q := []) (trail := []) hn as1 (fun a h' => has a (by simp [h']))
          (fun a h' => hv a (by simp [h'])) hp20 (by simp) (by simpa using h)
        exact absurd (hfirst a' hm') (by simp [hk'])
      rw [hcut]
      have ha := has a hm
      simp only [Option.map_some, Option.getD_some]
      congr 1
      refine takeWhile_stop ?_ ?_
      · intro c hc
        have h1 := (ha.plain hq).2 c hc
        have h2 := ha.value c hc
        have h3 : c ≠ 0x20 := by rintro rfl; exact absurd h1.2.2 (by decide)
        simp [h1.2.1, h2.2.2.1, h3]
      · intro c hc
        have : c = 0x20 ∨ c = 0x2F := by
          cases as2 with
          | nil =>
            cases trail with
            | nil => simp [RefAttrs.text] at hc
            | cons d trail =>
              simp [RefAttrs.text] at hc
              rw [← hc]
              exact htr d (by simp)
          | cons a2 as2 =>
            simp [RefAttrs.text, RefAttr.text] at hc
            exact Or.inl hc.symm
        rcases this with rfl | rfl <;> decide

end Verif.Model
