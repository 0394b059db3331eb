import Verif.Spec.Svg
import Verif.Lemmas.PlaceholderLoop
import Verif.Lemmas.WikiLinks
import Verif.Lemmas.Atoms

namespace Verif.Lemmas
open Verif.Go Verif.Model Verif.Spec
open scoped List

/-- A text that ends with its only quotation mark does not begin in front of another one. -/
theorem quoted_infix {q x y : Str} (hq : (0x22 : Byte) ∉ q) (hx : x.getLast? = some 0x22) (h : q ++ b!"\"" <:+: x ++ y) :
    q ++ b!"\"" <:+: x ∨ q ++ b!"\"" <:+: y := by
  rcases infix_append_cases h with h | h | ⟨a, b, ha, hb, e, hax, hby⟩
  · exact Or.inl h
  · exact Or.inr h
  · exfalso
    obtain ⟨u, rfl⟩ := hax
    rw [List.getLast?_append_of_ne_nil _ ha] at hx
    have hm : (0x22 : Byte) ∈ a := List.mem_of_getLast? hx
    have e2 : q = a ++ b.dropLast := by
      have := congrArg List.dropLast e
      rwa [List.dropLast_concat, List.dropLast_append_of_ne_nil hb] at this
    exact hq (by rw [e2]; simp [hm])

theorem quoted_suffix {q x : Str} (hx : (0x22 : Byte) ∉ x) (h : q ++ b!"\"" <:+: x ++ b!"\"") : q <:+ x := by
  rcases List.infix_concat_iff.mp h with h | h
  · obtain ⟨u, e⟩ := h
    have := List.append_inj' (s₁ := u ++ q) (s₂ := x) (t₁ := b!"\"") (t₂ := b!"\"") (by simpa using e) rfl
    exact ⟨u, this.1⟩
  · exact absurd (h.subset (by simp)) hx

theorem attribute_infix {n : Str} {a : Str × Str} (hn : (0x22 : Byte) ∉ n ∧ (0x20 : Byte) ∉ n) (h1 : (0x22 : Byte) ∉ a.1) (h2 : (0x22 : Byte) ∉ a.2 ∧ a.2.getLast? ≠ some 0x3D)
    (h : n ++ b!"=\"" <:+: svgAttribute a) : n <:+ a.1 := by
  have e : svgAttribute a = (b!" " ++ a.1 ++ b!"=" ++ b!"\"") ++ (a.2 ++ b!"\"") := by simp [svgAttribute]
  have e' : n ++ b!"=\"" = (n ++ b!"=") ++ b!"\"" := by simp
  rw [e, e'] at h
  rcases quoted_infix (by simp [hn.1]) (by rw [List.getLast?_concat]) h with h | h
  · have := quoted_suffix (by simp [h1]) h
    obtain ⟨u, hu⟩ := this
    have := List.append_inj' (s₁ := u ++ n) (s₂ := b!" " ++ a.1) (t₁ := b!"=") (t₂ := b!"=") (by simpa using hu) rfl
    have h3 : n <:+ b!" " ++ a.1 := ⟨u, this.1⟩
    rcases List.suffix_cons_iff.mp h3 with h4 | h4
    · exact absurd (by rw [h4]; simp) hn.2
    · exact h4
  · have := quoted_suffix h2.1 h
    obtain ⟨u, hu⟩ := this
    exact absurd (by rw [← hu]; simp [List.getLast?_append]) h2.2

theorem attributes_infix {n : Str} (hn : (0x22 : Byte) ∉ n ∧ (0x20 : Byte) ∉ n) (as : List (Str × Str)) (h1 : ∀ a ∈ as, (0x22 : Byte) ∉ a.1)
    (h2 : ∀ a ∈ as, (0x22 : Byte) ∉ a.2 ∧ a.2.getLast? ≠ some 0x3D) (h : n ++ b!"=\"" <:+: as.flatMap svgAttribute) : ∃ a ∈ as, n <:+ a.1 := by
  induction as with
  | nil => simp at h
  | cons a as ih =>
    have e' : n ++ b!"=\"" = (n ++ b!"=") ++ b!"\"" := by simp
    rw [List.flatMap_cons, e'] at h
    rcases quoted_infix (by simp [hn.1]) (by unfold svgAttribute; rw [List.getLast?_concat]) h with h | h
    · exact ⟨a, by simp, attribute_infix hn (h1 a (by simp)) (h2 a (by simp)) (by simpa using h)⟩
    · obtain ⟨b, hb, h⟩ := ih (fun x hx => h1 x (by simp [hx])) (fun x hx => h2 x (by simp [hx])) (by simpa using h)
      exact ⟨b, by simp [hb], h⟩

theorem special_chars {n : Str} (hn : n ∈ [b!"width", b!"height", b!"viewBox"]) : (0x22 : Byte) ∉ n ∧ (0x20 : Byte) ∉ n ∧ (0x3D : Byte) ∉ n ∧ n ≠ [] :=
  (by decide : ∀ n ∈ [b!"width", b!"height", b!"viewBox"], (0x22 : Byte) ∉ n ∧ (0x20 : Byte) ∉ n ∧ (0x3D : Byte) ∉ n ∧ n ≠ []) n hn

/-- In front of an attribute there is no attribute with the same name. -/
theorem front_infix {f : SvgFile} (hf : f.Plain) {n v : Str} (hn : n ∈ [b!"width", b!"height", b!"viewBox"]) {l r : List (Str × Str)}
    (e : f.attributes = l ++ (n, v) :: r) : ¬ n ++ b!"=\"" <:+: f.before ++ l.flatMap svgAttribute ++ b!" " := by
  obtain ⟨h1, h2, h3, h4⟩ := special_chars hn
  have hl : ∀ a ∈ l, a ∈ f.attributes := fun a ha => by rw [e]; simp [ha]
  intro h
  have h : n ++ b!"=\"" <:+: f.before ++ l.flatMap svgAttribute := by
    rcases List.infix_concat_iff.mp h with h | h
    · exfalso
      obtain ⟨u, hu⟩ := h
      have := congrArg List.getLast? hu
      rw [List.getLast?_concat, List.getLast?_append_of_ne_nil _ (by simp), List.getLast?_append_of_ne_nil _ (by simp)] at this
      exact absurd this (by decide)
    · exact h
  have hattr : ¬ n ++ b!"=\"" <:+: l.flatMap svgAttribute := by
    intro h
    obtain ⟨a, ha, hs⟩ := attributes_infix ⟨h1, h2⟩ l (fun a ha => (hf.names a (hl a ha)).1) (fun a ha => hf.values a (hl a ha)) h
    have en := (hf.names a (hl a ha)).2 n hn hs
    have := hf.distinct
    rw [e, List.map_append, List.nodup_append] at this
    exact this.2.2 a.1 (List.mem_map_of_mem ha) n (by simp) en
  rcases infix_append_cases h with h | h | ⟨a, b, ha, hb, e2, hax, hby⟩
  · exact hf.before n hn h
  · exact hattr h
  · cases l with
    | nil => simp at hby; exact hb hby
    | cons p l =>
      obtain ⟨c, b, rfl⟩ := List.exists_cons_of_ne_nil hb
      have hc : c = 0x20 := by
        simp [svgAttribute] at hby
        exact hby.1
      have : c ∈ n ++ b!"=\"" := by rw [e2]; simp
      rw [hc] at this
      simp [h2] at this

theorem set_attributes {n v w : Str} {l r : List (Str × Str)} (h : ((l ++ (n, v) :: r).map (·.1)).Nodup) :
    (l ++ (n, v) :: r).map (fun a => if a.1 = n then (n, w) else a) = l ++ (n, w) :: r := by
  rw [List.map_append, List.map_cons, List.nodup_append, List.nodup_cons] at h
  obtain ⟨-, ⟨h1, -⟩, h2⟩ := h
  rw [List.map_append, List.map_cons, if_pos rfl]
  congr 1
  · rw [List.map_congr_left (g := id)]
    · simp
    · intro a ha
      rw [if_neg]
      · rfl
      · exact h2 a.1 (List.mem_map_of_mem ha) n (by simp)
  · congr 1
    rw [List.map_congr_left (g := id)]
    · simp
    · intro a ha
      rw [if_neg]
      · rfl
      · intro en
        exact h1 (List.mem_map.mpr ⟨a, ha, en⟩)

theorem replace_attribute {f : SvgFile} (hf : f.Plain) {n v : Str} (w : Str) (hn : n ∈ [b!"width", b!"height", b!"viewBox"]) (hm : (n, v) ∈ f.attributes) :
    replaceFirst (n ++ b!"=\"" ++ v ++ b!"\"") (n ++ b!"=\"" ++ w ++ b!"\"") f.source = (f.set n w).source := by
  obtain ⟨l, r, e⟩ := List.append_of_mem hm
  obtain ⟨h1, h2, h3, h4⟩ := special_chars hn
  have hno := front_infix hf hn e
  have es : ∀ v, f.before ++ (l ++ (n, v) :: r).flatMap svgAttribute ++ f.rest =
      (f.before ++ l.flatMap svgAttribute ++ b!" ") ++ (n ++ b!"=\"" ++ v ++ b!"\"") ++ (r.flatMap svgAttribute ++ f.rest) := by
    intro v
    simp [svgAttribute]
  unfold SvgFile.set SvgFile.source
  simp only
  rw [e, set_attributes (e ▸ hf.distinct), es, es, replaceFirst_at]
  · simp [h4]
  · intro j hj hp
    generalize hx : f.before ++ l.flatMap svgAttribute ++ b!" " = x at *
    have hp : n ++ b!"=\"" <+: x.drop j ++ (n ++ b!"=\"" ++ v ++ b!"\"" ++ (r.flatMap svgAttribute ++ f.rest)) := by
      rw [List.append_assoc x, List.drop_append_of_le_length (by omega)] at hp
      exact List.IsPrefix.trans ⟨v ++ b!"\"", by simp only [List.append_assoc]⟩ hp
    rcases List.prefix_or_prefix_of_prefix hp (List.prefix_append _ _) with hp | hp
    · exact hno (hp.isInfix.trans (List.drop_suffix _ _).isInfix)
    · have hs : (0x20 : Byte) ∈ x.drop j := by
        rw [← hx, List.drop_append_of_le_length (by rw [← hx] at hj; simp at hj ⊢; omega)]
        simp
      have := hp.subset hs
      simp [h2] at this

theorem set_names (f : SvgFile) (n w : Str) : (f.set n w).attributes.map (·.1) = f.attributes.map (·.1) := by
  unfold SvgFile.set
  rw [List.map_map]
  refine List.map_congr_left fun a _ => ?_
  simp only [Function.comp]
  split
  · next h => exact h.symm
  · rfl

theorem set_plain {f : SvgFile} (hf : f.Plain) (n : Str) {w : Str} (hw : (0x22 : Byte) ∉ w ∧ w.getLast? ≠ some 0x3D) : (f.set n w).Plain := by
  refine ⟨by rw [set_names]; exact hf.distinct, ?_, ?_, hf.before⟩
  · intro a ha
    have : a.1 ∈ f.attributes.map (·.1) := by rw [← set_names f n w]; exact List.mem_map_of_mem ha
    obtain ⟨b, hb, e⟩ := List.mem_map.mp this
    rw [← e]
    exact hf.names b hb
  · intro a ha
    obtain ⟨b, hb, rfl⟩ := List.mem_map.mp ha
    split
    · exact hw
    · exact hf.values b hb

theorem indexOf_at {sub : Str} (p x : Str) (h0 : sub ≠ []) (h : ∀ j < p.length, ¬ sub <+: (p ++ sub ++ x).drop j) :
    indexOf sub (p ++ sub ++ x) = some p.length := by
  induction p with
  | nil =>
    cases sub with
    | nil => exact absurd rfl h0
    | cons c sub =>
      rw [List.nil_append, List.cons_append, indexOf, if_pos (by simp)]
      rfl
  | cons c p ih =>
    have hc := h 0 (by simp)
    rw [List.cons_append, List.cons_append, indexOf, if_neg, ih]
    · rfl
    · intro j hj
      have := h (j + 1) (by simpa using hj)
      simpa using this
    · rw [List.isPrefixOf_iff_prefix]
      simpa using hc

theorem indexOf_none {sub s : Str} (h : ¬ sub <:+: s) : indexOf sub s = none := by
  have := contains_eq_false_iff.mpr h
  unfold contains at this
  simpa using this

/-- The text of the attribute `viewBox` is found. -/
theorem viewBox_found {f : SvgFile} (hf : f.Plain) {v : Str} (hm : (b!"viewBox", v) ∈ f.attributes) :
    ∃ i a r, indexOf b!"viewBox=\"" f.source = some i ∧ splitN b!"\"" 3 (f.source.drop i) = a :: v :: r := by
  obtain ⟨l, r, e⟩ := List.append_of_mem hm
  have hno := front_infix hf (by simp) e
  have es : f.source = (f.before ++ l.flatMap svgAttribute ++ b!" ") ++ b!"viewBox=\"" ++ (v ++ b!"\"" ++ (r.flatMap svgAttribute ++ f.rest)) := by
    unfold SvgFile.source
    rw [e]
    simp [svgAttribute]
  have hno : ¬ b!"viewBox=\"" <:+: f.before ++ l.flatMap svgAttribute ++ b!" " := hno
  rw [es]
  generalize hx : f.before ++ l.flatMap svgAttribute ++ b!" " = x at hno
  refine ⟨x.length, b!"viewBox=", ?_, indexOf_at _ _ (by simp) ?_, ?_⟩
  · exact [r.flatMap svgAttribute ++ f.rest]
  · intro j hj hp
    rw [List.append_assoc x, List.drop_append_of_le_length (by omega)] at hp
    rcases List.prefix_or_prefix_of_prefix hp (List.prefix_append _ _) with hp | hp
    · exact hno (hp.isInfix.trans (List.drop_suffix _ _).isInfix)
    · have hs : (0x20 : Byte) ∈ x.drop j := by
        rw [← hx, List.drop_append_of_le_length (by rw [← hx] at hj; simp at hj ⊢; omega)]
        simp
      exact absurd (hp.subset hs) (by decide)
  · have hv := (hf.values _ hm).1
    rw [List.append_assoc x, List.drop_left]
    show splitN b!"\"" 3 (b!"viewBox=" ++ 0x22 :: (v ++ b!"\"" ++ (r.flatMap svgAttribute ++ f.rest))) = _
    rw [splitN, cut_single _ (by decide)]
    simp only
    rw [List.append_assoc, List.singleton_append, splitN, cut_single _ hv]
    rfl

theorem viewBox_values {x y width height v : Str} (h : ViewBox x y width height v) : viewBoxValues v = some [x, y, width, height] := by
  cases h with
  | commas h =>
    unfold viewBoxValues
    rw [if_pos, split_join_singleton (by simp) h]
    rw [contains_singleton]
    simp [join]
  | spaces h =>
    unfold viewBoxValues
    rw [if_neg, if_pos, split_join_singleton (by simp) (fun p hp => (h p hp).2)]
    · rw [contains_singleton]
      simp [join]
    · rw [contains_singleton]
      simp only [List.mem_cons, List.not_mem_nil, or_false, forall_eq_or_imp, forall_eq] at h
      simp [join, h]

theorem viewBox_parts {x y width height v : Str} (h : ViewBox x y width height v) (c : Byte) (hc : c ∉ v) : c ∉ width ∧ c ∉ height := by
  cases h <;>
  · simp [join] at hc
    simp [hc]

theorem removeNamespaces_skip (s : Str) (n : Nat) : removeNamespaces s n = removeNamespaces (s.drop n) 0 := by
  induction s generalizing n with
  | nil => simp [removeNamespaces]
  | cons c s ih =>
    cases n with
    | zero => rfl
    | succ n => rw [removeNamespaces, ih]; rfl

end Verif.Lemmas
