import Verif.Model.Cleaner
import Verif.Spec.Cleaner
import Verif.Lemmas.Cut

namespace Verif.Lemmas
open Verif.Go Verif.Model Verif.Spec

theorem noBorder_end : NoBorder b!"-->" := by decide
theorem noBorder_start : NoBorder b!"<!--" := by decide

/-- The short forms that are not comments for the code. -/
def NoShortComment (s : Str) : Prop := ¬ b!"<!-->" <:+: s ∧ ¬ b!"<!--->" <:+: s

/-- `<!--` in `item ++ "-->" ++ t` lies in `item` or in `t`. -/
theorem start_in_parts {item t : Str} (hs : NoShortComment (item ++ b!"-->" ++ t)) (hi : ¬ b!"<!--" <:+: item) {a b : Str}
    (h : item ++ b!"-->" ++ t = a ++ b!"<!--" ++ b) : ∃ a', a = item ++ b!"-->" ++ a' := by
  rw [List.append_assoc, List.append_assoc] at h
  rcases List.append_eq_append_iff.mp h with ⟨x, ha, hx⟩ | ⟨x, ha, hx⟩
  · -- a = item ++ x, x ++ "<!--" ++ b = "-->" ++ t
    match x, hx with
    | [], hx => simp at hx
    | [_], hx => simp at hx
    | [_, _], hx => simp at hx
    | c0 :: c1 :: c2 :: x, hx =>
      simp at hx
      obtain ⟨rfl, rfl, rfl, hx⟩ := hx
      exact ⟨x, by rw [ha]; simp⟩
  · -- item = a ++ x, "<!--" ++ b = x ++ "-->" ++ t
    exfalso
    match x, hx with
    | [], hx => simp at hx
    | [_], hx => simp at hx
    | [c0, c1], hx =>
      simp at hx
      obtain ⟨rfl, rfl, hx⟩ := hx
      refine hs.1 ⟨a, t, ?_⟩
      rw [ha]; simp
    | [c0, c1, c2], hx =>
      simp at hx
      obtain ⟨rfl, rfl, rfl, hx⟩ := hx
      refine hs.2 ⟨a, t, ?_⟩
      rw [ha]; simp
    | c0 :: c1 :: c2 :: c3 :: x, hx =>
      simp at hx
      obtain ⟨rfl, rfl, rfl, rfl, hx⟩ := hx
      refine hi ⟨a, x, ?_⟩
      rw [ha]; simp

theorem dropLineBreak_append {item pre post : Str} (_h : item ≠ []) (hl : item.getLast? ≠ some 0x0A) :
    dropLineBreak (item ++ pre) post = item ++ dropLineBreak pre post := by
  unfold dropLineBreak
  cases pre with
  | nil => simp [hl]
  | cons c pre =>
    have : (item ++ c :: pre).getLast? = (c :: pre).getLast? := by
      rw [List.getLast?_append]; simp [List.getLast?_cons]
    rw [this]
    split
    · rw [List.dropLast_append_of_ne_nil (by simp)]
    · rfl

theorem stripped_stray_end {item t out : Str} (hs : NoShortComment (item ++ b!"-->" ++ t)) (hi : ¬ b!"<!--" <:+: item)
    (h : Stripped dropLineBreak t out) : Stripped dropLineBreak (item ++ b!"-->" ++ t) (item ++ b!"-->" ++ out) := by
  cases h with
  | noComment _ hn =>
    refine .noComment _ ?_
    rintro ⟨a, b, c, e⟩
    have e' : item ++ b!"-->" ++ t = a ++ b!"<!--" ++ (b ++ b!"-->" ++ c) := by rw [e]; simp
    obtain ⟨a', rfl⟩ := start_in_parts hs hi e'
    refine hn ⟨a', b, c, ?_⟩
    simpa using e
  | comment pre body post out h1 h2 h =>
    have e1 : item ++ b!"-->" ++ (pre ++ b!"<!--" ++ body ++ b!"-->" ++ post) =
        (item ++ b!"-->" ++ pre) ++ b!"<!--" ++ body ++ b!"-->" ++ post := by simp
    have e2 : item ++ b!"-->" ++ (dropLineBreak pre post ++ out) = dropLineBreak (item ++ b!"-->" ++ pre) post ++ out := by
      rw [dropLineBreak_append (by simp) (by simp)]; simp
    rw [e1, e2]
    refine .comment _ _ _ _ ?_ h2 h
    rintro ⟨a, b, e⟩
    have e' : item ++ b!"-->" ++ (pre ++ b!"<!--" ++ body ++ b!"-->" ++ post) =
        a ++ b!"<!--" ++ (b ++ b!"<!--" ++ body ++ b!"-->" ++ post) := by
      rw [e1, ← e]; simp
    obtain ⟨a', rfl⟩ := start_in_parts hs hi e'
    refine h1 ⟨a', b, ?_⟩
    simpa using e

theorem noShort_suffix {a t : Str} (h : NoShortComment (a ++ t)) : NoShortComment t :=
  ⟨fun hi => h.1 (hi.trans (List.suffix_append a t).isInfix), fun hi => h.2 (hi.trans (List.suffix_append a t).isInfix)⟩

theorem commentSegments_stripped (l : List Str) (hl : ∀ p ∈ l, ¬ b!"-->" <:+: p)
    (hs : NoShortComment (join b!"-->" l)) : Stripped dropLineBreak (join b!"-->" l) (commentSegments l) := by
  induction l with
  | nil => exact .noComment _ (by rintro ⟨a, b, c, e⟩; simp [join] at e)
  | cons item l ih =>
    cases l with
    | nil =>
      refine .noComment _ ?_
      rintro ⟨a, b, c, e⟩
      exact hl item (by simp) ⟨a ++ b!"<!--" ++ b, c, e.symm⟩
    | cons next rest =>
      have hj : join b!"-->" (item :: next :: rest) = item ++ b!"-->" ++ join b!"-->" (next :: rest) := rfl
      have ih' := ih (fun p hp => hl p (by simp only [List.mem_cons] at hp ⊢; exact .inr hp))
        (noShort_suffix (a := item ++ b!"-->") (by rw [← hj]; exact hs))
      rw [hj] at hs ⊢
      by_cases hi : b!"<!--" <:+: item
      · obtain ⟨a, b, e, ha⟩ := exists_first (by simp) hi
        have hsp : split item b!"<!--" = a :: split b b!"<!--" := by rw [e]; exact noBorder_start.split_append b ha
        have hne := split_ne_nil b (sep := b!"<!--") (by simp)
        have hseg : commentSegments (item :: next :: rest) =
            dropLineBreak a (join b!"-->" (next :: rest)) ++ commentSegments (next :: rest) := by
          rw [commentSegments, hsp]
          cases hb : split b b!"<!--" with
          | nil => exact absurd hb hne
          | cons x y => rfl
        rw [hseg, e]
        have e' : a ++ b!"<!--" ++ b ++ b!"-->" ++ join b!"-->" (next :: rest) =
          a ++ b!"<!--" ++ b ++ b!"-->" ++ join b!"-->" (next :: rest) := rfl
        refine .comment a b _ _ ha ?_ ih'
        intro hb
        refine hl item (by simp) (hb.trans ?_)
        rw [e]
        exact (List.suffix_append _ _).isInfix
      · have hseg : commentSegments (item :: next :: rest) = item ++ b!"-->" ++ commentSegments (next :: rest) := by
          rw [commentSegments, split_of_not_infix (by simp) hi]
        rw [hseg]
        exact stripped_stray_end hs hi ih'

end Verif.Lemmas
