import Verif.Lemmas.CloseToken

/-! # C26: closing tokens -/

namespace Verif.Props
open Verif.Go Verif.Model Verif.Spec Verif.Lemmas

theorem target_iff {i : Nat} {pieces : List Piece} {res : Option Nat} (h : target 0 i pieces res) (p : Nat) :
    res = some p ↔ ∃ pre c post, pieces = pre ++ .closing c :: post ∧ Balanced pre ∧ p = i + (textOf pre).length := by
  constructor
  · intro hp
    obtain ⟨pre, c, post, h1, h2, h3⟩ := h.2 p hp
    exact ⟨pre, c, post, h1, balanced_iff_level.mpr h2, h3⟩
  · rintro ⟨pre, c, post, h1, h2, h3⟩
    rw [h.1 pre c post h1 (balanced_iff_level.mp h2), h3]

/-- **C26** The search finds exactly the closing token in front of which all tokens are balanced. In particular there
is at most one such token, and "not found" means that there is none. -/
theorem C26_close_token (content opening closing : Str) (start : Nat) (ho : opening ≠ []) (hc : closing ≠ [])
    (hne : opening ≠ closing) (pieces : List Piece)
    (hr : Reads (fun o => o = opening) (fun c => c = closing) (content.drop start) pieces) (p : Nat) :
    findClose content start opening closing = some p ↔
      ∃ pre c post, pieces = pre ++ .closing c :: post ∧ Balanced pre ∧ p = start + (textOf pre).length := by
  have h1 : (fun o => o = opening) = IsOpen false opening closing := by
    funext o; simp [IsOpen, sameToken, hne]
  have h2 : (fun c => c = closing) = IsClose false closing := by
    funext o; simp [IsClose, sameToken]
  rw [h1, h2] at hr
  exact target_iff (closeLoop_target ho hc hr start 0) p

/-- Equal except for the case of letters. -/
def SameIgnoringCase (a b : Str) : Prop := a.map lowerByte = b.map lowerByte

/-- **C26** The same for the search that ignores the case of letters. -/
theorem C26_close_token_ignore_case (content opening closing : Str) (start : Nat) (ho : opening ≠ [])
    (hc : closing ≠ []) (hne : ¬ SameIgnoringCase opening closing) (pieces : List Piece)
    (hr : Reads (SameIgnoringCase · opening) (SameIgnoringCase · closing) (content.drop start) pieces) (p : Nat) :
    findCloseIgnoreCase content start opening closing = some p ↔
      ∃ pre c post, pieces = pre ++ .closing c :: post ∧ Balanced pre ∧ p = start + (textOf pre).length := by
  have h1 : (SameIgnoringCase · opening) = IsOpen true opening closing := by
    funext o
    simp only [IsOpen, sameToken, if_true, equalsIgnoreCase, SameIgnoringCase, beq_eq_false_iff_ne, ne_eq, beq_iff_eq,
      eq_iff_iff, iff_and_self]
    exact fun _ => hne
  have h2 : (SameIgnoringCase · closing) = IsClose true closing := by
    funext o; simp [IsClose, sameToken, SameIgnoringCase, equalsIgnoreCase]
  rw [h1, h2] at hr
  exact target_iff (closeLoop_target ho hc hr start 0) p

/-- **C26** If both tokens are the same, the search finds the first one. -/
theorem C26_equal_tokens (content token : Str) (start : Nat) (h0 : token ≠ []) (pieces : List Piece)
    (hr : Reads (fun _ => False) (fun c => c = token) (content.drop start) pieces) (p : Nat) :
    findClose content start token token = some p ↔
      ∃ pre c post, pieces = pre ++ .closing c :: post ∧ Balanced pre ∧ p = start + (textOf pre).length := by
  have h1 : (fun _ => False) = IsOpen false token token := by
    funext o; simp [IsOpen, sameToken]
  have h2 : (fun c => c = token) = IsClose false token := by
    funext o; simp [IsClose, sameToken]
  rw [h1, h2] at hr
  exact target_iff (closeLoop_target h0 h0 hr start 0) p

/-- **C26** Every text can be read as tokens and other characters, so that the theorems above apply to every
text. -/
theorem C26_every_text_can_be_read (text opening closing : Str) (ho : opening ≠ []) (hc : closing ≠ []) :
    (∃ pieces, Reads (fun o => o = opening) (fun c => c = closing) text pieces) ∧
    (∃ pieces, Reads (SameIgnoringCase · opening) (SameIgnoringCase · closing) text pieces) := by
  constructor
  · exact reads_exists (fun o h => by rw [h]; exact ho) (fun c h => by rw [h]; exact hc) text
  · refine reads_exists ?_ ?_ text <;>
    · rintro o h rfl
      have := congrArg List.length h
      simp only [List.map_nil, List.length_nil, List.length_map] at this
      first
        | exact ho (List.length_eq_zero_iff.mp this.symm)
        | exact hc (List.length_eq_zero_iff.mp this.symm)

/-- **C26** The result is a position of the closing token behind the start. -/
theorem C26_position (content opening closing : Str) (start p : Nat) (ho : opening ≠ []) (hc : closing ≠ [])
    (h : findClose content start opening closing = some p) :
    start ≤ p ∧ ∃ pre post, content = pre ++ closing ++ post ∧ pre.length = p := by
  obtain ⟨pieces, hr⟩ := reads_exists (isOpen := IsOpen false opening closing) (isClose := IsClose false closing)
    (by rintro o ⟨-, h⟩ rfl; exact ho (List.length_eq_zero_iff.mp (sameToken_length h).symm))
    (by rintro c h rfl; exact hc (List.length_eq_zero_iff.mp (sameToken_length h).symm)) (content.drop start)
  obtain ⟨pre, c, post, h1, -, h3⟩ := (closeLoop_target ho hc hr start 0).2 p h
  refine ⟨by omega, ?_⟩
  have hcl : c = closing := by
    have : ∀ {t : Str} {l : List Piece}, Reads (IsOpen false opening closing) (IsClose false closing) t l →
        ∀ c, .closing c ∈ l → c = closing := by
      intro t l hl
      induction hl with
      | nil => intro c h; cases h
      | opening o r l _ _ ih => intro c h; simp only [List.mem_cons, reduceCtorEq, false_or] at h; exact ih c h
      | closing c' r l _ hc' _ ih =>
        intro c h
        simp only [List.mem_cons, Piece.closing.injEq] at h
        rcases h with rfl | h
        · simpa [IsClose, sameToken] using hc'
        · exact ih c h
      | other x r l _ _ _ ih => intro c h; simp only [List.mem_cons, reduceCtorEq, false_or] at h; exact ih c h
    exact this hr c (by rw [h1]; simp)
  have ht := reads_text hr
  rw [h1, hcl] at ht
  have hs : start ≤ content.length := by
    rcases Nat.lt_or_ge content.length start with hlt | hle
    · rw [List.drop_eq_nil_of_le (by omega)] at ht
      have := congrArg List.length ht
      have hp := List.length_pos_of_ne_nil hc
      simp [textOf, Piece.text] at this
      exact absurd this.2.1 hc
    · exact hle
  refine ⟨content.take start ++ textOf pre, textOf post, ?_, by simp [h3, Nat.min_eq_left hs]⟩
  calc content = content.take start ++ content.drop start := (List.take_append_drop _ _).symm
    _ = _ := by rw [← ht]; simp [textOf, Piece.text]

/-- The inner link and the inner brackets are skipped; the second text has no closing token at all. -/
example : findClose b!"[[a [[b]] c]] d" 2 b!"[[" b!"]]" = some 11 ∧ findClose b!"[[a [[b]] c" 2 b!"[[" b!"]]" = none ∧
    findCloseIgnoreCase b!"<A>x<a>y</A></a>" 3 b!"<a>" b!"</a>" = some 12 := by decide

example : Reads (fun o => o = b!"[[") (fun c => c = b!"]]") b!"a[[]]]"
    [.other 0x61, .opening b!"[[", .closing b!"]]", .other 0x5D] :=
  .other _ _ _ (by rintro o rfl; decide) (by rintro o rfl; decide)
    (.opening b!"[[" _ _ rfl (.closing b!"]]" _ _ (by rintro o rfl; decide) rfl
      (.other _ _ _ (by rintro o rfl; decide) (by rintro o rfl; decide) .nil)))

end Verif.Props
