import Verif.Model.Sanitize
import Verif.Spec.Sanitize
import Verif.Lemmas.Strings

namespace Verif.Lemmas

open Verif.Go Verif.Model Verif.Spec

/-- Encoding of a single byte. -/
def encodeByte (x : Byte) : Str :=
  if x = 0x25 then b!"%25"
  else if x = 0x3C then b!"%3C"
  else if x = 0x3E then b!"%3E"
  else if x = 0x3A then b!"%3A"
  else if x = 0x22 then b!"%22"
  else if x = 0x2F then b!"%2F"
  else if x = 0x5C then b!"%5C"
  else if x = 0x7C then b!"%7C"
  else if x = 0x3F then b!"%3F"
  else if x = 0x2A then b!"%2A"
  else [x]

theorem sanitize_eq_flatMap (s : Str) : sanitizeFilename s = s.flatMap encodeByte := by
  unfold sanitizeFilename
  simp only [replaceAll_singleton, List.flatMap_assoc]
  congr 1
  funext x
  unfold encodeByte
  by_cases h1 : x = 0x25
  · subst h1; decide
  by_cases h2 : x = 0x3C
  · subst h2; decide
  by_cases h3 : x = 0x3E
  · subst h3; decide
  by_cases h4 : x = 0x3A
  · subst h4; decide
  by_cases h5 : x = 0x22
  · subst h5; decide
  by_cases h6 : x = 0x2F
  · subst h6; decide
  by_cases h7 : x = 0x5C
  · subst h7; decide
  by_cases h8 : x = 0x7C
  · subst h8; decide
  by_cases h9 : x = 0x3F
  · subst h9; decide
  by_cases h10 : x = 0x2A
  · subst h10; decide
  simp [h1, h2, h3, h4, h5, h6, h7, h8, h9, h10]

theorem percentDecode_encodeByte (x : Byte) (t : Str) :
    percentDecode (encodeByte x ++ t) = x :: percentDecode t := by
  by_cases hx : x ∈ (0x25 :: forbidden)
  · simp only [forbidden, List.mem_cons, List.not_mem_nil, or_false] at hx
    rcases hx with rfl|rfl|rfl|rfl|rfl|rfl|rfl|rfl|rfl|rfl <;> simp [encodeByte, percentDecode, hexVal]
  · simp only [forbidden, List.mem_cons, List.not_mem_nil, or_false, not_or] at hx
    obtain ⟨h1, h2, h3, h4, h5, h6, h7, h8, h9, h10⟩ := hx
    simp only [encodeByte, h1, h2, h3, h4, h5, h6, h7, h8, h9, h10, if_false, List.singleton_append]
    match t with
    | [] => simp [percentDecode]
    | [_] => simp [percentDecode]
    | _ :: _ :: _ => simp [percentDecode, h1]

theorem percentDecode_sanitize (s : Str) : percentDecode (sanitizeFilename s) = s := by
  rw [sanitize_eq_flatMap]
  induction s with
  | nil => rfl
  | cons x t ih => rw [List.flatMap_cons, percentDecode_encodeByte, ih]

theorem encodeByte_no_forbidden (x c : Byte) (h : c ∈ encodeByte x) : c ∉ forbidden := by
  by_cases hx : x ∈ (0x25 :: forbidden)
  · simp only [forbidden, List.mem_cons, List.not_mem_nil, or_false] at hx
    rcases hx with rfl|rfl|rfl|rfl|rfl|rfl|rfl|rfl|rfl|rfl <;>
      (simp only [encodeByte] at h; revert h; revert c; decide)
  · have hx' := hx
    simp only [forbidden, List.mem_cons, List.not_mem_nil, or_false, not_or] at hx
    obtain ⟨h1, h2, h3, h4, h5, h6, h7, h8, h9, h10⟩ := hx
    simp only [encodeByte, h1, h2, h3, h4, h5, h6, h7, h8, h9, h10, if_false, List.mem_singleton] at h
    subst h
    exact fun e => hx' (List.mem_cons_of_mem _ e)

theorem sanitize_no_forbidden (s : Str) (c : Byte) (h : c ∈ sanitizeFilename s) : c ∉ forbidden := by
  rw [sanitize_eq_flatMap, List.mem_flatMap] at h
  obtain ⟨x, _, hx⟩ := h
  exact encodeByte_no_forbidden x c hx

/-- A piece of sanitised text: plain bytes or an escape sequence. -/
def Piece (p : Str) : Prop :=
  p = [] ∨ (∃ c, c ≠ 0x25 ∧ p = [c]) ∨ (∃ a b, a ≠ 0x25 ∧ b ≠ 0x25 ∧ p = [0x25, a, b])

theorem remove_code_flatMap (a b : Byte) (f : Byte → Str)
    (hf : ∀ x, Piece (f x)) (s : Str) :
    replaceAll (s.flatMap f) [0x25, a, b] [] =
      s.flatMap fun x => if f x = [0x25, a, b] then [] else f x := by
  induction s with
  | nil => rfl
  | cons x t ih =>
    rw [List.flatMap_cons, List.flatMap_cons, ← ih]
    by_cases he : f x = [0x25, a, b]
    · rw [he, replaceAll_of_prefix (by simp)]; simp
    · simp only [he, if_false]
      rcases hf x with h | ⟨c, hc, h⟩ | ⟨a', b', ha', hb', h⟩
      · rw [h]; rfl
      · rw [h, List.singleton_append, replaceAll_cons_of_not_prefix]
        · rfl
        · rw [List.cons_prefix_cons]; exact fun e => hc e.1.symm
      · rw [h] at he ⊢
        simp only [List.cons_append, List.nil_append]
        rw [replaceAll_cons_of_not_prefix, replaceAll_cons_of_not_prefix,
          replaceAll_cons_of_not_prefix]
        · rw [List.cons_prefix_cons]; exact fun e => hb' e.1.symm
        · rw [List.cons_prefix_cons]; exact fun e => ha' e.1.symm
        · simp only [List.cons_prefix_cons, List.nil_prefix, and_true]
          rintro ⟨-, rfl, rfl⟩
          exact he rfl

theorem piece_remove {f : Byte → Str} (hf : ∀ x, Piece (f x)) (code : Str) (x : Byte) :
    Piece (if f x = code then [] else f x) := by
  split
  · exact Or.inl rfl
  · exact hf x

theorem piece_encodeByte (x : Byte) : Piece (encodeByte x) := by
  by_cases hx : x ∈ (0x25 :: forbidden)
  · right; right
    simp only [forbidden, List.mem_cons, List.not_mem_nil, or_false] at hx
    rcases hx with rfl|rfl|rfl|rfl|rfl|rfl|rfl|rfl|rfl|rfl <;>
      exact ⟨_, _, by decide, by decide, rfl⟩
  · right; left
    simp only [forbidden, List.mem_cons, List.not_mem_nil, or_false, not_or] at hx
    obtain ⟨h1, h2, h3, h4, h5, h6, h7, h8, h9, h10⟩ := hx
    exact ⟨x, h1, by simp only [encodeByte, h1, h2, h3, h4, h5, h6, h7, h8, h9, h10, if_false]⟩

theorem isSanitizedPart_iff_of (part : Str) (P : Str) 
    (h : replaceAll (replaceAll (replaceAll (replaceAll (replaceAll (replaceAll (replaceAll (replaceAll
      (replaceAll (replaceAll part b!"%25" b!"") b!"%3C" b!"") b!"%3E" b!"") b!"%3A" b!"") b!"%22" b!"")
      b!"%2F" b!"") b!"%5C" b!"") b!"%7C" b!"") b!"%3F" b!"") b!"%2A" b!"" = P) :
    isSanitizedPart part = true ↔ ∀ c ∈ (0x25 :: forbidden), c ∉ P := by
  unfold isSanitizedPart
  have hc : ∀ c : Byte, contains P [c] = false ↔ c ∉ P := fun c => by
    rw [← Bool.not_eq_true, contains_singleton]
  simp only [h, Bool.not_eq_true', Bool.or_eq_false_iff, hc]
  simp [forbidden, and_assoc]

theorem isSanitizedPart_sanitize (s : Str) : isSanitizedPart (sanitizeFilename s) = true := by
  rw [sanitize_eq_flatMap]
  rw [isSanitizedPart_iff_of _ _ rfl]
  have hp0 := piece_encodeByte
  rw [remove_code_flatMap _ _ _ hp0]
  have hp1 := piece_remove hp0 b!"%25"
  rw [remove_code_flatMap _ _ _ hp1]
  have hp2 := piece_remove hp1 b!"%3C"
  rw [remove_code_flatMap _ _ _ hp2]
  have hp3 := piece_remove hp2 b!"%3E"
  rw [remove_code_flatMap _ _ _ hp3]
  have hp4 := piece_remove hp3 b!"%3A"
  rw [remove_code_flatMap _ _ _ hp4]
  have hp5 := piece_remove hp4 b!"%22"
  rw [remove_code_flatMap _ _ _ hp5]
  have hp6 := piece_remove hp5 b!"%2F"
  rw [remove_code_flatMap _ _ _ hp6]
  have hp7 := piece_remove hp6 b!"%5C"
  rw [remove_code_flatMap _ _ _ hp7]
  have hp8 := piece_remove hp7 b!"%7C"
  rw [remove_code_flatMap _ _ _ hp8]
  have hp9 := piece_remove hp8 b!"%3F"
  rw [remove_code_flatMap _ _ _ hp9]
  intro c hc hm
  rw [List.mem_flatMap] at hm
  obtain ⟨x, -, hx⟩ := hm
  revert hx hc
  revert c
  by_cases hx : x ∈ (0x25 :: forbidden)
  · simp only [forbidden, List.mem_cons, List.not_mem_nil, or_false] at hx
    rcases hx with rfl|rfl|rfl|rfl|rfl|rfl|rfl|rfl|rfl|rfl <;> decide
  · intro c hc hm
    have hx' := hx
    simp only [forbidden, List.mem_cons, List.not_mem_nil, or_false, not_or] at hx
    obtain ⟨h1, h2, h3, h4, h5, h6, h7, h8, h9, h10⟩ := hx
    have he : encodeByte x = [x] := by
      simp only [encodeByte, h1, h2, h3, h4, h5, h6, h7, h8, h9, h10, if_false]
    simp [he] at hm
    subst hm
    exact hx' hc

theorem isSanitized_sanitize (s : Str) : isSanitized (sanitizeFilename s) = true := by
  unfold isSanitized
  rw [split_singleton_of_not_mem (fun h => sanitize_no_forbidden s _ h (by decide))]
  simp [isSanitizedPart_sanitize]

/-- Segments accepted by the check contain no forbidden character. -/
theorem no_forbidden_of_isSanitizedPart {part : Str} (h : isSanitizedPart part = true) (c : Byte)
    (hc : c ∈ forbidden) : c ∉ part := by
  rw [isSanitizedPart_iff_of _ _ rfl] at h
  intro hm
  refine h c (List.mem_cons_of_mem _ hc) ?_
  have hcodes : ∀ code ∈ [b!"%25", b!"%3C", b!"%3E", b!"%3A", b!"%22", b!"%2F", b!"%5C", b!"%7C",
      b!"%3F", b!"%2A"], c ∉ code := by
    clear hm h
    revert c; decide
  have k : ∀ {code : Str}, code ∈ [b!"%25", b!"%3C", b!"%3E", b!"%3A", b!"%22", b!"%2F", b!"%5C",
      b!"%7C", b!"%3F", b!"%2A"] → ∀ {s : Str}, c ∈ s → c ∈ replaceAll s code [] := by
    intro code hcode s hs
    refine mem_replaceAll_of_not_mem ?_ (hcodes code hcode) hs
    rintro rfl
    revert hcode; decide
  exact k (by decide) <| k (by decide) <| k (by decide) <| k (by decide) <| k (by decide) <|
    k (by decide) <| k (by decide) <| k (by decide) <| k (by decide) <| k (by decide) hm

end Verif.Lemmas
