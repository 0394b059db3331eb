import Verif.Props.ArticleStats
import Verif.Lemmas.Json

/-!
# Characters in the statistics (C56)
-/

namespace Verif.Props
open Verif.Go Verif.Model Verif.Spec Verif.Lemmas

/-- The byte does not continue the code of a character. -/
def beginsCharacter (c : Byte) : Bool := !(0x80 ≤ c && c ≤ 0xBF)

/-- The number of characters of a text: the bytes that begin the code of a character. -/
def characters (s : Str) : Nat := s.countP beginsCharacter

theorem characters_utf8 {n : Nat} (h : Scalar n) : characters (utf8 n) = 1 := by
  unfold Scalar at h
  have key : ∀ m, beginsCharacter (UInt8.ofNat (0x80 + m % 64)) = false := by
    intro m
    have := continues_ofNat (n := m)
    unfold continues at this
    simp only [beginsCharacter, this, Bool.not_true]
  have high : ∀ m, 192 ≤ m → m < 256 → beginsCharacter (UInt8.ofNat m) = true := by
    intro m h1 h2
    simp only [beginsCharacter, Bool.not_eq_true', Bool.and_eq_false_iff, decide_eq_false_iff_not, ofNat_le h2, le_ofNat h2]
    right
    show ¬ _ ≤ 191
    omega
  unfold characters utf8
  split
  · rename_i hlt
    have : beginsCharacter (UInt8.ofNat n) = true := by
      simp only [beginsCharacter, Bool.not_eq_true', Bool.and_eq_false_iff, decide_eq_false_iff_not, le_ofNat (show n < 256 by omega)]
      left
      rw [UInt8.le_iff_toNat_le, toNat_ofNat (show n < 256 by omega)]
      show ¬ 128 ≤ n
      omega
    rw [List.countP_cons_of_pos this, List.countP_nil]
  split
  · rw [List.countP_cons_of_pos (high _ (by omega) (by omega)), List.countP_cons_of_neg (by rw [key]; decide), List.countP_nil]
  split
  · rw [List.countP_cons_of_pos (high _ (by omega) (by omega)), List.countP_cons_of_neg (by rw [key]; decide),
      List.countP_cons_of_neg (by rw [key]; decide), List.countP_nil]
  · rw [List.countP_cons_of_pos (high _ (by omega) (by omega)), List.countP_cons_of_neg (by rw [key]; decide),
      List.countP_cons_of_neg (by rw [key]; decide), List.countP_cons_of_neg (by rw [key]; decide), List.countP_nil]

theorem runes_length {s : Str} (h : ValidText s) : (runes s).length = characters s := by
  obtain ⟨codes, hs, rfl⟩ := h
  rw [runes_flatMap hs]
  induction codes with
  | nil => rfl
  | cons n codes ih =>
    rw [List.flatMap_cons, characters, List.countP_append]
    have h1 := characters_utf8 (hs n (by simp))
    have h2 := ih fun m hm => hs m (by simp [hm])
    unfold characters at h1 h2
    rw [h1, ← h2, List.length_cons]
    omega

/-- The number of characters in the statistics of an article is the number of characters, not of bytes, in its texts. -/
theorem C56_characters_are_counted_partial (letterOrNumber : Nat → Bool)
    (tokens : List (Str × Token)) (instance' title content : Str) (items : List ReadItem)
    (h : Shows tokens [withoutMarkers content] items) (hc : ∀ t, .token t ∈ items → Countable t)
    (hv : ∀ t ∈ textsOf items, ValidText t) :
    ∃ steps, ∀ fuel, steps ≤ fuel → ∃ s, articleStats ⟨runes, letterOrNumber⟩ tokens fuel instance' title content = some (.ok s) ∧
      s.numberOfCharacters = ((textsOf items).map fun t => (characters t : Int)).sum := by
  obtain ⟨steps, hs⟩ := C56_statistics_count_what_is_in_the_article_partial ⟨runes, letterOrNumber⟩ rfl tokens instance' title
    content items h hc
  refine ⟨steps, fun fuel hf => ?_⟩
  obtain ⟨s, h1, -, -, -, -, -, -, -, -, h2, -⟩ := hs fuel hf
  refine ⟨s, h1, ?_⟩
  rw [h2]
  congr 1
  exact List.map_congr_left fun t ht => by rw [runes_length (hv t ht)]

example : characters b!"Île de la Cité €" = 16 ∧ b!"Île de la Cité €".length = 20 := by decide

/-- The hypotheses for a text without any markup. -/
example : ∃ items, Shows [] [withoutMarkers b!"Île"] items ∧ (∀ t ∈ textsOf items, ValidText t) ∧
    (∀ t, .token t ∈ items → Countable t) := by
  refine ⟨[.text b!"Île"], ?_, ?_, ?_⟩
  · exact Shows.last (text := b!"Île") (by decide) .nil
  · intro t ht
    simp only [textsOf, List.filterMap_cons, List.filterMap_nil, List.mem_cons, List.not_mem_nil, or_false] at ht
    subst ht
    exact ⟨[0xCE, 0x6C, 0x65], by decide, by decide +kernel⟩
  · intro t ht
    simp at ht

end Verif.Props
