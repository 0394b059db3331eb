import Verif.Spec.Paragraphs
import Verif.Lemmas.Strings

/-!
# Paragraphs (C54)
-/

namespace Verif.Props
open Verif.Go Verif.Model Verif.Spec

theorem tokenChar_iff (c : Byte) : tokenChar c = true ↔ KeyCharacter c := by
  simp only [tokenChar, KeyCharacter, Bool.or_eq_true, Bool.and_eq_true, decide_eq_true_eq]
  exact ⟨fun h => by rcases h with (h | h) | h; exacts [.inl h, .inr (.inr h), .inr (.inl h)],
    fun h => by rcases h with h | h | h; exacts [.inl (.inl h), .inr h, .inl (.inr h)]⟩

theorem digit_iff (c : Byte) : digit c = true ↔ 0x30 ≤ c ∧ c ≤ 0x39 := by simp [digit]

theorem takeWhile_all {p : Byte → Bool} (s : Str) {c : Byte} (h : c ∈ s.takeWhile p) : p c = true := by
  have := List.all_takeWhile (p := p) (l := s)
  exact List.all_eq_true.mp this c h

theorem tokenName_iff (s : Str) : tokenName s = true ↔
    ∃ kind number : Str, kind ≠ [] ∧ number ≠ [] ∧ (∀ c ∈ number, digit c = true) ∧ s = kind ++ b!"_" ++ number := by
  unfold tokenName
  constructor
  · intro h
    have e := List.takeWhile_append_dropWhile (p := digit) (l := s.reverse)
    simp only at h
    split at h
    · rename_i u rest hd
      simp only [ne_eq, decide_not, Bool.and_eq_true, Bool.not_eq_true', decide_eq_false_iff_not, decide_eq_true_eq] at h
      obtain ⟨⟨h1, rfl⟩, h2⟩ := h
      refine ⟨rest.reverse, (s.reverse.takeWhile digit).reverse, by simpa using h2, by simpa using h1, ?_, ?_⟩
      · intro c hc
        exact takeWhile_all _ (List.mem_reverse.mp hc)
      · rw [hd] at e
        have := congrArg List.reverse e
        simpa using this.symm
    · cases h
  · rintro ⟨kind, number, h1, h2, h3, rfl⟩
    have e : (kind ++ b!"_" ++ number).reverse = number.reverse ++ (0x5F :: kind.reverse) := by simp
    have h3' : ∀ c ∈ number.reverse, digit c = true := fun c hc => h3 c (List.mem_reverse.mp hc)
    simp only [e, List.takeWhile_append_of_pos h3', List.dropWhile_append_of_pos h3',
      List.takeWhile_cons_of_neg (show ¬ digit 0x5F = true by decide),
      List.dropWhile_cons_of_neg (show ¬ digit 0x5F = true by decide)]
    simp [h1, h2]

theorem isTokenLine_iff (l : Str) : isTokenLine l = true ↔ ElementLine l := by
  unfold isTokenLine ElementLine
  rw [beq_iff_eq]
  constructor
  · intro h
    unfold matchToken at h
    split at h
    · rename_i hp
      simp only at h
      split at h
      · rename_i h2
        rw [Bool.and_eq_true] at h2
        obtain ⟨hn, ha⟩ := h2
        obtain ⟨kind, number, k1, k2, k3, k4⟩ := (tokenName_iff _).mp hn
        rw [hasPrefix, List.isPrefixOf_iff_prefix] at hp ha
        obtain ⟨r, rfl⟩ := hp
        obtain ⟨r2, hr2⟩ := ha
        have e := List.takeWhile_append_dropWhile (p := tokenChar) (l := (b!"$$TOKEN_" ++ r).drop 8)
        rw [← hr2] at h
        have : r2 = [] := by simpa using h
        subst this
        have hall : ∀ c ∈ kind ++ b!"_" ++ number, tokenChar c = true := by
          rw [← k4]; exact fun c hc => takeWhile_all _ hc
        refine ⟨kind, number, k1, fun c hc => (tokenChar_iff c).mp (hall c (by simp [hc])), k2,
          fun c hc => (digit_iff c).mp (k3 c hc), ?_⟩
        rw [k4, ← hr2] at e
        have e2 : List.drop 8 (b!"$$TOKEN_" ++ r) = r := rfl
        rw [e2] at e
        rw [← e]
        simp
      · cases h
    · cases h
  · rintro ⟨kind, number, k1, k2, k3, k4, rfl⟩
    have hall : ∀ c ∈ kind ++ b!"_" ++ number, tokenChar c = true := by
      intro c hc
      rw [tokenChar_iff]
      simp only [List.mem_append] at hc
      rcases hc with (hc | hc) | hc
      · exact k2 c hc
      · exact .inr (.inr (by simpa using hc))
      · exact .inr (.inl (k4 c hc))
    have e : b!"$$TOKEN_" ++ kind ++ b!"_" ++ number ++ b!"$$" = b!"$$TOKEN_" ++ ((kind ++ b!"_" ++ number) ++ (0x24 :: 0x24 :: [])) := by simp
    have hn : tokenName (kind ++ b!"_" ++ number) = true :=
      (tokenName_iff _).mpr ⟨kind, number, k1, k3, fun c hc => (digit_iff c).mpr (k4 c hc), rfl⟩
    have e2 : List.drop 8 (b!"$$TOKEN_" ++ ((kind ++ b!"_" ++ number) ++ (0x24 :: 0x24 :: []))) = (kind ++ b!"_" ++ number) ++ (0x24 :: 0x24 :: []) := rfl
    rw [e, matchToken, if_pos (by rw [hasPrefix, List.isPrefixOf_iff_prefix]; exact List.prefix_append _ _), e2]
    simp only [List.takeWhile_append_of_pos hall, List.dropWhile_append_of_pos hall,
      List.takeWhile_cons_of_neg (show ¬ tokenChar 0x24 = true by decide),
      List.dropWhile_cons_of_neg (show ¬ tokenChar 0x24 = true by decide), List.append_nil, hn]
    simp [hasPrefix, List.isPrefixOf]

theorem not_elementLine_iff (l : Str) : isTokenLine l = false ↔ ¬ ElementLine l := by
  rw [← isTokenLine_iff, Bool.not_eq_true]

/-- The key of an element is in one line. -/
theorem _root_.Verif.Spec.ElementLine.oneLine {l : Str} (h : ElementLine l) : (10 : Byte) ∉ l := by
  obtain ⟨kind, number, _, k2, _, k4, rfl⟩ := h
  simp only [List.mem_append, not_or]
  refine ⟨⟨⟨⟨by decide, fun hc => ?_⟩, by decide⟩, fun hc => ?_⟩, by decide⟩
  · exact absurd ((tokenChar_iff _).mpr (k2 _ hc)) (by decide)
  · exact absurd ((digit_iff _).mpr (k4 _ hc)) (by decide)

theorem paragraphLines_empty (n : Nat) (rest : List Str) (before : Str) (create : Bool) :
    ∃ before', paragraphLines (List.replicate n [] ++ rest) before true create = paragraphLines rest before' true create := by
  induction n generalizing before with
  | zero => exact ⟨before, rfl⟩
  | succ n ih =>
    obtain ⟨b', h⟩ := ih []
    refine ⟨b', ?_⟩
    rw [List.replicate_succ, List.cons_append, paragraphLines]
    simpa [show isTokenLine [] = false by decide] using h

/-- The lines of a paragraph behind its first line. -/
theorem paragraphLines_lines (ls : List Str) (hl : ∀ l ∈ ls, l ≠ [] ∧ isTokenLine l = false) (rest : List Str)
    (before : Str) (hb : before ≠ []) : ∃ before', before' ≠ [] ∧
    paragraphLines (ls ++ rest) before false false = ls ++ paragraphLines rest before' false false := by
  induction ls generalizing before with
  | nil => exact ⟨before, hb, rfl⟩
  | cons l ls ih =>
    obtain ⟨h1, h2⟩ := hl l (by simp)
    obtain ⟨b', h3, h4⟩ := ih (fun x hx => hl x (by simp [hx])) l h1
    refine ⟨b', h3, ?_⟩
    rw [List.cons_append, paragraphLines]
    simp [h1, h2, h4]

/-- The lines from the end of a block on: `afterParagraph` says that it is a paragraph. -/
theorem paragraphLines_blocks (doc : List (Nat × TextBlock)) (last : Nat) (hw : ∀ b ∈ doc, b.2.WellFormed) :
    ∀ (after : Bool) (before : Str), SeparatedFrom after doc → (after = true → before ≠ []) →
    paragraphLines (blockLines doc ++ List.replicate last []) before (!after) false = markedLines after doc := by
  induction doc with
  | nil =>
    intro after before _ hb
    cases after with
    | false =>
      obtain ⟨b', h⟩ := paragraphLines_empty last [] before false
      simpa [blockLines, markedLines, paragraphLines] using h
    | true =>
      cases last with
      | zero => rfl
      | succ last =>
        obtain ⟨b', h⟩ := paragraphLines_empty last [] [] true
        rw [blockLines, List.nil_append, List.replicate_succ, paragraphLines]
        have hb := hb rfl
        simpa [hb, markedLines, paragraphLines, show isTokenLine [] = false by decide] using h
  | cons nb doc ih =>
    obtain ⟨n, b⟩ := nb
    intro after before hs hb
    have ih := ih (fun x hx => hw x (by simp [hx]))
    have hwb := hw (n, b) (by simp)
    obtain ⟨hs1, hs2⟩ := hs
    -- the first line of the block, in a mode in which empty lines are ignored
    have main : ∀ before create, (create = (after && b.isParagraph) ∨ b.isParagraph = false) →
        paragraphLines (b.lines ++ (blockLines doc ++ List.replicate last [])) before true create =
          markedLines after ((n, b) :: doc) := by
      intro before create hc
      cases b with
      | element line =>
        have : isTokenLine line = true := (isTokenLine_iff _).mpr hwb
        have := ih false line hs2 (by simp)
        simp_all [TextBlock.lines, markedLines, paragraphLines, TextBlock.isParagraph]
      | paragraph lines =>
        obtain ⟨hne, hl⟩ := hwb
        obtain ⟨l, ls, rfl⟩ := List.exists_cons_of_ne_nil hne
        obtain ⟨h1, h2, _⟩ := hl l (by simp)
        replace h2 := (not_elementLine_iff _).mpr h2
        obtain ⟨b', h3, h4⟩ := paragraphLines_lines ls (fun x hx => ⟨(hl x (by simp [hx])).1, (not_elementLine_iff _).mpr (hl x (by simp [hx])).2.1⟩)
          (blockLines doc ++ List.replicate last []) l h1
        have h5 := ih true b' hs2 (fun _ => h3)
        have hc : create = after := by simpa [TextBlock.isParagraph] using hc
        rw [Bool.not_true] at h5
        simp [TextBlock.lines, markedLines, paragraphLines, h1, h2, h4, h5, hc, TextBlock.isParagraph]
    rw [blockLines, List.append_assoc, List.append_assoc]
    cases after with
    | false =>
      obtain ⟨b', h⟩ := paragraphLines_empty n (b.lines ++ (blockLines doc ++ List.replicate last [])) before false
      rw [Bool.not_false, h]
      exact main b' false (by simp)
    | true =>
      cases n with
      | zero =>
        -- an element directly behind a paragraph
        have hbp : b.isParagraph = false := by
          rw [← Bool.not_eq_true]
          intro h
          exact absurd (hs1 (by simp [h])) (by omega)
        cases b with
        | paragraph _ => simp [TextBlock.isParagraph] at hbp
        | element line =>
          have h1 : isTokenLine line = true := (isTokenLine_iff _).mpr hwb
          have := ih false line hs2 (by simp)
          simp_all [TextBlock.lines, markedLines, paragraphLines, TextBlock.isParagraph]
      | succ n =>
        have hb := hb rfl
        rw [List.replicate_succ, List.cons_append, paragraphLines]
        obtain ⟨b', h⟩ := paragraphLines_empty n (b.lines ++ (blockLines doc ++ List.replicate last [])) [] true
        simp only [show isTokenLine [] = false by decide, Bool.not_true, Bool.false_eq_true, if_false, ne_eq, hb,
          not_false_eq_true, and_self, if_true]
        rw [h]
        refine main b' true ?_
        cases b <;> simp [TextBlock.isParagraph]

/-- **C54**: in an article that consists of paragraphs and elements, with any number of empty lines between them, all
lines are kept in their order, there is exactly one paragraph marker between each two paragraphs that follow one another,
and there is none anywhere else. -/
theorem C54_paragraphs (doc : List (Nat × TextBlock)) (last : Nat) (hw : ∀ b ∈ doc, b.2.WellFormed)
    (hs : SeparatedFrom false doc) (hne : blockLines doc ++ List.replicate last [] ≠ []) :
    parseParagraphs (join b!"\n" (blockLines doc ++ List.replicate last [])) = join b!"\n" (markedLines false doc) := by
  have h10 : ∀ l ∈ blockLines doc ++ List.replicate last [], (10 : UInt8) ∉ l := by
    intro l hl
    rcases List.mem_append.mp hl with hl | hl
    · clear hs hne
      induction doc with
      | nil => simp [blockLines] at hl
      | cons nb doc ih =>
        obtain ⟨n, b⟩ := nb
        simp only [blockLines, List.mem_append] at hl
        rcases hl with (hl | hl) | hl
        · rw [List.eq_of_mem_replicate hl]; simp
        · have := hw (n, b) (by simp)
          cases b with
          | element line => rw [List.mem_singleton.mp hl]; exact ElementLine.oneLine this
          | paragraph lines => exact (this.2 l hl).2.2
        · exact ih (fun x hx => hw x (by simp [hx])) (List.mem_append_left _ hl) hl
    · rw [List.eq_of_mem_replicate hl]; simp
  rw [parseParagraphs, split_join_singleton hne h10]
  congr 1
  exact paragraphLines_blocks doc last hw false [] hs (by simp)

/-- An article with a heading, three paragraphs and an image. -/
def paragraphsDoc : List (Nat × TextBlock) :=
  [(2, .element b!"$$TOKEN_HEADING_0$$"), (1, .paragraph [b!"a", b!"b"]), (3, .paragraph [b!"c"]),
    (1, .element b!"$$TOKEN_IMAGE_1$$"), (1, .paragraph [b!"d"])]

example : (∀ b ∈ paragraphsDoc, b.2.WellFormed) ∧ SeparatedFrom false paragraphsDoc ∧
    markedLines false paragraphsDoc = [b!"$$TOKEN_HEADING_0$$", b!"a", b!"b", b!"$$MARKER_PARAGRAPH$$", b!"c",
      b!"$$TOKEN_IMAGE_1$$", b!"d"] ∧
    parseParagraphs b!"\n\n$$TOKEN_HEADING_0$$\n\na\nb\n\n\n\nc\n\n$$TOKEN_IMAGE_1$$\n\nd" =
      b!"$$TOKEN_HEADING_0$$\na\nb\n$$MARKER_PARAGRAPH$$\nc\n$$TOKEN_IMAGE_1$$\nd" := by
  refine ⟨?_, ?_, by decide +kernel, by decide +kernel⟩
  · simp only [paragraphsDoc, TextBlock.WellFormed, ← isTokenLine_iff, List.forall_mem_cons, List.not_mem_nil, false_implies, implies_true, and_true]
    decide +kernel
  · simp [paragraphsDoc, SeparatedFrom, TextBlock.isParagraph]

end Verif.Props
