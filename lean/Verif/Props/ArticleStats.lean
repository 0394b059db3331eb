import Verif.Lemmas.ArticleStats
import Verif.Props.Expand

/-!
# Statistics of an article (C56)
-/

namespace Verif.Props
open Verif.Go Verif.Model Verif.Spec
open scoped List

theorem countWords_eq (isWord : Nat → Bool) (runes : List Nat) (inWord : Bool) :
    countWords isWord runes inWord =
      ((inWord :: runes.map isWord).zip (runes.map isWord)).countP fun p => !p.1 && p.2 := by
  induction runes generalizing inWord with
  | nil => rfl
  | cons r rest ih =>
    rw [countWords]
    simp only [List.map_cons, List.zip_cons_cons, List.countP_cons]
    cases h : isWord r <;> cases inWord <;> simp [ih]
    omega

/-- **C56** (partly): the statistics of an article count exactly what a reader comes across: links, images, formulas,
references, the links to each article, and the characters and words of all texts, on all levels of nesting (links in
captions in tables and so on); the reading time is the number of words divided by the speed. `items` are the texts and
tokens of the article in the order of reading. What is missing: the text of nowiki sections, and lists within lists, see
below. -/
theorem C56_statistics_count_what_is_in_the_article_partial (env : RuneEnv) (hr : env.runes [] = [])
    (tokens : List (Str × Token)) (instance' title content : Str) (items : List ReadItem)
    (h : Shows tokens [withoutMarkers content] items) (hc : ∀ t, .token t ∈ items → Countable t) :
    ∃ steps, ∀ fuel, steps ≤ fuel → ∃ s, articleStats env tokens fuel instance' title content = some (.ok s) ∧
      s.articleName = title ∧
      s.numberOfInternalLinks = howMany items isInternalLink ∧
      s.numberOfExternalLinks = howMany items isExternalLink ∧
      s.numberOfImages = howMany items isImage ∧
      s.numberOfMath = howMany items isMath ∧
      s.numberOfRefDefinitions = howMany items isRefDefinition ∧
      s.numberOfRefUsages = howMany items isRefUsage ∧
      (∀ name, s.internalLinks.get name = howMany items (isLinkTo name)) ∧
      s.numberOfCharacters = ((textsOf items).map fun t => ((env.runes t).length : Int)).sum ∧
      s.numberOfWords = ((textsOf items).map fun t => (wordStarts env.letterOrNumber (env.runes t) : Int)).sum ∧
      s.estimatedReadingTimeMinutes = s.numberOfWords / wordsPerMinute instance' := by
  obtain ⟨N, hN⟩ := statsString_counted h hc
  refine ⟨N, fun fuel hf => ?_⟩
  obtain ⟨events, e1, e2⟩ := hN fuel hf
  have count : ∀ (field : ArticleStats → Int) (w : StatEvent → Int) (kind : Token → Bool) (s : ArticleStats),
      (∀ s e, field (applyEvent env s e) = field s + w e) → (∀ s, w (.text s) = 0) →
      (∀ t, eventSum w (ownEvents t) = if kind t then 1 else 0) → field s = 0 →
      field (events.foldl (applyEvent env) s) = howMany items kind := by
    intro field w kind s h1 h2 h3 h4
    rw [foldl_applyEvent env h1, h4, eventSum_congr (h2 []) e2, eventSum_howMany w kind h2 h3]
    simp
  have sum : ∀ (field : ArticleStats → Int) (w : StatEvent → Int) (f : Str → Int) (s : ArticleStats),
      (∀ s e, field (applyEvent env s e) = field s + w e) → (∀ s, w (.text s) = f s) → f [] = 0 →
      (∀ t, eventSum w (ownEvents t) = 0) → field s = 0 →
      field (events.foldl (applyEvent env) s) = ((textsOf items).map f).sum := by
    intro field w f s h1 h2 h3 h4 h5
    rw [foldl_applyEvent env h1, h5, eventSum_congr (by rw [h2, h3]) e2, eventSum_texts w f h2 h4]
    simp
  refine ⟨{ events.foldl (applyEvent env) { articleName := title } with
    estimatedReadingTimeMinutes := Int.tdiv (events.foldl (applyEvent env) { articleName := title }).numberOfWords
      (wordsPerMinute instance') }, ?_, ?_⟩
  · unfold articleStats
    rw [e1]
    rfl
  have hn : ∀ s : ArticleStats, (events.foldl (applyEvent env) s).articleName = s.articleName := by
    clear e1 e2 count sum
    induction events with
    | nil => exact fun _ => rfl
    | cons e events ih =>
      intro s
      rw [List.foldl_cons, ih]
      cases e <;> rfl
  have hw := sum (·.numberOfWords) (fun | .text t => countWords env.letterOrNumber (env.runes t) false | _ => 0)
      (fun t => (wordStarts env.letterOrNumber (env.runes t) : Int)) { articleName := title }
      (fun s e => by cases e <;> simp [applyEvent]) (fun t => countWords_eq _ _ _) (by simp [hr, wordStarts])
      (fun t => by cases t <;> simp [ownEvents, eventSum]) rfl
  refine ⟨hn _, ?_, ?_, ?_, ?_, ?_, ?_, ?_, ?_, hw, ?_⟩
  · exact count (·.numberOfInternalLinks) (fun | .internalLink _ => 1 | _ => 0) isInternalLink _
      (fun s e => by cases e <;> simp [applyEvent]) (fun _ => rfl)
      (fun t => by cases t <;> simp [ownEvents, eventSum, isInternalLink]) rfl
  · exact count (·.numberOfExternalLinks) (fun | .externalLink => 1 | _ => 0) isExternalLink _
      (fun s e => by cases e <;> simp [applyEvent]) (fun _ => rfl)
      (fun t => by cases t <;> simp [ownEvents, eventSum, isExternalLink]) rfl
  · exact count (·.numberOfImages) (fun | .image => 1 | _ => 0) isImage _
      (fun s e => by cases e <;> simp [applyEvent]) (fun _ => rfl)
      (fun t => by cases t <;> simp [ownEvents, eventSum, isImage]) rfl
  · exact count (·.numberOfMath) (fun | .math => 1 | _ => 0) isMath _
      (fun s e => by cases e <;> simp [applyEvent]) (fun _ => rfl)
      (fun t => by cases t <;> simp [ownEvents, eventSum, isMath]) rfl
  · exact count (·.numberOfRefDefinitions) (fun | .refDefinition => 1 | _ => 0) isRefDefinition _
      (fun s e => by cases e <;> simp [applyEvent]) (fun _ => rfl)
      (fun t => by cases t <;> simp [ownEvents, eventSum, isRefDefinition]) rfl
  · exact count (·.numberOfRefUsages) (fun | .refUsage => 1 | _ => 0) isRefUsage _
      (fun s e => by cases e <;> simp [applyEvent]) (fun _ => rfl)
      (fun t => by cases t <;> simp [ownEvents, eventSum, isRefUsage]) rfl
  · intro name
    exact count (·.internalLinks.get name) (fun | .internalLink n => if n = name then 1 else 0 | _ => 0) (isLinkTo name) _
      (fun s e => by cases e <;> simp [applyEvent, Counts.get_add]) (fun _ => rfl)
      (fun t => by cases t <;> simp [ownEvents, eventSum, isLinkTo]) rfl
  · exact sum (·.numberOfCharacters) (fun | .text t => ((env.runes t).length : Int) | _ => 0)
      (fun t => ((env.runes t).length : Int)) _
      (fun s e => by cases e <;> simp [applyEvent]) (fun _ => rfl) (by simp [hr])
      (fun t => by cases t <;> simp [ownEvents, eventSum]) rfl
  · show Int.tdiv _ _ = _
    rw [Int.tdiv_eq_ediv_of_nonneg]
    rw [hw]
    generalize textsOf items = texts
    induction texts with
    | nil => exact Int.le_refl 0
    | cons t texts ih =>
      rw [List.map_cons, List.sum_cons]
      omega

/-- The reading speed is a sensible number of words per minute for every language, also for unknown ones. -/
theorem C56_reading_speed (instance' : Str) : 161 ≤ wordsPerMinute instance' ∧ wordsPerMinute instance' ≤ 228 := by
  have ite : ∀ (c : Prop) [Decidable c] (a b : Int), 161 ≤ a ∧ a ≤ 228 → 161 ≤ b ∧ b ≤ 228 →
      161 ≤ (if c then a else b) ∧ (if c then a else b) ≤ 228 := by
    intro c _ a b ha hb
    by_cases hc : c
    · rwa [if_pos hc]
    · rwa [if_neg hc]
  unfold wordsPerMinute
  repeat' first | exact ⟨by decide, by decide⟩ | apply ite

/-- **C56** (partly): the reading speed is the one of the language. Missing: Japanese and Swedish, see below. -/
theorem C56_reading_speed_of_the_language_partial (language : Str) (h : language ∉ [b!"ja", b!"sv", b!"jp", b!"se"]) :
    wordsPerMinute language = readingSpeed language := by
  simp only [List.mem_cons, List.not_mem_nil, or_false, not_or] at h
  obtain ⟨h1, h2, h3, h4⟩ := h
  by_cases hm : language ∈ readingSpeeds.map Prod.fst
  · have key : ∀ l ∈ readingSpeeds.map Prod.fst, l ≠ b!"ja" → l ≠ b!"sv" → wordsPerMinute l = readingSpeed l := by decide
    exact key _ hm h1 h2
  · have hn : readingSpeeds.lookup language = none := by
      rw [List.lookup_eq_none_iff]
      intro p hp
      have : language ≠ p.1 := fun e => hm (List.mem_map.mpr ⟨p, hp, e.symm⟩)
      simpa using this
    rw [readingSpeed, hn]
    simp only [readingSpeeds, List.map_cons, List.map_nil, List.mem_cons, List.not_mem_nil, or_false, not_or] at hm
    obtain ⟨a1, a2, a3, a4, a5, a6, a7, a8, a9, a10, a11, a12, a13, a14, a15⟩ := hm
    simp only [wordsPerMinute, a1, a2, a3, a4, a5, a6, a7, a9, a10, a11, a12, a13, a15, h3, h4, if_false]
    rfl

example : b!"fr" ∉ [b!"ja", b!"sv", b!"jp", b!"se"] ∧ readingSpeed b!"fr" = 195 := by decide

/-- **C56** is false for Japanese and Swedish: the program looks for "jp" and "se", which are not the codes of these
Wikipedias ("se" is the one in Northern Sami). -/
theorem C56_japanese_and_swedish_get_the_average :
    wordsPerMinute b!"ja" = 183 ∧ readingSpeed b!"ja" = 193 ∧ wordsPerMinute b!"sv" = 183 ∧ readingSpeed b!"sv" = 199 := by
  decide

/-- The tokenizer followed by the statistics, on a cleaned text without templates. -/
def statisticsOf (env : ParserEnv) (runes : RuneEnv) (fuel : Nat) (instance' title content : Str) : Option (Res ArticleStats) :=
  match tokenizeContent env fuel content TokState.initial with
  | none => none
  | some (.ok (text, s)) => articleStats runes s.tokenMap fuel instance' title text
  | some .err => some .err
  | some .panic => some .panic
  | some .fatal => some .fatal

/-- Runes for texts in ASCII. -/
def asciiRunes : RuneEnv where
  runes := fun s => s.map UInt8.toNat
  letterOrNumber := fun r => (48 ≤ r && r ≤ 57) || (65 ≤ r && r ≤ 90) || (97 ≤ r && r ≤ 122)

/-- A number of the statistics. -/
def numberOf (f : ArticleStats → Int) : Option (Res ArticleStats) → Option Int
  | some (.ok s) => some (f s)
  | _ => none

/-- What is not counted: links, images and texts in lists within lists, and the text of nowiki sections. A link with
letters behind it, which readers see as one word, counts as two. -/
theorem C56_nested_lists_are_not_counted :
    numberOf (·.numberOfInternalLinks) (statisticsOf tokenizerEnv asciiRunes 60 b!"en" b!"T" b!"* [[Paris]]\n** [[London]]") = some 1 ∧
    numberOf (·.numberOfCharacters) (statisticsOf tokenizerEnv asciiRunes 60 b!"en" b!"T" b!"<nowiki>abc</nowiki>") = some 0 ∧
    numberOf (·.numberOfWords) (statisticsOf tokenizerEnv asciiRunes 60 b!"en" b!"T" b!"two [[house]]s") = some 3 := by
  decide +kernel

/-- A link in the caption of an image in a text with bold words. -/
def statsTokens : List (Str × Token) :=
  [(b!"$$TOKEN_IMAGE_1$$", .image b!"a.jpg" (b!"see " ++ tokenKey b!"INTERNAL_LINK" 0) 0 0),
   (b!"$$TOKEN_INTERNAL_LINK_0$$", .internalLink b!"Paris" b!"the city")]

def statsText : Str := b!"A $$MARKER_BOLD_OPEN$$bold$$MARKER_BOLD_CLOSE$$ word" ++ tokenKey b!"IMAGE" 1

example : Shows statsTokens [withoutMarkers statsText]
    [.text b!"A bold word", .token (.image b!"a.jpg" (b!"see " ++ tokenKey b!"INTERNAL_LINK" 0) 0 0), .text b!"see ",
      .token (.internalLink b!"Paris" b!"the city"), .text b!"the city", .text b!"", .text b!""] ∧
    (∀ t, .token t ∈ [ReadItem.text b!"A bold word", .token (.image b!"a.jpg" (b!"see " ++ tokenKey b!"INTERNAL_LINK" 0) 0 0), .text b!"see ",
      .token (.internalLink b!"Paris" b!"the city"), .text b!"the city", .text b!"", .text b!""] → Countable t) := by
  have un : ∀ {t : Str}, contains t b!"$$" = false → hasSuffix t b!"$" = false → hasPrefix t b!"M" = false →
    hasPrefix t b!"$M" = false → Unambiguous t := unambiguous_of
  have ni : ∀ {t : Str}, contains t b!"$$" = false → ¬ b!"$$" <:+: t := fun h => contains_eq_false_iff.mp h
  have k0 : lookupToken statsTokens (tokenKey b!"INTERNAL_LINK" 0) = some (.internalLink b!"Paris" b!"the city") := by
    rw [show tokenKey b!"INTERNAL_LINK" 0 = b!"$$TOKEN_INTERNAL_LINK_0$$" by decide +kernel]; rfl
  have k1 : lookupToken statsTokens (tokenKey b!"IMAGE" 1) =
      some (.image b!"a.jpg" (b!"see " ++ tokenKey b!"INTERNAL_LINK" 0) 0 0) := by
    rw [show tokenKey b!"IMAGE" 1 = b!"$$TOKEN_IMAGE_1$$" by decide +kernel]; rfl
  have e0 : withoutMarkers statsText = b!"A bold word" ++ tokenKey b!"IMAGE" 1 ++ b!"" := by decide +kernel
  have e1 : (tokenTexts (.image b!"a.jpg" (b!"see " ++ tokenKey b!"INTERNAL_LINK" 0) 0 0)).map withoutMarkers =
      [b!"see " ++ tokenKey b!"INTERNAL_LINK" 0 ++ b!""] := by decide +kernel
  have e2 : (tokenTexts (.internalLink b!"Paris" b!"the city")).map withoutMarkers = [b!"the city"] := by decide +kernel
  refine ⟨?_, ?_⟩
  · rw [e0]
    refine .token (inner := [.text b!"see ", .token (.internalLink b!"Paris" b!"the city"), .text b!"the city", .text b!""])
      (items := [.text b!""]) (un (by decide) (by decide) (by decide) (by decide)) (by decide) k1 ?_ (.last (ni (by decide)) .nil)
    rw [e1]
    refine .token (inner := [.text b!"the city"]) (items := [.text b!""]) (un (by decide) (by decide) (by decide) (by decide))
      (by decide) k0 ?_ (.last (ni (by decide)) .nil)
    rw [e2]
    exact .last (ni (by decide)) .nil
  · intro t ht
    simp only [List.mem_cons, List.not_mem_nil, reduceCtorEq, ReadItem.token.injEq, false_or, or_false] at ht
    rcases ht with rfl | rfl <;> trivial

end Verif.Props
