import Verif.Lemmas.WikiLinks
import Verif.Model.Article
import Verif.Props.CleanLinks
import Verif.Props.Expand

/-!
# Links (C42)
-/

namespace Verif.Props
open Verif.Go Verif.Model Verif.Spec
open scoped List

/-- **C42**, links to articles: in a text with any number of links `[[name]]`, `[[name|text]]`, `[[name#section|text]]`
each link becomes one token with the name (without section and surrounding space) and the given text, or the name if there
is none; the text around the links is not changed. `rec` is what tokenizes the text of the link. What is missing: links
without name and text (see `C42_empty_link_crashes`), unclosed links, and texts of links that end with a bracket. -/
theorem C42_links_to_articles_partial (env : ParserEnv) (rec : Rec) (hp : PlainPrefixes env) (first : Str)
    (links : List (WikiLink × Str)) (hf : LinkFree first) (hl : ∀ x ∈ links, x.1.WellFormed env ∧ LinkFree x.2) :
    parseInternalLinks env rec (first ++ linkedText links) = (do
      let r ← tokenizedLinks rec links
      pure (first ++ r)) :=
  parseInternalLinks_doc rec hp first links hf hl

/-- **C42**, links to web pages: in a text with any number of single brackets each link `[http://… text]` or
`[https://… text]` becomes one token with the address and the text, all other brackets stay as they are. What is missing:
brackets that are not closed (see `C42_bracket_is_added`), links with other protocols (see
`C28_text_of_unknown_links_is_lost`). -/
theorem C42_links_to_web_pages_partial (env : ParserEnv) (rec : Rec) (first : Str) (brackets : List (Bracket × Str))
    (hf : (0x5B : Byte) ∉ first) (hl : ∀ x ∈ brackets, x.1.WellFormed env ∧ (0x5B : Byte) ∉ x.2) :
    parseExternalLinks env rec (first ++ bracketText brackets) = (do
      let r ← tokenizedBrackets rec brackets
      pure (first ++ r)) :=
  parseExternalLinks_doc rec first brackets hf hl

/-- The part of a text between opening brackets (which are in front of it) and the next closing brackets. -/
def linkInner (item : Str) : Str := (splitHead item b!"]]").1

/-- Neither a name nor a text is given. -/
def NothingToShow (inner : Str) : Prop := (0x7C : Byte) ∉ inner ∧ trimSpace ((splitN b!"#" 2 inner).headD []) = []

/-- **C42**, crashes: if no link in the text is without name and text, the parser of links does not crash, whatever the
text is, closed or not. -/
theorem C42_crashes_only_for_empty_links_partial (env : ParserEnv) (rec : Rec) (hr : ∀ t s, rec t s ≠ some .panic)
    (content : Str) (h : ∀ item ∈ (split content b!"[[").tail, ¬ NothingToShow (linkInner item)) (s : TokState) :
    parseInternalLinks env rec content s ≠ some .panic := by
  have hseg : ∀ item, ¬ NothingToShow (linkInner item) → ∀ s, linkSegment env rec internalSyntax item s ≠ some .panic := by
    intro item hi s
    rw [linkSegment]
    split
    · intro hc; cases hc
    · have hx : ∃ o, linkText internalSyntax (linkTarget internalSyntax
          (splitHead (splitHead item internalSyntax.closing).1 internalSyntax.delimiter).1)
          (splitHead (splitHead item internalSyntax.closing).1 internalSyntax.delimiter).2 = .ok o := by
        unfold linkText
        split
        · rename_i ho
          split
          · exact ⟨_, rfl⟩
          · split
            · rename_i ht
              exfalso
              apply hi
              have hn : (0x7C : Byte) ∉ linkInner item := by
                intro hm
                obtain ⟨a, b, hab, ha⟩ := exists_first_char hm
                have e : splitHead (splitHead item internalSyntax.closing).1 internalSyntax.delimiter =
                    (a, split b b!"|") := by
                  show (match split (linkInner item) b!"|" with | [] => ([], []) | p :: ps => (p, ps)) = _
                  rw [hab, split_singleton_append b ha]
                rw [e] at ho
                exact split_ne_nil b (by simp) ho
              refine ⟨hn, ?_⟩
              have e : splitHead (splitHead item internalSyntax.closing).1 internalSyntax.delimiter =
                  (linkInner item, []) := by
                show (match split (linkInner item) b!"|" with | [] => ([], []) | p :: ps => (p, ps)) = _
                rw [split_singleton_of_not_mem hn]
              rw [e] at ht
              exact ht
            · split <;> exact ⟨_, rfl⟩
        · exact ⟨_, rfl⟩
      obtain ⟨o, ho⟩ := hx
      simp only [ho, TokM.lift_ok, pure_bind]
      cases o with
      | none => intro hc; cases hc
      | some text =>
        simp only [linkKey, linkToken, internalSyntax, if_true, bind_assoc, pure_bind]
        intro hc
        generalize ht : rec text s = r at *
        have := hr text s
        rcases hcase : rec text s with _ | r'
        · simp only [Bind.bind, hcase] at hc; cases hc
        · cases r' with
          | ok p => simp only [Bind.bind, hcase] at hc; cases hc
          | err => simp only [Bind.bind, hcase] at hc; cases hc
          | panic => exact this hcase
          | fatal => simp only [Bind.bind, hcase] at hc; cases hc
  have hsegs : ∀ (items : List Str), (∀ item ∈ items, ¬ NothingToShow (linkInner item)) →
      ∀ s, linkSegments env rec internalSyntax items s ≠ some .panic := by
    intro items
    induction items with
    | nil => intro _ s hc; cases hc
    | cons item items ih =>
      intro hi s hc
      have h1 := hseg item (hi item (by simp)) s
      have h2 := ih fun x hx => hi x (by simp [hx])
      rw [linkSegments] at hc
      rcases hcase : linkSegment env rec internalSyntax item s with _ | r'
      · simp only [Bind.bind, hcase] at hc; cases hc
      · cases r' with
        | ok p =>
          have h2 := h2 p.2
          simp only [Bind.bind, hcase] at hc
          rcases hcase2 : linkSegments env rec internalSyntax items p.2 with _ | r2
          · simp only [hcase2] at hc; cases hc
          · cases r2 with
            | panic => exact h2 hcase2
            | ok q => simp only [hcase2] at hc; cases hc
            | err => simp only [hcase2] at hc; cases hc
            | fatal => simp only [hcase2] at hc; cases hc
        | panic => exact h1 hcase
        | err => simp only [Bind.bind, hcase] at hc; cases hc
        | fatal => simp only [Bind.bind, hcase] at hc; cases hc
  intro hc
  rw [parseInternalLinks, parseLink] at hc
  have ht : (splitHead content internalSyntax.opening).2 = (split content b!"[[").tail := by
    show (match split content b!"[[" with | [] => ([], []) | p :: ps => (p, ps)).2 = _
    cases split content b!"[[" <;> rfl
  have h3 := hsegs (splitHead content internalSyntax.opening).2 (by rw [ht]; exact h) s
  rcases hcase : linkSegments env rec internalSyntax (splitHead content internalSyntax.opening).2 s with _ | r
  · simp only [Bind.bind, hcase] at hc; cases hc
  · cases r with
    | panic => exact h3 hcase
    | ok q => simp only [Bind.bind, hcase] at hc; cases hc
    | err => simp only [Bind.bind, hcase] at hc; cases hc
    | fatal => simp only [Bind.bind, hcase] at hc; cases hc

/-- The names of files in the default configuration are plain. -/
theorem exampleEnv_plain : PlainPrefixes exampleEnv := by
  intro x hx
  have hl : exampleEnv.config.list .filePrefixes = [b!"file", b!"image", b!"media"] := by decide +kernel
  rw [hl] at hx
  have key : ∀ c : Byte, c ∈ x → lowerByte c ∈ exampleEnv.lower x := fun c hc => List.mem_map_of_mem hc
  refine ⟨fun hm => ?_, fun hm => ?_, fun hm => ?_⟩ <;>
  · have := key _ hm
    simp only [List.mem_cons, List.not_mem_nil, or_false] at hx
    rcases hx with h | h | h <;> rw [h] at this <;> revert this <;> decide

/-- A text with four links. -/
def linkDoc : List (WikiLink × Str) :=
  [(⟨b!"Go", none, none⟩, b!" and "), (⟨b!" Lean ", some b!"History", some b!"a|b"⟩, b!"s, [1] "),
    (⟨b!":Category:Foo", none, none⟩, b!""), (⟨b!"a:b", none, some b!"[x"⟩, b!" end: ]]")]

example : LinkFree b!"See " ∧ (∀ x ∈ linkDoc, x.1.WellFormed exampleEnv ∧ LinkFree x.2) ∧
    b!"See " ++ linkedText linkDoc =
      b!"See [[Go]] and [[ Lean #History|a|b]]s, [1] [[:Category:Foo]][[a:b|[x]] end: ]]" ∧
    linkDoc.map (fun x => (x.1.target, x.1.shown)) =
      [(b!"Go", b!"Go"), (b!"Lean", b!"a|b"), (b!":Category:Foo", b!"Foo"), (b!"a:b", b!"[x")] := by
  have hl : exampleEnv.config.list .filePrefixes = [b!"file", b!"image", b!"media"] := by decide +kernel
  refine ⟨by unfold LinkFree; decide, ?_, by decide, by decide +kernel⟩
  intro x hx
  simp only [linkDoc, List.mem_cons, List.not_mem_nil, or_false] at hx
  rcases hx with rfl | rfl | rfl | rfl
  all_goals
    refine ⟨⟨by decide, ?_, ?_, by decide +kernel, ?_⟩, by unfold LinkFree; decide⟩
    · intro s hs
      cases hs <;> decide
    · intro s hs
      cases hs <;> decide
    · rw [NoFile, hl]; decide +kernel

/-- A text with two brackets that are links and two that are not. -/
def bracketDoc : List (Bracket × Str) :=
  [(.web b!"https://go.dev/a" b!"the language", b!" (see "), (.other b!"1", b!"): "), (.other b!"a b", b!""),
    (.web b!"http://x" b!"", b!"] ")]

example : (∀ x ∈ bracketDoc, x.1.WellFormed exampleEnv ∧ (0x5B : Byte) ∉ x.2) ∧
    bracketText bracketDoc = b!"[https://go.dev/a the language] (see [1]): [a b][http://x ]] " := by
  have hl : exampleEnv.config.list .filePrefixes = [b!"file", b!"image", b!"media"] := by decide +kernel
  refine ⟨?_, by decide⟩
  intro x hx
  simp only [bracketDoc, List.mem_cons, List.not_mem_nil, or_false] at hx
  rcases hx with rfl | rfl | rfl | rfl
  · refine ⟨⟨by decide, by decide, by decide +kernel, by decide, ?_⟩, by decide⟩
    rw [NoFile, hl]; decide +kernel
  · exact ⟨⟨by decide, by decide⟩, by decide⟩
  · exact ⟨⟨by decide, by decide⟩, by decide⟩
  · refine ⟨⟨by decide, by decide, by decide +kernel, by decide, ?_⟩, by decide⟩
    rw [NoFile, hl]; decide +kernel

/-- **C42** is false for links without name: the program crashes. -/
theorem C42_empty_link_crashes :
    articleBody exampleEnv htmlEnv 20 b!"a [[]]" = some .panic ∧
    articleBody exampleEnv htmlEnv 20 b!"a [[#History]]" = some .panic := by
  decide +kernel

/-- **C42**: a bracket that is not closed is closed behind the text. -/
theorem C42_bracket_is_added :
    articleBody exampleEnv htmlEnv 20 b!"see [a b" = some (.ok b!"see [a b]") := by
  decide +kernel

end Verif.Props
