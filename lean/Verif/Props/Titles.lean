import Verif.Spec.Titles
import Verif.Props.Addresses
import Verif.Props.Epub
import Verif.Model.ArticleText

/-!
# C90: the title of a page
-/

namespace Verif.Props
open Verif.Go Verif.Model Verif.Spec Verif.Lemmas
open scoped List

theorem textValue_length {raw value : Str} (h : TextValue raw value) :
    value.length ≤ raw.length ∧ (value.length = raw.length → ∀ c ∈ value, c ∉ b!"&<") := by
  induction h with
  | nil => simp
  | char hc _ ih =>
    refine ⟨by simpa using ih.1, fun e c hm => ?_⟩
    rcases List.mem_cons.mp hm with rfl | hm
    · exact hc
    · exact ih.2 (by simpa using e) c hm
  | reference hr _ ih =>
    have := reference_longer hr
    simp only [List.length_append, List.length_cons, List.length_nil]
    exact ⟨by omega, fun e => by omega⟩

theorem reference_no_tag {name char : Str} (h : CharacterReference name char) : (0x3C : Byte) ∉ name := by
  cases h with
  | named h =>
    simp only [List.mem_cons, Prod.mk.injEq, List.not_mem_nil, or_false] at h
    rcases h with ⟨rfl, _⟩ | ⟨rfl, _⟩ | ⟨rfl, _⟩ | ⟨rfl, _⟩ | ⟨rfl, _⟩ <;> decide
  | decimal hne hd =>
    intro hm
    rcases List.mem_append.mp hm with hm | hm
    · revert hm; decide
    · exact absurd (hd _ hm).2 (by decide)
  | hex hne hd =>
    intro hm
    rcases List.mem_append.mp hm with hm | hm
    · revert hm; decide
    · rcases hd _ hm with h | h | h
      · exact absurd h.2 (by decide)
      · exact absurd h.1 (by decide)
      · exact absurd h.1 (by decide)

theorem textValue_no_tag {raw value : Str} (h : TextValue raw value) : (0x3C : Byte) ∉ raw := by
  induction h with
  | nil => simp
  | char hc _ ih =>
    intro hm
    rcases List.mem_cons.mp hm with rfl | hm
    · exact hc (by decide)
    · exact ih hm
  | reference hr _ ih =>
    intro hm
    simp only [List.mem_append] at hm
    rcases hm with ((hm | hm) | hm) | hm
    · revert hm; decide
    · exact reference_no_tag hr hm
    · revert hm; decide
    · exact ih hm

theorem textValue_plain : ∀ {t : Str}, (∀ c ∈ t, c ∉ b!"&<") → TextValue t t
  | [], _ => .nil
  | _ :: _, h => .char (h _ (by simp)) (textValue_plain fun c hc => h c (by simp [hc]))

/-- **C90**: a reader of the page of an article finds the title of the article as the first heading if and only if there is no `&` and no `<`
in the title, for all articles. -/
theorem C90_titles_partial (env : ParserEnv) (templates : TemplateEnv) (iterate : Nat → List (Str × Str) → List (Str × Str)) (html : HtmlEnv)
    (fuel : Nat) (style title content page : Str) (hs : ¬ b!"<h1>" <:+: style)
    (h : articleHtml env templates iterate html fuel style title content = some (.ok page)) :
    FirstHeading page title ↔ ∀ c ∈ title, c ∉ b!"&<" := by
  obtain ⟨rest, rfl⟩ : ∃ rest, page = (htmlHeader style ++ b!"\n") ++ b!"<h1>" ++ (title ++ b!"</h1>" ++ rest) := by
    rw [articleHtml] at h
    split at h
    · next text s _ =>
      rw [generateHtml] at h
      cases hb : expandString html s.tokenMap fuel text with
      | none => rw [hb] at h; cases h
      | some r =>
        rw [hb] at h
        cases r with
        | ok body =>
          have := Res.ok.inj (Option.some.inj h)
          exact ⟨b!"\n" ++ body ++ htmlFooter, by rw [← this]; simp⟩
        | err => cases h
        | panic => cases h
        | fatal => cases h
    all_goals cases h
  have n1 : NoBorder (b!"<h1>" : Str) := by decide
  have hcut := n1.cut_append (title ++ b!"</h1>" ++ rest) (not_h1_header hs)
  unfold FirstHeading
  rw [hcut]
  constructor
  · rintro ⟨before, raw, rest', e, hv⟩
    have e := (Prod.mk.inj (Option.some.inj e)).2
    obtain ⟨hle, heq⟩ := textValue_length hv
    refine heq (Nat.le_antisymm hle (Nat.le_of_not_lt fun hlt => ?_))
    have h1 : (title ++ b!"</h1>" ++ rest)[title.length]? = some 0x3C := by simp
    rw [e, List.append_assoc, List.getElem?_append_left hlt] at h1
    exact textValue_no_tag hv (List.mem_of_getElem? h1)
  · intro hc
    exact ⟨_, title, rest, rfl, textValue_plain hc⟩

/-- **C90** is false of the code: no reader of XML finds the title of the article about the company AT&T. -/
theorem C90_ampersands_in_titles_are_not_escaped (style page : Str) (hs : ¬ b!"<h1>" <:+: style)
    (h : articleHtml tokenizerEnv exampleTemplates (fun _ l => l) htmlEnv 60 style b!"AT&T" b!"A company" = some (.ok page)) :
    ¬ FirstHeading page b!"AT&T" := by
  rw [C90_titles_partial _ _ _ _ _ _ _ _ _ hs h]
  exact fun hc => hc 0x26 (by decide) (by decide)

example : ∃ page, articleHtml tokenizerEnv exampleTemplates (fun _ l => l) htmlEnv 60 b!"style.css" b!"AT&T" b!"A company" = some (.ok page) ∧
    ¬ b!"<h1>" <:+: b!"style.css" := by
  refine ⟨htmlHeader b!"style.css" ++ b!"\n<h1>AT&T</h1>\nA company" ++ htmlFooter, by decide +kernel, by decide⟩

end Verif.Props
