import Verif.Props.Epub
import Verif.Model.ArticleText

/-!
# Failures while the e-book is made (C80)
-/

namespace Verif.Props
open Verif.Go Verif.Model Verif.Spec
open scoped List

/-- The text has a heading of the first level. -/
def HasTitle (content : Str) : Prop :=
  ∃ before title after : Str, content = before ++ b!"<h1>" ++ title ++ b!"</h1>" ++ after

/-- The calls of the library that give an error back to the program. -/
def CanFail : EpubCall → Prop
  | .setAuthor _ | .setLang _ | .setTitle _ | .embedImages => False
  | _ => True

/-- Each call that gives an error back has succeeded after the calls before it. -/
def AllSucceeded (env : EpubEnv) (calls : List EpubCall) : Prop :=
  ∀ before call after, calls = before ++ call :: after → CanFail call → env.succeeds before call = true

/-- Something the program reads or calls has failed. -/
def Failure (env : EpubEnv) (files : List Str) : Prop :=
  (∃ file ∈ files, env.readFile file = none) ∨ ∃ before call, CanFail call ∧ env.succeeds before call = false

theorem sectionTitle_of_hasTitle {content : Str} (h : HasTitle content) : ∃ title, sectionTitle content = .ok title := by
  obtain ⟨before, title, after, rfl⟩ := h
  unfold sectionTitle
  generalize h1 : cut (b!"<h1>" : Str) (before ++ b!"<h1>" ++ title ++ b!"</h1>" ++ after) = r
  rcases r with _ | ⟨a, rest⟩
  · exfalso
    rw [cut_eq_none (by decide)] at h1
    exact h1 ⟨before, title ++ b!"</h1>" ++ after, by simp⟩
  · dsimp only
    generalize h2 : cut (b!"</h1>" : Str).reverse rest.reverse = r
    rcases r with _ | ⟨c, d⟩
    · exfalso
      rw [cut_eq_none (by decide), List.reverse_infix] at h2
      have e := cut_eq_some h1
      have n := not_infix_of_cut (by decide) h1
      -- the first heading begins not after the given one
      have hlen : a.length ≤ before.length := by
        by_contra hl
        apply n
        have hp : before ++ b!"<h1>" <+: a ++ b!"<h1>" := by
          apply List.prefix_of_prefix_length_le (l₃ := before ++ b!"<h1>" ++ title ++ b!"</h1>" ++ after)
          · exact ⟨title ++ b!"</h1>" ++ after, by simp⟩
          · rw [e]; exact ⟨rest, rfl⟩
          · simp only [List.length_append]; omega
        by_cases hl4 : before.length + 4 ≤ a.length
        · have hp2 : before ++ b!"<h1>" <+: a := by
            apply List.prefix_of_prefix_length_le hp (List.prefix_append _ _)
            simpa using hl4
          obtain ⟨t, ht⟩ := hp2
          exact ⟨before, t, ht⟩
        · exfalso
          -- the two headings would overlap
          have hba : before <+: a := by
            apply List.prefix_of_prefix_length_le ((List.prefix_append _ _).trans hp) (List.prefix_append _ _)
            omega
          obtain ⟨x, rfl⟩ := hba
          rw [List.append_assoc, List.prefix_append_right_inj] at hp
          simp only [List.length_append] at hl hl4
          rcases x with _ | ⟨x1, _ | ⟨x2, _ | ⟨x3, _ | ⟨x4, x⟩⟩⟩⟩
          · simp at hl
          case cons.cons.cons.cons => simp only [List.length_cons] at hl4; omega
          all_goals
            simp only [List.cons_append, List.nil_append, List.cons_prefix_cons] at hp
            revert hp
            simp (decide := true)
      apply h2
      have hrest : title ++ b!"</h1>" ++ after <:+ rest := by
        apply List.suffix_of_suffix_length_le (l₃ := before ++ b!"<h1>" ++ title ++ b!"</h1>" ++ after)
        · exact ⟨before ++ b!"<h1>", by simp⟩
        · rw [e]; exact ⟨a ++ b!"<h1>", rfl⟩
        · have := congrArg List.length e
          simp only [List.length_append] at this ⊢
          omega
      have hi : b!"</h1>" <:+: title ++ b!"</h1>" ++ after := ⟨title, after, rfl⟩
      exact List.IsInfix.trans hi hrest.isInfix
    · exact ⟨_, rfl⟩

/-- What a step of the generation may end with. -/
def StepEnds (env : EpubEnv) (files : List Str) (r : Res (List EpubCall)) : Prop :=
  (∃ calls, r = .ok calls ∧ AllSucceeded env calls) ∨ (r = .err ∧ Failure env files) ∨
    (r = .panic ∧ ∃ file ∈ files, ∃ content, env.readFile file = some content ∧ ¬ HasTitle content)

theorem StepEnds.bind {env : EpubEnv} {files : List Str} {r : Res (List EpubCall)} {f : List EpubCall → Res (List EpubCall)}
    (h : StepEnds env files r) (hf : ∀ calls, AllSucceeded env calls → StepEnds env files (f calls)) :
    StepEnds env files (r >>= f) := by
  rcases h with ⟨calls, rfl, hc⟩ | ⟨rfl, hc⟩ | ⟨rfl, hc⟩
  · exact hf calls hc
  · exact .inr (.inl ⟨rfl, hc⟩)
  · exact .inr (.inr ⟨rfl, hc⟩)

theorem AllSucceeded.snoc {env : EpubEnv} {calls : List EpubCall} {call : EpubCall} (h : AllSucceeded env calls)
    (hc : CanFail call → env.succeeds calls call = true) : AllSucceeded env (calls ++ [call]) := by
  intro before c after e hf
  rcases List.eq_nil_or_concat after with rfl | ⟨after', l, rfl⟩
  · obtain ⟨rfl, h2⟩ := List.append_inj' e rfl
    obtain rfl := (List.cons.inj h2).1
    exact hc hf
  · rw [List.concat_eq_append, ← List.cons_append, ← List.append_assoc] at e
    obtain ⟨h1, -⟩ := List.append_inj' e rfl
    exact h before c after' h1 hf

theorem epubCall_ends {env : EpubEnv} (files : List Str) {calls : List EpubCall} {call : EpubCall} (hf : CanFail call)
    (h : AllSucceeded env calls) : StepEnds env files (epubCall env calls call) := by
  unfold epubCall
  by_cases hs : env.succeeds calls call = true
  · rw [if_pos hs]; exact .inl ⟨_, rfl, h.snoc fun _ => hs⟩
  · rw [if_neg hs]; exact .inr (.inl ⟨rfl, .inr ⟨calls, call, hf, by simpa using hs⟩⟩)

theorem StepEnds.mono {env : EpubEnv} {files more : List Str} {r : Res (List EpubCall)} (h : StepEnds env files r)
    (hs : ∀ f ∈ files, f ∈ more) : StepEnds env more r := by
  rcases h with h | ⟨h, ⟨f, hf, hr⟩ | hc⟩ | ⟨h, f, hf, hr⟩
  · exact .inl h
  · exact .inr (.inl ⟨h, .inl ⟨f, hs f hf, hr⟩⟩)
  · exact .inr (.inl ⟨h, .inr hc⟩)
  · exact .inr (.inr ⟨h, f, hs f hf, hr⟩)

theorem addSections_ends {env : EpubEnv} (files : List Str) (calls : List EpubCall) (h : AllSucceeded env calls) :
    StepEnds env files (addSections env files calls) := by
  induction files generalizing calls with
  | nil => exact .inl ⟨calls, rfl, h⟩
  | cons file rest ih =>
    simp only [addSections]
    generalize hr : env.readFile file = r
    rcases r with _ | content
    · exact .inr (.inl ⟨rfl, .inl ⟨file, by simp, hr⟩⟩)
    · dsimp only
      by_cases ht : HasTitle content
      · obtain ⟨title, e⟩ := sectionTitle_of_hasTitle ht
        rw [e, Res.bind_ok]
        refine (epubCall_ends _ (by exact trivial) h).bind fun calls hc => ?_
        exact (ih _ (hc.snoc (fun hf => absurd hf (by simp [CanFail])))).mono (by simp +contextual)
      · generalize he : sectionTitle content = t
        rcases t with title | _ | _ | _
        · rw [Res.bind_ok]
          refine (epubCall_ends _ (by exact trivial) h).bind fun calls hc => ?_
          exact (ih _ (hc.snoc (fun hf => absurd hf (by simp [CanFail])))).mono (by simp +contextual)
        · unfold sectionTitle at he
          split at he
          · cases he
          · split at he <;> cases he
        · exact .inr (.inr ⟨rfl, file, by simp, content, hr, ht⟩)
        · unfold sectionTitle at he
          split at he
          · cases he
          · split at he <;> cases he

theorem addFonts_ends {env : EpubEnv} (files fonts : List Str) (calls : List EpubCall) (h : AllSucceeded env calls) :
    StepEnds env files (addFonts env fonts calls) := by
  induction fonts generalizing calls with
  | nil => exact .inl ⟨calls, rfl, h⟩
  | cons f rest ih => exact (epubCall_ends _ (by exact trivial) h).bind fun calls hc => ih calls hc

theorem epubWithLibrary_ends (env : EpubEnv) (c : Config) (files : List Str) (output : Str) (m : Metadata) :
    StepEnds env files (epubWithLibrary env c files output m) := by
  have h0 : AllSucceeded env [.setAuthor m.author, .setLang m.language, .setTitle m.title] := by
    have hn : AllSucceeded env [] := fun before call after e => by simp at e
    exact ((hn.snoc (call := .setAuthor m.author) (fun h => h.elim)).snoc (call := .setLang m.language)
      (fun h => h.elim)).snoc (call := .setTitle m.title) (fun h => h.elim)
  unfold epubWithLibrary
  dsimp only
  refine (epubCall_ends _ (by exact trivial) h0).bind fun calls hc => ?_
  refine (epubCall_ends _ (by exact trivial) hc).bind fun calls hc => ?_
  refine (addSections_ends _ _ hc).bind fun calls hc => ?_
  refine (epubCall_ends _ (by exact trivial) hc).bind fun calls hc => ?_
  refine (addFonts_ends _ _ _ hc).bind fun calls hc => ?_
  exact epubCall_ends _ (by exact trivial) hc

/-- **C80**: an output type that is no e-book, or an unknown driver, is an error; nothing is done. -/
theorem C80_unknown_output_is_an_error (env : EpubEnv) (c : Config) (files : List Str) (output : Str) (m : Metadata)
    (h : c.str .outputType ∉ [b!"epub2", b!"epub3"] ∨ c.str .outputDriver ∉ [b!"pandoc", b!"internal"]) :
    generateEpub env c files output m = .err := by
  unfold generateEpub
  simp only [List.mem_cons, List.not_mem_nil, or_false, not_or] at h
  by_cases ht : c.str .outputType ≠ b!"epub2" ∧ c.str .outputType ≠ b!"epub3"
  · rw [if_pos ht]
  · rcases h with h | h
    · exact absurd h ht
    · rw [if_neg ht, if_neg h.1, if_neg h.2]

example : (⟨fun _ => b!"stats-txt", fun _ => [], fun _ => 0, fun _ => false⟩ : Config).str .outputType ∉
    [b!"epub2", b!"epub3"] := by decide

/-- **C80**: making the e-book with the library ends in one of three ways. Either the library has been called, and then
each call that can fail has succeeded; or there is an error, and then a file could not be read or a call of the library
has failed; or the program crashes, and then one of the files has no heading of the first level. -/
theorem C80_failures_are_reported (env : EpubEnv) (c : Config) (files : List Str) (output : Str) (m : Metadata)
    (ht : c.str .outputType ∈ [b!"epub2", b!"epub3"]) (hd : c.str .outputDriver = b!"internal") :
    (∃ calls, generateEpub env c files output m = .ok (.library calls) ∧ AllSucceeded env calls) ∨
    (generateEpub env c files output m = .err ∧ Failure env files) ∨
    (generateEpub env c files output m = .panic ∧
      ∃ file ∈ files, ∃ content, env.readFile file = some content ∧ ¬ HasTitle content) := by
  have e : generateEpub env c files output m =
      (epubWithLibrary env c files output m >>= fun calls => .ok (.library calls)) := by
    unfold generateEpub
    rw [if_neg, if_neg (by rw [hd]; decide), if_pos hd]
    simp only [List.mem_cons, List.not_mem_nil, or_false] at ht
    rintro ⟨h1, h2⟩
    exact ht.elim h1 h2
  rw [e]
  rcases epubWithLibrary_ends env c files output m with ⟨calls, h, hc⟩ | ⟨h, hc⟩ | ⟨h, hc⟩ <;> rw [h]
  · exact .inl ⟨calls, rfl, hc⟩
  · exact .inr (.inl ⟨rfl, hc⟩)
  · exact .inr (.inr ⟨rfl, hc⟩)

/-- **C80**: every page the program generates for an article has a heading of the first level, whatever the article
contains. -/
theorem C80_pages_have_titles (env : ParserEnv) (templates : TemplateEnv)
    (iterate : Nat → List (Str × Str) → List (Str × Str)) (html : HtmlEnv) (fuel : Nat) (style title content page : Str)
    (h : articleHtml env templates iterate html fuel style title content = some (.ok page)) : HasTitle page := by
  unfold articleHtml at h
  generalize htok : tokenizeArticle env templates iterate fuel content = r at h
  rcases r with _ | ⟨⟨text, s⟩ | _ | _ | _⟩ <;> dsimp only at h
  all_goals first | cases h | skip
  unfold generateHtml at h
  generalize hb : expandString html s.tokenMap fuel text = b at h
  rcases b with _ | ⟨body | _ | _ | _⟩
  · cases h
  · have e : page = htmlHeader style ++ b!"\n<h1>" ++ title ++ b!"</h1>\n" ++ body ++ htmlFooter := by
      cases h; rfl
    exact ⟨htmlHeader style ++ b!"\n", title, b!"\n" ++ body ++ htmlFooter, by rw [e]; simp⟩
  all_goals cases h

/-- **C80**: when all files are pages the program has generated, making the e-book ends with the e-book or with an
error, never with a crash, whatever fails. -/
theorem C80_no_crash_for_generated_pages (env : EpubEnv) (c : Config) (files : List Str) (output : Str) (m : Metadata)
    (hp : ∀ file ∈ files, ∀ text, env.readFile file = some text → HasTitle text) :
    generateEpub env c files output m ≠ .panic ∧ generateEpub env c files output m ≠ .fatal := by
  by_cases h : c.str .outputType ∉ [b!"epub2", b!"epub3"] ∨ c.str .outputDriver ∉ [b!"pandoc", b!"internal"]
  · rw [C80_unknown_output_is_an_error env c files output m h]; exact ⟨by simp, by simp⟩
  · simp only [not_or, not_not] at h
    obtain ⟨ht, hd⟩ := h
    simp only [List.mem_cons, List.not_mem_nil, or_false] at hd
    rcases hd with hd | hd
    · unfold generateEpub
      rw [if_neg, if_pos hd]
      · exact ⟨by simp, by simp⟩
      · simp only [List.mem_cons, List.not_mem_nil, or_false] at ht
        rintro ⟨h1, h2⟩
        exact ht.elim h1 h2
    · rcases C80_failures_are_reported env c files output m ht hd with ⟨calls, h, -⟩ | ⟨h, -⟩ | ⟨h, f, hf, t, hr, hn⟩
      · rw [h]; exact ⟨by simp, by simp⟩
      · rw [h]; exact ⟨by simp, by simp⟩
      · exact absurd (hp f hf t hr) hn

/-- A configuration with the internal driver, for the examples. -/
def internalConfig : Config :=
  { epubConfig with str := fun k => if k = .outputDriver then b!"internal" else epubConfig.str k }

/-- Two pages, and a library that fails when the font is added. -/
def failingFont : EpubEnv where
  readFile file := if file = b!"A.html" ∨ file = b!"B.html" then some b!"x<h1>A</h1>y<h1>B</h1>" else none
  succeeds _ call := match call with | .addFont _ => false | _ => true

/-- What is left of a result for comparisons: the number of calls, 0 for an error, 1 for a crash. -/
def callsOf : Res EpubAction → Nat
  | .ok (.library calls) => calls.length
  | .err => 0
  | _ => 1

/-- Not vacuous: the font cannot be added, which is an error; a missing file is an error; a file without a heading is a
crash. -/
example : internalConfig.str .outputType ∈ [b!"epub2", b!"epub3"] ∧ internalConfig.str .outputDriver = b!"internal" ∧
    callsOf (generateEpub failingFont internalConfig [b!"A.html", b!"B.html"] b!"o.epub" ⟨[], [], [], [], []⟩) = 0 ∧
    callsOf (generateEpub failingFont { internalConfig with list := fun _ => [] } [b!"A.html", b!"C.html"] b!"o.epub" ⟨[], [], [], [], []⟩) = 0 ∧
    callsOf (generateEpub failingFont { internalConfig with list := fun _ => [] } [b!"A.html", b!"B.html"] b!"o.epub" ⟨[], [], [], [], []⟩) = 11 ∧
    callsOf (generateEpub { failingFont with readFile := fun _ => some b!"x" } internalConfig [b!"A.html"] b!"o.epub" ⟨[], [], [], [], []⟩) = 1 := by
  decide +kernel

example : HasTitle b!"x<h1>A</h1>y<h1>B</h1>" := ⟨b!"x", b!"A", b!"y<h1>B</h1>", by decide⟩

end Verif.Props
