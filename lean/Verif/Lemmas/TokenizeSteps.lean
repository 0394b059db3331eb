import Verif.Lemmas.ExpandSteps

/-!
# The number of steps of the tokenizer does not matter

Once the tokenizer has finished, it has the same result with every larger number of steps.
-/

namespace Verif.Lemmas
open Verif.Go Verif.Model

/-- In every state the first run has not finished, or has the same result as the second one. -/
def LaterT {α : Type} (m1 m2 : TokM α) : Prop := ∀ s, Later (m1 s) (m2 s)

theorem LaterT.refl {α : Type} (m : TokM α) : LaterT m m := fun _ => .inr rfl

theorem laterT_running {α : Type} (m : TokM α) : LaterT TokM.running m := fun _ => .inl rfl

theorem laterT_bind {α β : Type} {m1 m2 : TokM α} {f1 f2 : α → TokM β} (hm : LaterT m1 m2) (hf : ∀ a, LaterT (f1 a) (f2 a)) :
    LaterT (m1 >>= f1) (m2 >>= f2) := by
  intro s
  show Later (match m1 s with
    | none => none
    | some (.ok (a, s')) => f1 a s'
    | some .err => some .err
    | some .panic => some .panic
    | some .fatal => some .fatal) (match m2 s with
    | none => none
    | some (.ok (a, s')) => f2 a s'
    | some .err => some .err
    | some .panic => some .panic
    | some .fatal => some .fatal)
  rcases hm s with h | h
  · rw [h]; exact .inl rfl
  · rw [← h]
    rcases m1 s with _ | _ | _ | _ | _
    · exact .inl rfl
    · exact hf _ _
    · exact .inr rfl
    · exact .inr rfl
    · exact .inr rfl

/-- Compares two runs of the same program step by step. -/
macro "later_steps" "[" h1:term "," h2:term "," h3:term "]" : tactic => `(tactic| repeat (first
  | with_reducible exact LaterT.refl _
  | with_reducible refine laterT_bind ?_ (fun _ => ?_)
  | with_reducible apply $h1
  | with_reducible apply $h2
  | with_reducible apply $h3
  | dsimp only
  | split))

variable {r1 r2 : Rec} (hr : ∀ t, LaterT (r1 t) (r2 t))
include hr

theorem later_headingLine (depth : Nat) (line : Str) : LaterT (headingLine r1 depth line) (headingLine r2 depth line) := by
  unfold headingLine
  later_steps [hr, hr, hr]

theorem later_headingLines (depth : Nat) (lines : List Str) : LaterT (headingLines r1 depth lines) (headingLines r2 depth lines) := by
  induction lines with
  | nil => exact LaterT.refl _
  | cons line rest ih =>
    have h := later_headingLine hr
    rw [headingLines, headingLines]
    later_steps [hr, ih, h]

theorem later_headingDepths (depth : Nat) : ∀ lines : List Str, LaterT (headingDepths r1 depth lines) (headingDepths r2 depth lines) := by
  induction depth with
  | zero => intro lines; exact LaterT.refl _
  | succ depth ih =>
    intro lines
    have h := later_headingLines hr
    rw [headingDepths, headingDepths]
    later_steps [hr, ih, h]

theorem later_parseHeadings (content : Str) : LaterT (parseHeadings r1 content) (parseHeadings r2 content) := by
  have h := later_headingDepths hr
  unfold parseHeadings
  later_steps [hr, h, h]

theorem later_linkToken (x : LinkSyntax) (target text : Str) : LaterT (linkToken r1 x target text) (linkToken r2 x target text) := by
  unfold linkToken
  later_steps [hr, hr, hr]

theorem later_linkKey (x : LinkSyntax) (target text segment : Str) :
    LaterT (linkKey r1 x target text segment) (linkKey r2 x target text segment) := by
  have h := later_linkToken hr
  unfold linkKey
  later_steps [hr, h, h]

theorem later_linkSegment (env : ParserEnv) (x : LinkSyntax) (item : Str) :
    LaterT (linkSegment env r1 x item) (linkSegment env r2 x item) := by
  have h := later_linkKey hr
  unfold linkSegment
  later_steps [hr, h, h]

theorem later_linkSegments (env : ParserEnv) (x : LinkSyntax) (items : List Str) :
    LaterT (linkSegments env r1 x items) (linkSegments env r2 x items) := by
  induction items with
  | nil => exact LaterT.refl _
  | cons item rest ih =>
    have h := later_linkSegment hr
    rw [linkSegments, linkSegments]
    later_steps [hr, ih, h]

theorem later_parseLink (env : ParserEnv) (x : LinkSyntax) (content : Str) :
    LaterT (parseLink env r1 x content) (parseLink env r2 x content) := by
  have h := later_linkSegments hr
  unfold parseLink
  later_steps [hr, h, h]

theorem later_imageOptions (options : List Str) : ∀ o, LaterT (imageOptions r1 options o) (imageOptions r2 options o) := by
  induction options with
  | nil => intro o; exact LaterT.refl _
  | cons option rest ih =>
    intro o
    rw [imageOptions, imageOptions]
    later_steps [hr, ih, ih]

theorem later_imageToken (env : ParserEnv) (content : Str) : LaterT (imageToken env r1 content) (imageToken env r2 content) := by
  have h := later_imageOptions hr
  unfold imageToken
  later_steps [hr, h, h]

theorem later_imageKey (env : ParserEnv) (content : Str) : LaterT (imageKey env r1 content) (imageKey env r2 content) := by
  have h := later_imageToken hr
  unfold imageKey
  later_steps [hr, h, h]

theorem later_imageLoop (env : ParserEnv) (fuel : Nat) : ∀ (more : Nat), fuel ≤ more → ∀ content,
    LaterT (imageLoop env r1 fuel content) (imageLoop env r2 more content) := by
  induction fuel with
  | zero => intro _ _ _; exact laterT_running _
  | succ fuel ih =>
    intro more hm content
    obtain ⟨more, rfl⟩ := Nat.exists_eq_add_of_le' (show 1 ≤ more by omega)
    replace ih := ih more (by omega)
    have h := later_imageKey hr
    rw [imageLoop, imageLoop]
    later_steps [hr, ih, h]

theorem later_lineItems (linePrefix : Byte) (text : Str) : LaterT (lineItems r1 linePrefix text) (lineItems r2 linePrefix text) := by
  unfold lineItems
  later_steps [hr, hr, hr]

theorem later_listSteps (fuel : Nat) : ∀ (more : Nat), fuel ≤ more →
    (∀ lines listPrefix, LaterT (tokenizeList r1 fuel lines listPrefix) (tokenizeList r2 more lines listPrefix)) ∧
    (∀ listPrefix lines items, LaterT (listItems r1 fuel listPrefix lines items) (listItems r2 more listPrefix lines items)) := by
  induction fuel with
  | zero =>
    intro more _
    refine ⟨fun _ _ => ?_, fun _ _ _ => ?_⟩
    · rw [tokenizeList]; exact laterT_running _
    · rw [listItems]; exact laterT_running _
  | succ fuel ih =>
    intro more hm
    obtain ⟨more, rfl⟩ := Nat.exists_eq_add_of_le' (show 1 ≤ more by omega)
    obtain ⟨ih1, ih2⟩ := ih more (by omega)
    have h := later_lineItems hr
    refine ⟨fun lines listPrefix => ?_, fun listPrefix lines items => ?_⟩
    · rw [tokenizeList, tokenizeList]
      later_steps [ih1, ih2, h]
    · match lines with
      | [] => rw [listItems, listItems]; later_steps [ih1, ih2, h]
      | [] :: rest => rw [listItems, listItems]; later_steps [ih1, ih2, h]
      | (c :: text) :: rest =>
        rw [listItems.eq_def r1, listItems.eq_def r2 (more + 1)]
        dsimp only
        later_steps [ih1, ih2, h]

theorem later_parseListLines (fuel : Nat) : ∀ (more : Nat), fuel ≤ more → ∀ lines,
    LaterT (parseListLines r1 fuel lines) (parseListLines r2 more lines) := by
  induction fuel with
  | zero => intro _ _ _; rw [parseListLines]; exact laterT_running _
  | succ fuel ih =>
    intro more hm lines
    obtain ⟨more, rfl⟩ := Nat.exists_eq_add_of_le' (show 1 ≤ more by omega)
    replace ih := ih more (by omega)
    obtain ⟨h, -⟩ := later_listSteps hr fuel more (by omega)
    match lines with
    | [] => rw [parseListLines, parseListLines]; later_steps [hr, ih, h]
    | line :: rest =>
      rw [parseListLines, parseListLines]
      later_steps [hr, ih, h]

theorem later_parseLists (fuel more : Nat) (hm : fuel ≤ more) (content : Str) : LaterT (parseLists r1 fuel content) (parseLists r2 more content) := by
  have h := later_parseListLines hr fuel more hm
  unfold parseLists
  later_steps [hr, h, h]

theorem later_tableEntry (content : Str) : LaterT (tableEntry r1 content) (tableEntry r2 content) := by
  unfold tableEntry
  later_steps [hr, hr, hr]

theorem later_tableRow (fuel : Nat) : ∀ (more : Nat), fuel ≤ more → ∀ lines, LaterT (tableRow r1 fuel lines) (tableRow r2 more lines) := by
  induction fuel with
  | zero => intro _ _ _; rw [tableRow]; exact laterT_running _
  | succ fuel ih =>
    intro more hm lines
    obtain ⟨more, rfl⟩ := Nat.exists_eq_add_of_le' (show 1 ≤ more by omega)
    replace ih := ih more (by omega)
    have h := later_tableEntry hr
    match lines with
    | [] => rw [tableRow, tableRow]; later_steps [hr, ih, h]
    | line :: rest =>
      rw [tableRow, tableRow]
      later_steps [hr, ih, h]

theorem later_tableCaption (line : Str) (rest : List Str) : LaterT (tableCaption r1 line rest) (tableCaption r2 line rest) := by
  have h := later_tableEntry hr
  unfold tableCaption
  later_steps [hr, h, h]

theorem later_tableRows (fuel : Nat) : ∀ (more : Nat), fuel ≤ more → ∀ lines caption,
    LaterT (tableRows r1 fuel lines caption) (tableRows r2 more lines caption) := by
  induction fuel with
  | zero => intro _ _ _ _; rw [tableRows]; exact laterT_running _
  | succ fuel ih =>
    intro more hm lines caption
    obtain ⟨more, rfl⟩ := Nat.exists_eq_add_of_le' (show 1 ≤ more by omega)
    replace ih := ih more (by omega)
    have h := later_tableCaption hr
    have h' := later_tableRow hr fuel more (by omega)
    match lines with
    | [] => rw [tableRows, tableRows]; later_steps [ih, h, h']
    | line :: rest =>
      rw [tableRows.eq_def r1, tableRows.eq_def r2 (more + 1)]
      dsimp only
      later_steps [ih, h, h']

theorem later_tokenizeTable (fuel more : Nat) (hm : fuel ≤ more) (content : Str) :
    LaterT (tokenizeTable r1 fuel content) (tokenizeTable r2 more content) := by
  have h := later_tableRows hr fuel more hm
  unfold tokenizeTable
  later_steps [hr, h, h]

theorem later_tableSteps (fuel : Nat) : ∀ (more : Nat), fuel ≤ more →
    (∀ line rest, LaterT (tokenizeTables r1 fuel line rest) (tokenizeTables r2 more line rest)) ∧
    (∀ lines, LaterT (tableBody r1 fuel lines) (tableBody r2 more lines)) := by
  induction fuel with
  | zero =>
    intro more _
    refine ⟨fun _ _ => ?_, fun _ => ?_⟩
    · rw [tokenizeTables]; exact laterT_running _
    · rw [tableBody]; exact laterT_running _
  | succ fuel ih =>
    intro more hm
    obtain ⟨more, rfl⟩ := Nat.exists_eq_add_of_le' (show 1 ≤ more by omega)
    obtain ⟨ih1, ih2⟩ := ih more (by omega)
    have h := later_tokenizeTable hr fuel more (by omega)
    refine ⟨fun line rest => ?_, fun lines => ?_⟩
    · rw [tokenizeTables, tokenizeTables]
      later_steps [ih1, ih2, h]
    · match lines with
      | [] => rw [tableBody, tableBody]; later_steps [ih1, ih2, h]
      | line :: rest =>
        rw [tableBody, tableBody]
        later_steps [ih1, ih2, h]

theorem later_tableLoop (fuel : Nat) : ∀ (more : Nat), fuel ≤ more → ∀ lines, LaterT (tableLoop r1 fuel lines) (tableLoop r2 more lines) := by
  induction fuel with
  | zero => intro _ _ _; rw [tableLoop]; exact laterT_running _
  | succ fuel ih =>
    intro more hm lines
    obtain ⟨more, rfl⟩ := Nat.exists_eq_add_of_le' (show 1 ≤ more by omega)
    replace ih := ih more (by omega)
    obtain ⟨h, -⟩ := later_tableSteps hr fuel more (by omega)
    match lines with
    | [] => rw [tableLoop, tableLoop]; later_steps [hr, ih, h]
    | line :: rest =>
      rw [tableLoop, tableLoop]
      later_steps [hr, ih, h]

theorem later_parseTables (fuel more : Nat) (hm : fuel ≤ more) (content : Str) :
    LaterT (parseTables r1 fuel content) (parseTables r2 more content) := by
  have h := later_tableLoop hr fuel more hm
  unfold parseTables
  later_steps [hr, h, h]

theorem later_referenceDefinition (content : Str) (i startEnd refEnd : Nat) (name group : Str) (st : RefState) :
    LaterT (referenceDefinition r1 content i startEnd refEnd name group st) (referenceDefinition r2 content i startEnd refEnd name group st) := by
  unfold referenceDefinition
  later_steps [hr, hr, hr]

theorem later_refTag (content : Str) (i startEnd : Nat) (st : RefState) :
    LaterT (refTag r1 content i startEnd st) (refTag r2 content i startEnd st) := by
  have h := later_referenceDefinition hr
  unfold refTag
  later_steps [hr, h, h]

theorem later_refLoop (fuel : Nat) : ∀ (more : Nat), fuel ≤ more → ∀ content i st,
    LaterT (refLoop r1 fuel content i st) (refLoop r2 more content i st) := by
  induction fuel with
  | zero => intro _ _ _ _ _; exact laterT_running _
  | succ fuel ih =>
    intro more hm content i st
    obtain ⟨more, rfl⟩ := Nat.exists_eq_add_of_le' (show 1 ≤ more by omega)
    replace ih := ih more (by omega)
    have h := later_refTag hr
    rw [refLoop, refLoop]
    later_steps [hr, ih, h]

omit hr in
theorem later_nowikiLoop (fuel : Nat) : ∀ (more : Nat), fuel ≤ more → ∀ content i, LaterT (nowikiLoop fuel content i) (nowikiLoop more content i) := by
  induction fuel with
  | zero => intro _ _ _ _; exact laterT_running _
  | succ fuel ih =>
    intro more hm content i
    obtain ⟨more, rfl⟩ := Nat.exists_eq_add_of_le' (show 1 ≤ more by omega)
    replace ih := ih more (by omega)
    rw [nowikiLoop, nowikiLoop]
    later_steps [ih, ih, ih]

omit hr in
theorem later_boldItalicLoop (fuel : Nat) : ∀ (more : Nat), fuel ≤ more → ∀ content i,
    boldItalicLoop fuel content i = none ∨ boldItalicLoop fuel content i = boldItalicLoop more content i := by
  induction fuel with
  | zero => intro _ _ _ _; exact .inl rfl
  | succ fuel ih =>
    intro more hm content i
    obtain ⟨more, rfl⟩ := Nat.exists_eq_add_of_le' (show 1 ≤ more by omega)
    replace ih := ih more (by omega)
    rw [boldItalicLoop, boldItalicLoop]
    dsimp only
    split
    · split
      · exact ih _ _
      · exact .inr rfl
    · exact .inr rfl

omit hr in
theorem later_parseBoldAndItalic (fuel more : Nat) (hm : fuel ≤ more) (content : Str) :
    LaterT (parseBoldAndItalic fuel content) (parseBoldAndItalic more content) := by
  intro s
  rw [parseBoldAndItalic, parseBoldAndItalic]
  rcases later_boldItalicLoop fuel more hm content 0 with h | h
  · rw [h]; exact .inl rfl
  · rw [h]; exact .inr rfl

theorem later_tokenizePass (env : ParserEnv) (fuel more : Nat) (hm : fuel ≤ more) (content : Str) :
    LaterT (tokenizePass env r1 fuel content) (tokenizePass env r2 more content) := by
  unfold tokenizePass
  refine laterT_bind (later_nowikiLoop fuel more hm _ _) fun _ => ?_
  refine laterT_bind (later_parseBoldAndItalic fuel more hm _) fun _ => ?_
  refine laterT_bind (later_parseHeadings hr _) fun _ => ?_
  refine laterT_bind (later_refLoop hr fuel more hm _ _ _) fun _ => ?_
  refine laterT_bind (later_parseLink hr env _ _) fun _ => ?_
  refine laterT_bind (LaterT.refl _) fun _ => ?_
  refine laterT_bind (LaterT.refl _) fun _ => ?_
  refine laterT_bind (later_imageLoop hr env fuel more hm _) fun _ => ?_
  refine laterT_bind (later_parseLink hr env _ _) fun _ => ?_
  refine laterT_bind (LaterT.refl _) fun _ => ?_
  refine laterT_bind (later_parseLists hr fuel more hm _) fun _ => ?_
  refine laterT_bind (later_parseTables hr fuel more hm _) fun _ => ?_
  exact LaterT.refl _

omit hr in
theorem later_tokenizeContent (env : ParserEnv) (fuel : Nat) : ∀ (more : Nat), fuel ≤ more → ∀ content,
    LaterT (tokenizeContent env fuel content) (tokenizeContent env more content) := by
  induction fuel with
  | zero => intro _ _ _; exact laterT_running _
  | succ fuel ih =>
    intro more hm content
    obtain ⟨more, rfl⟩ := Nat.exists_eq_add_of_le' (show 1 ≤ more by omega)
    replace ih := ih more (by omega)
    have h := later_tokenizePass ih env fuel more (by omega)
    rw [tokenizeContent, tokenizeContent]
    later_steps [ih, h, h]

omit hr in
theorem later_railwayLoop (fuel : Nat) : ∀ (more : Nat), fuel ≤ more → ∀ content i, Later (railwayLoop fuel content i) (railwayLoop more content i) := by
  induction fuel with
  | zero => intro _ _ _ _; exact .inl rfl
  | succ fuel ih =>
    intro more hm content i
    obtain ⟨more, rfl⟩ := Nat.exists_eq_add_of_le' (show 1 ≤ more by omega)
    replace ih := ih more (by omega)
    rw [railwayLoop, railwayLoop]
    split
    · split
      · rcases ih content (i + 12) with h | h
        · rw [h]; exact .inl rfl
        · rw [← h]
          split
          · split
            · exact .inr rfl
            · exact ih _ _
          · exact .inr rfl
      · exact ih _ _
    · exact .inr rfl

omit hr in
theorem later_cleanText (env : ParserEnv) (fuel more : Nat) (hm : fuel ≤ more) (content : Str) :
    Later (cleanText env fuel content) (cleanText env more content) := by
  unfold cleanText
  split
  · exact later_railwayLoop _ _ hm _ _
  · exact .inr rfl
  · exact .inr rfl
  · exact .inr rfl

omit hr in
theorem later_tokenizeArticle (env : ParserEnv) (templates : TemplateEnv) (iterate : Nat → List (Str × Str) → List (Str × Str)) (fuel more : Nat)
    (hm : fuel ≤ more) (content : Str) :
    Later (tokenizeArticle env templates iterate fuel content) (tokenizeArticle env templates iterate more content) := by
  unfold tokenizeArticle
  rcases later_cleanText env fuel more hm content with h | h
  · rw [h]; exact .inl rfl
  rw [← h]
  split <;> try exact .inr rfl
  rename_i content _
  generalize he : evaluateTemplates templates iterate fuel content = x
  rcases x with _ | x
  · exact .inl rfl
  rw [evaluateTemplates_mono templates iterate hm he]
  split <;> try exact .inr rfl
  rename_i content _ _
  rcases later_cleanText env fuel more hm content with h | h
  · rw [h]; exact .inl rfl
  rw [← h]
  split <;> try exact .inr rfl
  exact later_tokenizeContent env fuel more hm _ _

omit hr in
/-- The page of an article does not depend on the number of steps. -/
theorem later_articleHtml (env : ParserEnv) (templates : TemplateEnv) (iterate : Nat → List (Str × Str) → List (Str × Str)) (html : HtmlEnv)
    (fuel more : Nat) (hm : fuel ≤ more) (style title content : Str) :
    Later (articleHtml env templates iterate html fuel style title content) (articleHtml env templates iterate html more style title content) := by
  unfold articleHtml
  rcases later_tokenizeArticle env templates iterate fuel more hm content with h | h
  · rw [h]; exact .inl rfl
  rw [← h]
  split <;> try exact .inr rfl
  unfold generateHtml
  exact later_bind (later_expandString html _ fuel more hm _) fun _ => .inr rfl

end Verif.Lemmas
