import Verif.Lemmas.Comments
import Verif.Lemmas.Sections

/-! # C31: comments, C32: empty list entries, C33: empty sections -/

namespace Verif.Props
open Verif.Go Verif.Model Verif.Spec Verif.Lemmas
open scoped List

/-! ## C31 -/

/-- **C31** Exactly the comments are removed, together with a line break in front of them. Missing: the line break should
only be removed if the comment is followed by a line break (see `C31_own_line_partial` and `C31_joins_lines`), and the
texts `<!-->` and `<!--->` are excluded (see `C31_short_comment`). -/
theorem C31_comments_removed_partial (content : Str) (h1 : ¬ b!"<!-->" <:+: content) (h2 : ¬ b!"<!--->" <:+: content) :
    Stripped dropLineBreak content (removeComments content) := by
  have hj := join_split_self (sep := b!"-->") content (by simp)
  have := commentSegments_stripped (split content b!"-->") (fun p hp => not_infix_of_mem_split (by simp) hp)
    (by rw [hj]; exact ⟨h1, h2⟩)
  rw [hj] at this
  exact this

theorem stripped_change {f g : Str → Str → Str} {text out : Str} (h : Stripped f text out)
    (hfg : ∀ a body c, text = a ++ b!"<!--" ++ body ++ b!"-->" ++ c → ¬ b!"-->" <:+: body →
      ∀ pre, pre <:+ a → f pre c = g pre c) : Stripped g text out := by
  induction h with
  | noComment text hn => exact .noComment text hn
  | comment pre body post out h1 h2 h ih =>
    rw [hfg pre body post rfl h2 pre (List.suffix_refl _)]
    refine .comment pre body post out h1 h2 (ih ?_)
    intro a body' c e hb pre' hp
    refine hfg (pre ++ b!"<!--" ++ body ++ b!"-->" ++ a) body' c (by rw [e]; simp) hb pre' ?_
    exact hp.trans (List.suffix_append _ _)

/-- **C31** If every comment at the beginning of a line is followed by a line break or the end of the text, exactly the
comments are removed, and line breaks only where an empty line would be left. -/
theorem C31_own_line_partial (content : Str) (h1 : ¬ b!"<!-->" <:+: content) (h2 : ¬ b!"<!--->" <:+: content)
    (h : ∀ a body c, content = a ++ b!"\n<!--" ++ body ++ b!"-->" ++ c → ¬ b!"-->" <:+: body →
      c = [] ∨ c.head? = some 0x0A) :
    Stripped dropOwnLine content (removeComments content) := by
  refine stripped_change (C31_comments_removed_partial content h1 h2) ?_
  intro a body c e hb pre hp
  unfold dropLineBreak dropOwnLine
  by_cases hl : pre.getLast? = some 0x0A
  · obtain ⟨x, rfl⟩ := hp
    obtain ⟨p, rfl⟩ := List.getLast?_eq_some_iff.mp hl
    have := h (x ++ p) body c (by rw [e]; simp) hb
    rw [if_pos hl, if_pos ⟨hl, this⟩]
  · rw [if_neg hl, if_neg (fun h => hl h.1)]

/-- The hypotheses hold for a text with two comments, one of them with a line of its own. -/
example : Stripped dropOwnLine b!"a<!-- x --> b\n<!-- y -->\nc --> <!--" (removeComments b!"a<!-- x --> b\n<!-- y -->\nc --> <!--") ∧
    removeComments b!"a<!-- x --> b\n<!-- y -->\nc --> <!--" = b!"a b\nc --> <!--" := by
  refine ⟨?_, by decide⟩
  have e : removeComments b!"a<!-- x --> b\n<!-- y -->\nc --> <!--" =
    dropOwnLine b!"a" b!" b\n<!-- y -->\nc --> <!--" ++ (dropOwnLine b!" b\n" b!"\nc --> <!--" ++ b!"\nc --> <!--") := by decide
  rw [e]
  refine .comment b!"a" b!" x " b!" b\n<!-- y -->\nc --> <!--" _ (by decide) (by decide)
    (.comment b!" b\n" b!" y " b!"\nc --> <!--" _ (by decide) (by decide) (.noComment _ ?_))
  rintro ⟨a, b, c, e⟩
  have h1 : cut b!"<!--" b!"\nc --> <!--" = some (b!"\nc --> ", []) := by decide
  have hlen := congrArg List.length e
  simp at hlen
  rcases List.append_eq_append_iff.mp (show b!"\nc --> " ++ b!"<!--" = a ++ (b!"<!--" ++ b ++ b!"-->" ++ c) by
    rw [show b!"\nc --> " ++ b!"<!--" = b!"\nc --> <!--" by decide, e]; simp) with ⟨x, h3, h4⟩ | ⟨x, h3, h4⟩
  · have := congrArg List.length h4
    simp at this
    omega
  · have : b!"<!--" <+: x ++ b!"<!--" := by rw [← h4]; exact ⟨b ++ b!"-->" ++ c, by simp⟩
    have hx : x <:+ b!"\nc --> " := ⟨a, h3.symm⟩
    have hx0 : x ≠ [] := by
      rintro rfl
      have := congrArg List.length h4
      simp at this
    have := (noBorder_start.infix_of_prefix (b := []) hx0 (by simpa using this)).isInfix.trans hx.isInfix
    exact absurd this (by decide)

/-- **C31** fails: a comment at the beginning of a line joins this line with the previous one; here the text becomes part
of the heading line. -/
theorem C31_joins_lines : removeComments b!"== Life ==\n<!-- todo -->Born in 1900" = b!"== Life ==Born in 1900" := by
  decide

/-- **C31** fails for comments that begin with `<!-->`. -/
theorem C31_short_comment : removeComments b!"a <!--> hidden --> b" = b!"a <!--> hidden --> b" := by decide

/-! ## C32 -/

/-- A line that consists of at least one list character and nothing else but surrounding white space. -/
def OnlyListChars (line : Str) : Prop :=
  trimSpace line ≠ [] ∧ ∀ c ∈ trimSpace line, c ∈ b!"*#;:"

instance (line : Str) : Decidable (OnlyListChars line) := by unfold OnlyListChars; infer_instance

theorem isListBeginning_iff (c : Byte) : isListBeginning c = true ↔ c ∈ b!"*#;:" := by
  simp [isListBeginning, or_assoc]

theorem keepListLine_iff (line : Str) :
    keepListLine (trimSpace line) = true ↔ ¬ OnlyListChars line := by
  unfold OnlyListChars
  cases h : trimSpace line with
  | nil => simp [keepListLine]
  | cons c t =>
    simp only [keepListLine, ne_eq, reduceCtorEq, not_false_eq_true, true_and, Bool.or_eq_true, Bool.not_eq_true',
      decide_eq_true_eq]
    have hcount : List.countP isListBeginning (c :: t) = (c :: t).length ↔ ∀ x ∈ c :: t, x ∈ b!"*#;:" := by
      rw [List.countP_eq_length]
      constructor
      · intro h x hx; exact (isListBeginning_iff x).mp (h x hx)
      · intro h x hx; exact (isListBeginning_iff x).mpr (h x hx)
    rw [← hcount]
    constructor
    · rintro (h1 | h1) h2
      · rw [List.countP_eq_length] at h2
        rw [h2 c (by simp)] at h1
        cases h1
      · exact h1 h2
    · intro h1
      exact .inr h1

/-- **C32** Exactly the lines that consist only of list characters are removed. All other lines stay, in their order
(surrounding white space is removed). -/
theorem C32_only_empty_entries (lines : List Str) (h0 : lines ≠ []) (hl : ∀ l ∈ lines, (0x0A : Byte) ∉ l) :
    removeEmptyListEntries (join b!"\n" lines) =
      join b!"\n" ((lines.filter fun l => ¬ OnlyListChars l).map trimSpace) := by
  unfold removeEmptyListEntries
  rw [split_join_singleton h0 hl, List.filter_map]
  congr 2
  refine List.filter_congr ?_
  intro x _
  rw [Bool.eq_iff_iff]
  simp only [Function.comp_apply, decide_eq_true_eq]
  exact keepListLine_iff x

/-- **C32** Cleaning a second time changes nothing. -/
theorem C32_idempotent (content : Str) :
    removeEmptyListEntries (removeEmptyListEntries content) = removeEmptyListEntries content := by
  have hkey : ∀ l : List Str, (∀ x ∈ l, (0x0A : Byte) ∉ x ∧ trimSpace x = x ∧ keepListLine x = true) →
      removeEmptyListEntries (join b!"\n" l) = join b!"\n" l := by
    intro l hl
    by_cases h0 : l = []
    · subst h0; decide
    · unfold removeEmptyListEntries
      rw [split_join_singleton h0 fun x hx => (hl x hx).1]
      have : l.map trimSpace = l := by
        conv => rhs; rw [← List.map_id l]
        exact List.map_congr_left fun x hx => (hl x hx).2.1
      rw [this, List.filter_eq_self.mpr fun x hx => (hl x hx).2.2]
  conv => lhs; arg 1; unfold removeEmptyListEntries
  rw [hkey]
  · rfl
  · intro x hx
    rw [List.mem_filter, List.mem_map] at hx
    obtain ⟨⟨y, hy, rfl⟩, hk⟩ := hx
    exact ⟨fun h => not_mem_of_mem_split_singleton hy (mem_of_mem_trimSpace h), trimSpace_trimSpace y, hk⟩

example : removeEmptyListEntries b!"* a\n ** \n:;\n\n#b\n*" = b!"* a\n\n#b" := by decide

/-! ## C33 -/

/-- A line with text: neither empty nor the beginning of a section. -/
def TextLine (l : Str) : Prop := l ≠ [] ∧ ∀ d, 0 < d → ¬ SectionStart l d

theorem textLine_iff (l : Str) : isTextLine l = true ↔ TextLine l := by
  unfold isTextLine TextLine
  simp only [ne_eq, Bool.and_eq_true, decide_eq_true_eq]
  constructor
  · rintro ⟨h1, h2⟩
    refine ⟨h1, fun d hd hs => ?_⟩
    rw [(headingDepth_iff hd).mpr hs] at h2
    omega
  · rintro ⟨h1, h2⟩
    refine ⟨h1, ?_⟩
    by_contra h
    exact h2 _ (by omega) (sectionStart_of_depth (by omega))

/-- The lines after the removal of empty sections. -/
theorem removeEmptySections_lines (lines : List Str) (h0 : lines ≠ []) (hl : ∀ l ∈ lines, (0x0A : Byte) ∉ l) :
    removeEmptySections (join b!"\n" lines) = join b!"\n" (sectionLoop lines 0) := by
  unfold removeEmptySections
  rw [split_join_singleton h0 hl]

/-- Lines of a text, without white space at their ends (this is what `removeEmptyListEntries`, which is executed before,
leaves). -/
structure CleanLines (lines : List Str) : Prop where
  ne : lines ≠ []
  noBreak : ∀ l ∈ lines, (0x0A : Byte) ∉ l
  trimmed : ∀ l ∈ lines, trimSpace l = l

/-- **C33** Text is never removed: the lines with text before and after are the same, in the same order, and no line is
added. -/
theorem C33_text_survives (lines : List Str) (h : CleanLines lines) :
    ∃ out, removeEmptySections (join b!"\n" lines) = join b!"\n" out ∧ out <+ lines ∧
      ∀ p : Str → Bool, (∀ l, p l = true → TextLine l) → out.filter p = lines.filter p := by
  refine ⟨sectionLoop lines 0, removeEmptySections_lines lines h.ne h.noBreak, sectionLoop_sublist lines h.trimmed, ?_⟩
  intro p hp
  have hf : ∀ l : List Str, l.filter p = (l.filter isTextLine).filter p := by
    intro l
    rw [List.filter_filter]
    refine List.filter_congr fun x _ => ?_
    rw [Bool.eq_iff_iff, Bool.and_eq_true]
    exact ⟨fun h => ⟨h, (textLine_iff x).mpr (hp x h)⟩, fun h => h.1⟩
  rw [hf, sectionLoop_text_lines lines h.trimmed, ← hf]

/-- **C33** The heading of a section with text below it, directly or in a subsection, survives. -/
theorem C33_heading_with_text_survives (a mid b : List Str) (h x : Str) (d : Nat)
    (hc : CleanLines (a ++ h :: (mid ++ x :: b))) (hd : 0 < d) (hh : SectionStart h d) (hx : TextLine x)
    (hmid : ∀ l ∈ mid, ∀ e, 0 < e → SectionStart l e → d < e) :
    ∃ ra rb, removeEmptySections (join b!"\n" (a ++ h :: (mid ++ x :: b))) = join b!"\n" (ra ++ h :: rb) ∧
      ra <+ a ∧ rb <+ mid ++ x :: b := by
  have hdepth := (headingDepth_iff hd).mpr hh
  obtain ⟨ra, h1, h2⟩ := sectionLoop_append a (h :: (mid ++ x :: b)) hc.trimmed ⟨h, _, rfl, by omega⟩
  have ht : Trimmed (h :: (mid ++ x :: b)) := Trimmed.right hc.trimmed
  have hfull : sectionLoop (h :: (mid ++ x :: b)) 0 = h :: sectionLoop (mid ++ x :: b) 0 := by
    refine sectionLoop_full ht.tail (by omega) ?_
    rintro blanks tail e ⟨hb, htail⟩
    -- the empty lines end in front of `x`
    have hx0 : headingDepth x = 0 := by
      by_contra h'
      exact hx.2 _ (by omega) (sectionStart_of_depth (by omega))
    rcases List.append_eq_append_iff.mp e with ⟨y, e1, e2⟩ | ⟨y, e1, e2⟩
    · cases y with
      | nil =>
        simp only [List.nil_append] at e2
        rcases htail with rfl | ⟨z, t, rfl, hz, -⟩
        · cases e2
        · simp only [List.cons.injEq] at e2
          rw [← e2.1] at hz; omega
      | cons y0 y =>
        simp only [List.cons_append, List.cons.injEq] at e2
        have := hb y0 (by rw [e1]; simp)
        exact hx.1 (e2.1.trans this)
    · -- mid = blanks ++ y, tail = y ++ x :: b
      rcases htail with rfl | ⟨z, t, rfl, hz, hzd⟩
      · simp at e2
      · cases y with
        | nil =>
          simp only [List.nil_append, List.cons.injEq] at e2
          rw [e2.1] at hz; omega
        | cons y0 y =>
          simp only [List.cons_append, List.cons.injEq] at e2
          have hm : z ∈ mid := by rw [e1, e2.1]; simp
          have := hmid z hm _ hz (sectionStart_of_depth hz)
          omega
  refine ⟨ra, sectionLoop (mid ++ x :: b) 0, ?_, h1, sectionLoop_sublist _ ht.tail⟩
  rw [removeEmptySections_lines _ hc.ne hc.noBreak, h2, hfull]

/-- **C33** A section that has only empty lines up to the next heading of the same or a higher level, or up to the end,
is removed. (Not part of this: a line in bold at the very end, and sections that contain only empty subsections, see
`C33_nested_empty_sections`.) -/
theorem C33_empty_section_removed_partial (a blanks rest : List Str) (h : Str) (d : Nat)
    (hc : CleanLines (a ++ h :: (blanks ++ rest))) (hd : 0 < d) (hh : SectionStart h d)
    (hb : ∀ l ∈ blanks, l = [])
    (hrest : rest = [] ∨ ∃ h' t e, rest = h' :: t ∧ 0 < e ∧ e ≤ d ∧ SectionStart h' e)
    (hbold : blanks ++ rest = [] → ¬ d = 10) :
    ∃ ra rb, removeEmptySections (join b!"\n" (a ++ h :: (blanks ++ rest))) = join b!"\n" (ra ++ rb) ∧
      ra <+ a ∧ rb <+ rest := by
  have hdepth := (headingDepth_iff hd).mpr hh
  obtain ⟨ra, h1, h2⟩ := sectionLoop_append a (h :: (blanks ++ rest)) hc.trimmed ⟨h, _, rfl, by omega⟩
  have ht : Trimmed (h :: (blanks ++ rest)) := Trimmed.right hc.trimmed
  refine ⟨ra, sectionLoop rest 0, ?_, h1, sectionLoop_sublist _ (Trimmed.right (Trimmed.tail ht))⟩
  rw [removeEmptySections_lines _ hc.ne hc.noBreak, h2, sectionLoop_empty ht.tail (by omega) ⟨hb, ?_⟩ (by rw [hdepth]; exact hbold)]
  rcases hrest with h | ⟨h', t, e, h3, h4, h5, h6⟩
  · exact .inl h
  · have := (headingDepth_iff h4).mpr h6
    exact .inr ⟨h', t, h3, by omega, by omega⟩

/-- `OnlyEmptyRemoved lines out`: `out` are the lines without some of the empty sections. An empty section is removed as
a whole: its heading and the empty lines up to the next heading of the same or a higher level, or up to the end. All other
lines stay, also empty ones. -/
inductive OnlyEmptyRemoved : List Str → List Str → Prop
  | nil : OnlyEmptyRemoved [] []
  | kept (l : Str) {ls out : List Str} (h : OnlyEmptyRemoved ls out) : OnlyEmptyRemoved (l :: ls) (l :: out)
  | removed {heading : Str} {d : Nat} {blanks rest out : List Str} (hd : 0 < d) (hh : SectionStart heading d)
      (hb : ∀ l ∈ blanks, l = [])
      (hrest : rest = [] ∨ ∃ h' t e, rest = h' :: t ∧ 0 < e ∧ e ≤ d ∧ SectionStart h' e)
      (h : OnlyEmptyRemoved rest out) : OnlyEmptyRemoved (heading :: (blanks ++ rest)) out

/-- **C33** Nothing but empty sections is removed: empty lines elsewhere stay as well, so that paragraphs remain
paragraphs. -/
theorem C33_only_empty_sections_removed (lines : List Str) (h : CleanLines lines) :
    ∃ out, removeEmptySections (join b!"\n" lines) = join b!"\n" out ∧ OnlyEmptyRemoved lines out := by
  refine ⟨sectionLoop lines 0, removeEmptySections_lines lines h.ne h.noBreak, ?_⟩
  have ht := h.trimmed
  clear h
  revert lines
  refine section_induction ?_ ?_ ?_ ?_ ?_
  · exact .nil
  · intro l ls h _ ih; rw [sectionLoop_text ls h]; exact .kept l ih
  · intro l h; rw [sectionLoop_last h]; exact .kept l .nil
  · intro l blanks tail h he hl ht ih
    rw [sectionLoop_empty ht h he hl]
    refine .removed h (sectionStart_of_depth h) he.1 ?_ ih
    rcases he.2 with h' | ⟨h', t, e, h1, h2⟩
    · exact .inl h'
    · exact .inr ⟨h', t, _, e, h1, h2, sectionStart_of_depth h1⟩
  · intro l ls h he ht ih; rw [sectionLoop_full ht h he]; exact .kept l ih

/-- **C33** A line in bold at the very end is no empty section and stays. -/
theorem C33_bold_last_line_survives (a : List Str) (x : Str) (hc : CleanLines (a ++ [x])) (hx : BoldLine x) :
    ∃ ra, removeEmptySections (join b!"\n" (a ++ [x])) = join b!"\n" (ra ++ [x]) ∧ ra <+ a := by
  have hd := headingDepth_of_bold hx
  obtain ⟨ra, h1, h2⟩ := sectionLoop_append a [x] hc.trimmed ⟨x, _, rfl, by omega⟩
  refine ⟨ra, ?_, h1⟩
  rw [removeEmptySections_lines _ hc.ne hc.noBreak, h2, sectionLoop_last hd]

/-- The hypotheses of the theorems hold for such a text. -/
example : CleanLines [b!"= A =", b!"", b!"== B ==", b!"text", b!"== C ==", b!""] ∧ SectionStart b!"= A =" 1 ∧
    SectionStart b!"== B ==" 2 ∧
    removeEmptySections b!"= A =\n\n== B ==\ntext\n== C ==\n" = b!"= A =\n\n== B ==\ntext" := by
  refine ⟨⟨by decide, by decide, by decide⟩, ?_, ?_, by decide⟩
  · exact .heading _ _ (.text 1 b!" A " (by decide) (by decide) (by decide) (by decide))
  · exact .heading _ _ (.text 2 b!" B " (by decide) (by decide) (by decide) (by decide))

/-- **C33** fails: a section that contains only an empty section is not removed. -/
theorem C33_nested_empty_sections : removeEmptySections b!"= A =\n== B ==\n= C =\ntext" = b!"= A =\n= C =\ntext" := by
  decide

/-- **C33** fails for lines that begin and end in bold: a whole sentence is removed. -/
theorem C33_bold_sentence_removed :
    removeEmptySections b!"text\n'''Berlin''' is bigger than '''Hamburg'''\n\n= A =\ntext" = b!"text\n= A =\ntext" := by
  decide

/-- **C33** In particular the lines that `removeEmptyListEntries` leaves satisfy the hypotheses. -/
theorem C33_applies_after_list_cleaning (content : Str)
    (h : ((split content b!"\n").map trimSpace).filter keepListLine ≠ []) :
    ∃ lines, removeEmptyListEntries content = join b!"\n" lines ∧ CleanLines lines := by
  refine ⟨_, rfl, h, ?_, ?_⟩
  · intro x hx
    rw [List.mem_filter, List.mem_map] at hx
    obtain ⟨⟨y, hy, rfl⟩, -⟩ := hx
    exact fun h => not_mem_of_mem_split_singleton hy (mem_of_mem_trimSpace h)
  · intro x hx
    rw [List.mem_filter, List.mem_map] at hx
    obtain ⟨⟨y, hy, rfl⟩, -⟩ := hx
    exact trimSpace_trimSpace y

end Verif.Props
