import Verif.Lemmas.TableClosed
import Verif.Model.Article
import Verif.Props.CleanLinks
import Verif.Props.Expand

/-!
# Tables (C36)
-/

namespace Verif.Props
open Verif.Go Verif.Model Verif.Spec
open scoped List

/-- **C36**: in a text with any number of tables between other lines, each table is replaced by a line with its key, the
other lines are not changed. First the tables in cells get their tokens, then the caption and the cells of a table are
tokenized (`rec`) in the order of writing. `steps` bounds the number of steps. What is missing: tables that the parser
reads in another way, see the theorems with counterexamples below. -/
theorem C36_tables_keep_their_structure_partial (blocks : List TableBlock) (hb : blocks ≠ [])
    (h : ∀ b ∈ blocks, b.WellFormed) :
    ∃ steps, ∀ rec fuel, steps ≤ fuel →
      parseTables rec fuel (join b!"\n" (blocks.flatMap TableBlock.lines)) = (do
        let lines ← tokenizedTables rec blocks
        pure (join b!"\n" lines)) := by
  obtain ⟨steps, hs⟩ := tableLoop_ok blocks h
  refine ⟨steps, fun rec fuel hf => ?_⟩
  have hne : blocks.flatMap TableBlock.lines ≠ [] := by
    obtain ⟨b, rest, rfl⟩ := List.exists_cons_of_ne_nil hb
    cases b <;> simp [TableBlock.lines]
  rw [parseTables, split_join_singleton hne (by
    intro l hl
    obtain ⟨b, hb, hl⟩ := List.mem_flatMap.mp hl
    exact block_lines b (h b hb) l hl), hs rec fuel hf]

/-- **C36**: whenever the parser returns, the key of each table stands for a token with the same rows in the same order,
each with the same cells, their attributes, the flag for headings and what the tokenizer makes of their texts; likewise
for tables in cells and captions. -/
theorem C36_tokens_have_the_same_cells_partial (env : ParserEnv) (n : Nat) (blocks : List TableBlock) (hb : blocks ≠ [])
    (h : ∀ b ∈ blocks, b.WellFormed) :
    ∃ steps, ∀ fuel, steps ≤ fuel → ∀ s result s', KeysCreated s →
      parseTables (tokenizeContent env n) fuel (join b!"\n" (blocks.flatMap TableBlock.lines)) s = some (.ok (result, s')) →
      ∃ lines, result = join b!"\n" lines ∧
        Matched (TableBlock.StandsFor (tokenizeContent env n) s'.tokenMap) blocks lines := by
  obtain ⟨steps, hs⟩ := C36_tables_keep_their_structure_partial blocks hb h
  refine ⟨steps, fun fuel hf s result s' hk e => ?_⟩
  rw [hs _ fuel hf] at e
  obtain ⟨lines, s1, h1, h2⟩ := TokM.bind_ok.mp e
  cases h2
  exact ⟨lines, rfl, (tokenizedTables_stand (growing_tokenizeContent env n) blocks _ _ _ hk h1).1⟩

/-- **C36**: any text in which each table is closed by a line that begins with `|}` is parsed without a crash, if the
tokenizer returns for the texts in the tables. Whatever is in the lines of the tables. -/
theorem C36_closed_tables_do_not_crash_partial (rec : Rec) (hr : ∀ t s, ∃ r s', rec t s = some (.ok (r, s'))) (text : Str)
    (h : TablesClosed (split text b!"\n")) :
    ∃ steps, ∀ fuel, steps ≤ fuel → ∀ s, ∃ r s', parseTables rec fuel text s = some (.ok (r, s')) := by
  obtain ⟨steps, hs⟩ := tablesClosed_total (rec := rec) (fun c s => by
    obtain ⟨r, s', h⟩ := hr c s
    exact ⟨r, s', h, trivial⟩) h
  refine ⟨steps, fun fuel hf s => ?_⟩
  obtain ⟨r, s', h1, _⟩ := (show Total (parseTables rec fuel text) fun _ => True from
    (hs fuel hf).bind fun _ _ => Total.pure trivial) s
  exact ⟨r, s', h1⟩

/-- The first cell has attributes. -/
def exampleCell : TableCell :=
  { before := b!" "
    attributes := some
      { written := b!"colspan=\"2\" text-align:left; x "
        lead := []
        attrs := [(.span false b!"2" true, b!" "), (.align b!"left", b!" x")] }
    text := b!" c" }

def exampleInner : WikiTable (CellItem 0) :=
  { rows := [{ lines := [{ heading := false, first := { text := b!"e" }, more := [b!"f"] }] }]
    after := b!" " }

def exampleLine1 : CellLine (CellItem 1) := { heading := true, first := { before := b!" ", text := b!"a", after := b!" " }, others := [{ text := b!"b" }] }

/-- A cell with further lines, and a table in it. -/
def exampleLine2 : CellLine (CellItem 1) :=
  { indent := b!"\t"
    heading := false
    first := exampleCell
    others := [{ before := b!" ", text := b!"d" }]
    more := [.inl b!"further text", .inr exampleInner, .inl b!"g"] }

def exampleLine3 : CellLine (CellItem 1) := { heading := false, first := { text := [] } }

/-- A text with a table that has a caption, headings, attributes, a cell over several lines with a table in it, and a
second row. -/
def tableDoc : List TableBlock :=
  [.line b!"Some text",
   .table b!" " b!":" 1
    { attributes := b!" class=\"wikitable\""
      caption := some { indent := b!" ", text := b!" The caption", after := b!" ", attributes := some (b!"style=\"a\""), more := [b!" more "] }
      rows := [{ lines := [exampleLine1] }, { separator := some (b!" ", b!" style=\"b\""), lines := [exampleLine2, exampleLine3] }]
      indent := b!" " },
   .line b!"The end"]

theorem startsTable_iff (l : Str) : StartsTable l ↔ b!"{|" <+: (trimSpace l).dropWhile (· = 0x3A) := by
  constructor
  · rintro ⟨colons, hc, t, ht⟩
    rw [← ht, List.append_assoc, List.dropWhile_append_of_pos (by simpa using hc)]
    simp
  · rintro ⟨t, ht⟩
    refine ⟨(trimSpace l).takeWhile (· = 0x3A), takeWhile_colons _, t, ?_⟩
    rw [List.append_assoc, ht, List.takeWhile_append_dropWhile]

example : tableDoc ≠ [] ∧ ∀ b ∈ tableDoc, b.WellFormed := by
  refine ⟨by simp [tableDoc], ?_⟩
  have hl : ∀ l : Str, (0x0A : Byte) ∉ l → ¬ b!"{|" <+: (trimSpace l).dropWhile (· = 0x3A) → TableBlock.WellFormed (.line l) :=
    fun l h1 h2 => ⟨h1, fun c hc hp => h2 ((startsTable_iff l).mp ⟨c, hc, hp⟩)⟩
  have hf : ∀ l : Str, (0x0A : Byte) ∉ l → (0x7C : Byte) ∉ l → ¬ b!"!!" <:+: l → ¬ b!"!" <+: trimSpace l → FurtherLine l :=
    fun l a b c d => ⟨a, b, c, d⟩
  have hc : ∀ c : TableCell, Padding c.before → Padding c.after → trimSpace c.body = c.body → (0x7C : Byte) ∉ c.text → (0x0A : Byte) ∉ c.body →
      c.attributes = none → c.WellFormed := fun c a b d e f g => ⟨a, b, d, e, f, by simp [g]⟩
  intro b hb
  simp only [tableDoc, List.mem_cons, List.not_mem_nil, or_false] at hb
  rcases hb with rfl | rfl | rfl
  · exact hl _ (by decide) (by decide +kernel)
  · refine ⟨by decide, by decide, ⟨by unfold NoMarks; decide +kernel, ?_, ?_, by decide, by decide⟩⟩
    · intro c hc
      cases hc
      exact ⟨by decide, by decide, by decide +kernel, by decide, by decide, by decide, by decide +kernel, by
        intro l hl
        have : l = b!" more " := by simpa using hl
        subst this
        exact hf _ (by decide) (by decide) (by decide) (by decide +kernel)⟩
    · refine ⟨trivial, by simp, ⟨?_, by simp [exampleLine1], trivial⟩, by simp, ⟨by decide, by unfold NoMarks; decide +kernel⟩, by simp,
        ⟨?_, by simp [indentOf, exampleLine3], ?_, by simp [exampleLine3], trivial⟩, by simp, trivial⟩
      · refine ⟨by decide, ?_, by simp only [exampleLine1, CellLine.cells, List.map_cons, List.map_nil, Separated]; decide +kernel,
          by decide +kernel, fun _ => rfl, by simp [exampleLine1]⟩
        simp only [exampleLine1, CellLine.cells, List.forall_mem_cons]
        exact ⟨⟨hc _ (by decide) (by decide) (by decide +kernel) (by decide) (by decide) rfl, by decide⟩,
          ⟨hc _ (by decide) (by decide) (by decide +kernel) (by decide) (by decide) rfl, by decide⟩, by simp⟩
      · refine ⟨by decide, ?_, by simp only [exampleLine2, CellLine.cells, List.map_cons, List.map_nil, Separated]; decide +kernel,
          by decide +kernel, by decide, ?_⟩
        · simp only [exampleLine2, CellLine.cells, List.forall_mem_cons]
          refine ⟨⟨⟨by decide, by decide, by decide +kernel, by decide, by decide, ?_⟩, by decide⟩,
            ⟨hc _ (by decide) (by decide) (by decide +kernel) (by decide) (by decide) rfl, by decide⟩, by simp⟩
          intro a ha
          cases ha
          refine ⟨⟨by decide +kernel, by unfold OtherAttributes; decide, ?_⟩, by decide⟩
          simp only [List.forall_mem_cons, OtherAttributes, TableAttr.WellFormed]
          refine ⟨by decide +kernel, by decide +kernel, by simp⟩
        · refine (List.forall_mem_cons (α := CellItem 1)).mpr ⟨?_, (List.forall_mem_cons (α := CellItem 1)).mpr ⟨?_,
            (List.forall_mem_cons (α := CellItem 1)).mpr ⟨?_, by simp⟩⟩⟩
          · exact hf _ (by decide) (by decide) (by decide +kernel) (by decide +kernel)
          rotate_left
          · exact hf _ (by decide) (by decide) (by decide) (by decide +kernel)
          show WikiTable.WellFormed (CellItem.WellFormed 0) exampleInner
          refine ⟨by unfold NoMarks; decide, by simp [exampleInner], ⟨trivial, by simp, ⟨?_, by decide, trivial⟩, by simp, trivial⟩, by decide, by decide⟩
          refine ⟨by decide, ?_, by simp only [CellLine.cells, List.map_cons, List.map_nil, Separated]; decide +kernel,
            by decide +kernel, by decide, ?_⟩
          · simp only [CellLine.cells, List.forall_mem_cons]
            exact ⟨⟨hc _ (by decide) (by decide) (by decide +kernel) (by decide) (by decide) rfl, by decide⟩, by simp⟩
          · intro x hx
            have : x = b!"f" := (List.mem_singleton (α := Str)).mp hx
            subst this
            exact hf _ (by decide) (by decide) (by decide) (by decide +kernel)
      · refine ⟨by decide, ?_, by simp only [exampleLine3, CellLine.cells, List.map_cons, List.map_nil, Separated]; decide +kernel,
          by decide +kernel, by decide, by simp [exampleLine3]⟩
        simp only [exampleLine3, CellLine.cells, List.forall_mem_cons]
        exact ⟨⟨hc _ (by decide) (by decide) (by decide +kernel) (by decide) (by decide) rfl, by decide⟩, by simp⟩
  · exact hl _ (by decide) (by decide +kernel)

/-- A text with two tables, one of them within the other one, with lines that have nothing to do with tables. -/
example : TablesClosed (split b!"text\n ::{| class=\"a\"\n|-\nfoo || bar !! | x\n:{|\n|+\n|-|\n|} d\n! ||-5\n|}\nend" b!"\n") := by
  have e : split b!"text\n ::{| class=\"a\"\n|-\nfoo || bar !! | x\n:{|\n|+\n|-|\n|} d\n! ||-5\n|}\nend" b!"\n" =
    b!"text" :: b!" ::{| class=\"a\"" :: ([b!"|-", b!"foo || bar !! | x", b!":{|", b!"|+", b!"|-|", b!"|} d", b!"! ||-5"] ++ b!"|}" :: [b!"end"]) := by
    decide +kernel
  rw [e]
  refine .line (by rw [startsTable_iff]; decide +kernel) (.table (by rw [startsTable_iff]; decide +kernel) ?_ (by decide)
    (.line (by rw [startsTable_iff]; decide +kernel) .nil))
  refine .line (by unfold StartsInnerTable; decide +kernel) (by decide +kernel) (.line (by unfold StartsInnerTable; decide +kernel) (by decide +kernel) ?_)
  exact .table (body := [b!"|+", b!"|-|"]) (last := b!"|} d") (by unfold StartsInnerTable; decide +kernel)
    (.line (by unfold StartsInnerTable; decide +kernel) (by decide +kernel) (.line (by unfold StartsInnerTable; decide +kernel) (by decide +kernel) .nil))
    (by decide +kernel) (.line (by unfold StartsInnerTable; decide +kernel) (by decide +kernel) .nil)

example : (∀ t s, ∃ r s', (fun t => (pure (trimSpace t) : TokM Str)) t s = some (.ok (r, s'))) ∧ KeysCreated TokState.initial :=
  ⟨fun t s => ⟨trimSpace t, s, rfl⟩, by simp [KeysCreated, TokState.initial]⟩

/-! ### Where C36 is false -/

/-- **C36** is false for numbers below zero: `-5` behind a separator of cells becomes an empty row, the number is lost. -/
theorem C36_negative_number_is_lost :
    articleBody exampleEnv htmlEnv 40 b!"{|\n|a||-5\n|}" = some (.ok (b!"<div class=\"figure\">\n<table>\n<tr>\n<td>\na\n</td>\n</tr>" ++
      b!"\n<tr>\n\n</tr>\n</table>\n<div class=\"caption\">\n\n</div>\n</div>")) := by
  decide +kernel

/-- **C36** is false for a heading with two lines: it becomes a normal cell. -/
theorem C36_heading_with_two_lines_becomes_data :
    articleBody exampleEnv htmlEnv 40 b!"{|\n! a\nb\n|}" = some (.ok (b!"<div class=\"figure\">\n<table>\n<tr>\n<td>\na\nb\n</td>\n</tr>" ++
      b!"\n</table>\n<div class=\"caption\">\n\n</div>\n</div>")) := by
  decide +kernel

/-- **C36** is false for headings that are separated by bars: only the first one is a heading. -/
theorem C36_heading_behind_bars_becomes_data :
    articleBody exampleEnv htmlEnv 40 b!"{|\n! a || b\n|}" = some (.ok (b!"<div class=\"figure\">\n<table>\n<tr>\n<th>\na\n</th>\n\n" ++
      b!"<td>\nb\n</td>\n</tr>\n</table>\n<div class=\"caption\">\n\n</div>\n</div>")) := by
  decide +kernel

/-- **C36** is false for an alignment at the end of the style: without a semicolon behind it, it is lost. -/
theorem C36_alignment_without_semicolon_is_lost :
    articleBody exampleEnv htmlEnv 40 b!"{|\n| style=\"text-align:right\" | a\n|}" = some (.ok (b!"<div class=\"figure\">\n<table>\n<tr>" ++
      b!"\n<td>\na\n</td>\n</tr>\n</table>\n<div class=\"caption\">\n\n</div>\n</div>")) := by
  decide +kernel

/-- **C36** is false for a cell with two bars: the text behind the second one is lost. -/
theorem C36_text_behind_second_bar_is_lost :
    articleBody exampleEnv htmlEnv 40 b!"{|\n|a|b|c\n|}" = some (.ok (b!"<div class=\"figure\">\n<table>\n<tr>\n<td>\nb\n</td>\n</tr>" ++
      b!"\n</table>\n<div class=\"caption\">\n\n</div>\n</div>")) := by
  decide +kernel

/-- **C36** is false for an indented end of a table: behind a cell with three lines the parser crashes. -/
theorem C36_indented_end_crashes : articleBody exampleEnv htmlEnv 40 b!"{|\n|a\nb\nc\n |}" = some .panic := by
  decide +kernel

end Verif.Props
