import Verif.Lemmas.Written
import Verif.Model.Article

/-!
# Bold and italic (C30)
-/

namespace Verif.Props
open Verif.Go Verif.Model Verif.Spec
open scoped List

/-- **C30**: for every text, with any runs of apostrophes, the result is the text with properly nested and closed bold and
italic sections in place of some of the apostrophes (`parts`); nothing else is changed. If at some pair of apostrophes no
way to format the rest is found, the text from there on (`raw`) stays as it is. The loop ends after at most as many
iterations as the text has characters. -/
theorem C30_formatting_is_well_formed (fuel : Nat) (content : Str) (s : TokState) (hfuel : content.length < fuel) :
    ∃ parts raw, content = originalText parts ++ raw ∧
      parseBoldAndItalic fuel content s = some (.ok (renderedText parts ++ raw, s)) ∧
      ProperlyNested parts ∧ (∀ p ∈ parts, p.WellFormed) ∧ (raw = [] ∨ b!"''" <+: raw) := by
  obtain ⟨parts, raw, h1, h2, h3, h4, h5⟩ := boldItalicLoop_spec fuel [] content hfuel
  refine ⟨parts, raw, h1, ?_, h4, h3, h5⟩
  rw [List.nil_append, List.length_nil] at h2
  rw [parseBoldAndItalic, h2]
  rfl

/-- **C30**, no formatting is lost: in a text that consists of runs of two, three or five apostrophes and other text
between them, where every section that is opened is also closed, every character is shown in the style that the runs in
front of it say, also if sections overlap. -/
theorem C30_text_is_shown_as_written (fuel : Nat) (doc : List WrittenPart) (s : TokState) (hw : WellWritten doc)
    (hc : finalStyle (false, false) doc = (false, false)) (hfuel : (writtenText doc).length < fuel) :
    ∃ parts, originalText parts = writtenText doc ∧
      parseBoldAndItalic fuel (writtenText doc) s = some (.ok (renderedText parts, s)) ∧
      ProperlyNested parts ∧ (∀ p ∈ parts, p.WellFormed) ∧
      styledChars false false parts = intendedChars (false, false) doc := by
  obtain ⟨parts, h1, h2, h3, h4, h5⟩ := boldItalicLoop_doc doc.length fuel [] doc (by omega) hfuel hw hc
  refine ⟨parts, h1, ?_, h2, h3, h4⟩
  rw [List.nil_append, List.length_nil] at h5
  rw [parseBoldAndItalic, h5]
  rfl

/-- A text with overlapping sections, apostrophes within words and both styles at once. -/
def formattedDoc : List WrittenPart :=
  [.text b!"it's ", .quotes 3, .text b!"bold ", .quotes 2, .text b!"both", .quotes 3, .text b!" italic", .quotes 2,
    .text b!", ", .quotes 5, .text b!"x", .quotes 5]

example : WellWritten formattedDoc ∧ finalStyle (false, false) formattedDoc = (false, false) ∧
    writtenText formattedDoc = b!"it's '''bold ''both''' italic'', '''''x'''''" ∧
    (boldItalicLoop 100 (writtenText formattedDoc) 0).map expandMarker =
      some b!"it's <b>bold <i>both</i></b><i> italic</i>, <i><b>x</b></i>" := by
  refine ⟨?_, by decide, by decide, by decide +kernel⟩
  simp [formattedDoc, WellWritten]
  decide +kernel

/-- **C30**, limit: one pair of apostrophes that is not closed leaves the apostrophes of everything behind it in the text,
also of sections that are complete. -/
theorem C30_unclosed_italic_disables_the_rest :
    boldItalicLoop 100 b!"''a'' and '''b'''" 0 =
      some (markerItalicOpen ++ b!"a" ++ markerItalicClose ++ b!" and " ++ markerBoldOpen ++ b!"b" ++ markerBoldClose) ∧
    boldItalicLoop 100 b!"''a and '''b'''" 0 = some b!"''a and '''b'''" := by
  decide +kernel

end Verif.Props
