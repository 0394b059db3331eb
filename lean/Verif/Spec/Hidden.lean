import Verif.Spec.Links
import Verif.Spec.Templates
import Verif.Spec.WikiTables

/-!
# Parts of an article that are not shown
-/

namespace Verif.Spec
open Verif.Go
open scoped List

/-- A part of the wikitext of an article: text that is shown, or something that is not. -/
inductive SourcePart where
  | shown (text : Str)
  /-- `<!--body-->` within a line -/
  | comment (body : Str)
  /-- `<!--body-->` in a line of its own, with the line break in front of it -/
  | commentLine (body : Str)
  /-- `[[inner]]`, a link to be removed -/
  | link (inner : LinkText)
  /-- `{{name|args}}`, a template to be ignored; the arguments begin with their separator -/
  | template (lead name : Str) (args : TemplateText)
  /-- the switch that removes the table of contents -/
  | noToc

namespace SourcePart

/-- The text of a comment. -/
def commentText (body : Str) : Str := b!"<!--" ++ body ++ b!"-->"

/-- The part as it is written. -/
def source : SourcePart → Str
  | shown text => text
  | comment body => commentText body
  | commentLine body => b!"\n" ++ commentText body
  | link inner => b!"[[" ++ inner.text ++ b!"]]"
  | template lead name args => (TemplateText.template lead name args .nil).text
  | noToc => b!"__NOTOC__"

/-- What is shown of the part. -/
def kept : SourcePart → Str
  | shown text => text
  | _ => []

/-- The first `-->` behind the beginning of the comment is its end. -/
def CommentBody (body : Str) : Prop := ¬ b!"-->" <:+: body ∧ ¬ b!">" <+: body ∧ ¬ b!"->" <+: body

/-- Conditions for the parts that are not shown: comments end at the first `-->`, links are ones to be removed, templates
are to be ignored, and their arguments contain no links to be removed. -/
def WellFormed (r : LinkRules) (ignored : Str → Prop) : SourcePart → Prop
  | shown _ => True
  | comment body => CommentBody body
  | commentLine body => CommentBody body
  | link inner => inner.WellFormed ∧ inner.startsWithBracket = false ∧ Unwanted r inner.text ∧ ¬ b!"<!--" <:+: inner.text
  | template lead name args =>
    (TemplateText.template lead name args .nil).WellFormed [] ∧ ignored name ∧
    ¬ b!"<!--" <:+: (TemplateText.template lead name args .nil).text ∧
    ∃ d : LinkText, d.text = (TemplateText.template lead name args .nil).text ∧ d.WellFormed ∧
      d.AllLinks fun inner => ¬ Unwanted r inner ∧ 0x3A ∉ linkLabel inner
  | noToc => True

end SourcePart

/-- The whole wikitext. -/
def sourceText (parts : List SourcePart) : Str := parts.flatMap SourcePart.source

/-- The text that is shown. -/
def keptText (parts : List SourcePart) : Str := parts.flatMap SourcePart.kept

/-- No bracket of the text is still open at its end. -/
def BracketsClosed (s : Str) : Prop := ∀ t, t <:+ s → t.count 0x5B ≤ t.count 0x5D

/-- The part can stand between these parts: comments within a line do not stand at its beginning, comments in a line of their
own are followed by a line break or the end, and links, templates and switches do not stand within links or behind a character
that belongs to their own beginning. -/
def SourcePart.FitsBetween (before after : List SourcePart) : SourcePart → Prop
  | .shown _ => True
  | .comment _ => (sourceText before).getLast? ≠ some 0x0A
  | .commentLine _ => sourceText after = [] ∨ (sourceText after).head? = some 0x0A
  | .link _ => BracketsClosed (keptText before)
  | .template _ _ _ => BracketsClosed (keptText before) ∧ (keptText before).getLast? ≠ some 0x7B
  | .noToc => BracketsClosed (keptText before) ∧ (keptText before).getLast? ≠ some 0x5F

/-- Every part is at a place where it can stand. -/
def WellPlaced (parts : List SourcePart) : Prop :=
  ∀ before part after, parts = before ++ part :: after → part.FitsBetween before after

/-- Lines as an author may write them: with spaces and tabs around them and with list entries without text between them. -/
inductive WrittenLines : (lines written : List Str) → Prop where
  | nil : WrittenLines [] []
  | line (a l b : Str) (lines written : List Str) : Padding a → Padding b → WrittenLines lines written →
      WrittenLines (l :: lines) ((a ++ l ++ b) :: written)
  | emptyEntry (a marks b : Str) (lines written : List Str) : Padding a → Padding b → marks ≠ [] → (∀ c ∈ marks, c ∈ b!"*#;:") →
      WrittenLines lines written → WrittenLines lines ((a ++ marks ++ b) :: written)

end Verif.Spec
