import Verif.Spec.Document
import Verif.Spec.Sections

/-!
# Headings of empty sections
-/

namespace Verif.Spec
open Verif.Go Verif.Model

/-- The line is a heading as articles may contain them. -/
def HeadingOfArticle (env : ParserEnv) (l : Str) : Prop :=
  ∃ level before after title, (DocBlock.heading level before after title).WellFormed env ∧ (DocBlock.heading level before after title).source = [l]

end Verif.Spec
