import Verif.Model.UserAgent

/-!
# What the wiki sees of the program (C84)
-/

namespace Verif.Spec
open Verif.Go Verif.Model
open scoped List

/-- The values of a header. -/
def headerValues (r : HttpRequest) (name : Str) : List Str := (r.headers.filter fun h => h.1 = name).map Prod.snd

/-- The template consists of texts with the placeholder between each two of them; the text to send has the version at these places. -/
def FilledTemplate (template text : Str) : Prop :=
  ∃ parts : List Str, parts ≠ [] ∧ (∀ p ∈ parts, ¬ b!"{{VERSION}}" <:+: p) ∧ template = join b!"{{VERSION}}" parts ∧ text = join b!"v0.6.1" parts

/-- The requests among the events, without headers. -/
def plainRequests (events : List Event) : List (Str × Str × Str) :=
  events.filterMap fun e => match e with | .request m u b => some (m, u, b) | _ => none

end Verif.Spec
