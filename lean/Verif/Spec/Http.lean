import Verif.Model.Web
import Verif.Go.Decimal

/-!
Vocabulary for requests.
-/

namespace Verif.Spec

open Verif.Go Verif.Model

/-- "Too many requests". -/
def TooMany : Answer → Prop
  | .failed => False
  | .response r => r.status = 429

/-- The meaning of an answer that is not "too many requests": only status 200 without API error counts. -/
def verdict : Answer → Outcome Response
  | .failed => .err
  | .response r => if r.status = 200 ∧ r.apiError = [] then .ok r else .err

/-- The seconds to wait: the number in the header, or 2. -/
def secondsAsked : Answer → Int
  | .failed => 2
  | .response r => (atoi r.retryAfter).getD 2

/-- The URLs of all requests. -/
def requestedUrls (l : List Event) : List Str :=
  l.filterMap fun | .request _ url _ => some url | _ => none

/-- The bodies of all requests. -/
def requestedBodies (l : List Event) : List Str :=
  l.filterMap fun | .request _ _ body => some body | _ => none

end Verif.Spec
