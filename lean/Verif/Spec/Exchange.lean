import Verif.Model.Web

/-!
# What the servers have sent
-/

namespace Verif.Spec
open Verif.Model

/-- Each request with its answer: the answers come one after the other. -/
def exchanges : List Event → List Answer → List (Event × Answer)
  | .request method url body :: events, answer :: answers => (.request method url body, answer) :: exchanges events answers
  | .request _ _ _ :: _, [] => []
  | _ :: events, answers => exchanges events answers
  | [], _ => []

/-- Between `w` and `w'` a file was requested and the server has sent these bytes, without reporting an error. -/
def Sent (w w' : World) (url bytes : Str) : Prop :=
  ∃ new r, w'.events = w.events ++ new ∧ (.request b!"GET" url [], .response r) ∈ exchanges new w.script ∧
    r.status = 200 ∧ r.apiError = [] ∧ r.body.bytes = bytes

end Verif.Spec
