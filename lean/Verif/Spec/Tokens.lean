import Verif.Model.Tokens

/-!
# What it means that tokens are not confused
-/

namespace Verif.Spec
open Verif.Model

/-- No two assignments to the map of tokens have the same key, so that no assignment replaces an earlier one. -/
def NoTokenReplaced (m : List (Str × Token)) : Prop := (m.map Prod.fst).Nodup

/-- All keys were created by the tokenizer before: their numbers are below the counter. -/
def KeysCreated (s : TokState) : Prop := ∀ e ∈ s.tokenMap, ∃ t n, n < s.counter ∧ e.1 = tokenKey t n

end Verif.Spec
