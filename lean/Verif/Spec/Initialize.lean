import Verif.Model.Initialize
import Verif.Spec.Nowiki

/-! # The start of the program (C87, C88) -/

namespace Verif.Spec
open Verif.Go Verif.Model

/-- After these events something is on that `start` switches on and `stop` switches off. -/
def SwitchedOn (start stop : StartEvent) (events : List StartEvent) : Prop :=
  ∃ a b, events = a ++ start :: b ∧ stop ∉ b

/-- The recording is on when the command begins. -/
def Covers (start stop : StartEvent) (events : List StartEvent) : Prop :=
  ∃ a b c out, events = a ++ .command c out :: b ∧ SwitchedOn start stop a

/-- `strings.ToLower` for texts of ASCII characters. -/
def LowersAscii (lower : Str → Str) : Prop := ∀ s : Str, (∀ c ∈ s, c < 128) → lower s = lowered s

/-- The names of the levels in the help. -/
def levelName : LogLevel → Str
  | .info => b!"info"
  | .debug => b!"debug"
  | .trace => b!"trace"

end Verif.Spec
