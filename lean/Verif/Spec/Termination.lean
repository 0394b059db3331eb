import Verif.Go.Bytes

/-!
# Computations that end
-/

namespace Verif.Spec

/-- The computation ends: with enough steps, it has a result, and the result does not depend on the number of steps. -/
def AlwaysEnds {α : Type} (f : Nat → Option α) : Prop := ∃ steps result, ∀ fuel, steps ≤ fuel → f fuel = some result

/-- The conversion of the first letter to upper case does not create characters of the markup. -/
def CreatesNoMarkup (upperFirst : Str → Str) : Prop :=
  ∀ s c, c ∈ b!"<[{=*#;:'" → (upperFirst s).count c ≤ s.count c

end Verif.Spec
