import Verif.Go.Strings

/-! # Arguments of external programs -/

namespace Verif.Spec
open Verif.Go

/-- The configured word with the placeholders filled in: `{INPUT}` is the input, `{OUTPUT}` the output, anywhere
in the word. -/
def filled (input output word : Str) : Str :=
  replaceAll (replaceAll word b!"{INPUT}" input) b!"{OUTPUT}" output

end Verif.Spec
