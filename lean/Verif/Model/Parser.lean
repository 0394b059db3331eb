import Verif.Model.Config

/-!
# What the parser depends on
-/

namespace Verif.Model

/-- The configuration (`config.Current`) and two functions that are not modelled: `strings.ToLower` and the conversion of
the first character to upper case, src/parser/image.go:75-76 (for texts that are not empty). The theorems hold for all
functions. -/
structure ParserEnv where
  lower : Str → Str
  upperFirst : Str → Str
  config : Config

end Verif.Model
