import Verif.Go.Space

/-!
# Headings
-/

namespace Verif.Spec
open Verif.Go

/-- The line begins and ends with an equals sign. -/
def MarkedLine (line : Str) : Prop := b!"=" <+: trimSpace line ∧ b!"=" <:+ trimSpace line

/-- A heading of wikitext: a text between `n` equals signs on both sides, with or without white space around everything
and around the text. -/
structure IsHeading (line : Str) (n : Nat) (text : Str) : Prop where
  level : 1 ≤ n ∧ n ≤ 7
  shape : ∃ inner, trimSpace line = List.replicate n 0x3D ++ inner ++ List.replicate n 0x3D ∧ inner ≠ [] ∧
    inner.head? ≠ some 0x3D ∧ inner.getLast? ≠ some 0x3D ∧ text = trimSpace inner

end Verif.Spec
