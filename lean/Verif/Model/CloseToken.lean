import Verif.Go.Strings

/-!
# Search for closing tokens, src/parser/util.go
-/

namespace Verif.Model
open Verif.Go

/-- `strings.ToLower` on one byte. Only used to compare with texts of ASCII characters. -/
def lowerByte (c : Byte) : Byte := if 65 ≤ c && c ≤ 90 then c + 32 else c

/-- `util.EqualsIgnoreCase`, src/util/string.go:37-39. `strings.ToLower` is applied to ASCII letters only; the code
compares texts with ASCII tokens of the same number of bytes. (The Kelvin sign, which has the ASCII letter k as
lower case, has three bytes, so that a text with it and the same number of bytes has fewer characters.) -/
def equalsIgnoreCase (a b : Str) : Bool := a.map lowerByte == b.map lowerByte

/-- Equality as used by the search, src/parser/util.go:45-59. -/
def sameToken (ignoreCase : Bool) (a b : Str) : Bool := if ignoreCase then equalsIgnoreCase a b else a == b

/-- `content[i : i+size]`, and the empty string if there are not enough characters, src/parser/util.go:34-43;
`rest` is `content[i:]`. -/
def cursorText (rest : Str) (size : Nat) : Str := if size ≤ rest.length then rest.take size else []

/-- The loop of `findCorrespondingCloseToken`, src/parser/util.go:31-75. Third argument: `content[i:]`; `skip` is
the number of characters of an already handled token that are still to be skipped (`i += size - 1`). -/
def closeLoop (ignoreCase : Bool) (opening closing : Str) : Str → (skip i counter : Nat) → Option Nat
  | [], _, _, _ => none
  | _ :: t, skip + 1, i, counter => closeLoop ignoreCase opening closing t skip (i + 1) counter
  | c :: t, 0, i, counter =>
    if ¬ sameToken ignoreCase opening closing ∧
        sameToken ignoreCase (cursorText (c :: t) opening.length) opening then
      closeLoop ignoreCase opening closing t (opening.length - 1) (i + 1) (counter + 1)
    else if sameToken ignoreCase (cursorText (c :: t) closing.length) closing then
      if counter = 0 then some i
      else closeLoop ignoreCase opening closing t (closing.length - 1) (i + 1) (counter - 1)
    else closeLoop ignoreCase opening closing t 0 (i + 1) counter

/-- `findCorrespondingCloseToken`, src/parser/util.go:19-78. `none` stands for -1. The start index is never
negative in the code. -/
def findCloseWith (ignoreCase : Bool) (content : Str) (startIndex : Nat) (opening closing : Str) : Option Nat :=
  closeLoop ignoreCase opening closing (content.drop startIndex) 0 startIndex 0

/-- `FindCorrespondingCloseToken`, src/parser/util.go:7-9. -/
def findClose (content : Str) (startIndex : Nat) (opening closing : Str) : Option Nat :=
  findCloseWith false content startIndex opening closing

/-- `FindCorrespondingCloseTokenIgnoreCase`, src/parser/util.go:13-15. -/
def findCloseIgnoreCase (content : Str) (startIndex : Nat) (opening closing : Str) : Option Nat :=
  findCloseWith true content startIndex opening closing

end Verif.Model
