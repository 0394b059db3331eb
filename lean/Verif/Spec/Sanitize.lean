import Verif.Go.Bytes

/-! Specification vocabulary for file names (independent of the model). -/

namespace Verif.Spec

/-- The characters that must not occur in a file name. -/
def forbidden : List Byte := b!"<>:\"/\\|?*"

/-- Value of an upper-case hexadecimal digit. -/
def hexVal (c : Byte) : Option Nat :=
  if 48 ≤ c.toNat ∧ c.toNat ≤ 57 then some (c.toNat - 48)
  else if 65 ≤ c.toNat ∧ c.toNat ≤ 70 then some (c.toNat - 55)
  else none

/-- Standard percent-decoding (RFC 3986): `%XY` is the byte with that hexadecimal value, everything
else stands for itself. -/
def percentDecode : Str → Str
  | [] => []
  | [a] => [a]
  | [a, b] => [a, b]
  | a :: b :: c :: t =>
    if a = 0x25 then
      match hexVal b, hexVal c with
      | some h, some l => UInt8.ofNat (16 * h + l) :: percentDecode t
      | _, _ => a :: percentDecode (b :: c :: t)
    else a :: percentDecode (b :: c :: t)

end Verif.Spec
