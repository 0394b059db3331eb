import Verif.Go.Bytes

/-!
# `strconv.Atoi`
-/

namespace Verif.Go

/-- Decimal digits with sign, 64-bit range. -/
def parseDigits (neg : Bool) (ds : Str) : Option Int :=
  if ds ≠ [] ∧ ds.all (fun c => 48 ≤ c && c ≤ 57) then
    let v : Int := ds.foldl (fun acc c => acc * 10 + (c.toNat - 48 : Int)) 0
    let v := if neg then -v else v
    if -9223372036854775808 ≤ v ∧ v ≤ 9223372036854775807 then some v else none
  else none

/-- `strconv.Atoi`: optional sign, decimal digits, 64-bit range. -/
def atoi : Str → Option Int
  | 0x2D :: t => parseDigits true t
  | 0x2B :: t => parseDigits false t
  | t => parseDigits false t

end Verif.Go
