import Verif.Go
/-
Specification vocabulary for integer arithmetic.
-/
namespace Micro.MathInt

/-- `q` is the rational `n / d` rounded to the nearest integer, ties away from zero:
`|q - n/d| <= 1/2`, and on a tie `|q| > |n/d|` (both multiplied out by `|d|`). -/
def RoundsTo (n d q : Int) : Prop :=
  2 * (q * d - n).natAbs ≤ d.natAbs ∧
  (2 * (q * d - n).natAbs = d.natAbs → n.natAbs < (q * d).natAbs)

end Micro.MathInt
