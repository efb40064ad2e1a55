import Verif.MathInt.Model
import Mathlib.Logic.Function.Basic
import Mathlib.Algebra.Field.Rat
/-
Model of math.Div and math.DivBigOps for *big.Int with pointers, so that the quotient may be one of the operands.
-/
namespace Micro.MathInt

/-- Memory of big.Int values by address. -/
abbrev BigMem := Nat → Int

/-- math/math.go:304-335 the `*big.Int` entry of `toDiv` (called by math/math.go:506-510 `Div` and math/math.go:513-517 `DivBigOps`): dividend,
divisor and quotient are pointers (the quotient is not nil); QuoRem in line 319 stores the quotient before the divisor is
read again in lines 322 and 326. -/
def divBigMem (m : BigMem) (de dv q : Nat) : BigMem × Option MErr :=
  if m dv = 0 then (m, some .divByZero)
  else
    let r : Int := ((m de).tmod (m dv)).natAbs
    let m1 := Function.update m q ((m de).tdiv (m dv))
    let halfdv : Int := ((m1 dv).natAbs / 2 : Nat)
    if ((m1 dv).natAbs % 2 = 0 ∧ r ≥ halfdv) ∨ ((m1 dv).natAbs % 2 = 1 ∧ r > halfdv) then
      if m1 q ≥ 0 then (Function.update m1 q (m1 q + 1), none) else (Function.update m1 q (m1 q - 1), none)
    else (m1, none)

/-- math/math.go:355-370 the `*big.Rat` entry of `toDiv`; Quo handles operands that are the result. -/
def divRatMem (m : Nat → ℚ) (de dv q : Nat) : (Nat → ℚ) × Option MErr :=
  if m dv = 0 then (m, some .divByZero) else (Function.update m q (m de / m dv), none)

end Micro.MathInt
