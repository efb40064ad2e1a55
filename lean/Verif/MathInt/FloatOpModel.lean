import Verif.MathInt.FloatDivModel
import Verif.Conv.FloatModel
/-
Model of math.Abs and math.Div for float32 and float64, with signed zeros, infinities and NaN, and of math.Abs for the big types with
pointers.
-/
namespace Micro.MathInt
open Micro Micro.Conv

/-- A float32 or float64 value (IEEE 754) of a format: a finite value is not zero; there is one NaN. -/
inductive GoFlt where
  | nan
  | zero (neg : Bool)
  | fin (q : ℚ)
  | inf (neg : Bool)
  deriving DecidableEq

/-- The sign bit of a value that is not NaN. -/
def GoFlt.neg : GoFlt → Bool
  | .nan => false
  | .zero n => n
  | .fin q => decide (q < 0)
  | .inf n => n

/-- Rounding of an exact result other than 0 to the format (IEEE 754): too large becomes an infinity, too small a zero of the same sign. -/
def ieeeRound (f : Fmt) (q : ℚ) : GoFlt :=
  let r := roundFloat f q
  if |r| > f.max then .inf (decide (q < 0)) else if r = 0 then .zero (decide (q < 0)) else .fin r

/-- Go's operator / on floats (IEEE 754 division, standard). -/
def ieeeQuo (f : Fmt) (x y : GoFlt) : GoFlt :=
  let neg := x.neg != y.neg
  match x, y with
  | .nan, _ => .nan
  | _, .nan => .nan
  | .zero _, .zero _ => .nan
  | .inf _, .inf _ => .nan
  | .zero _, _ => .zero neg
  | _, .zero _ => .inf neg
  | .inf _, _ => .inf neg
  | _, .inf _ => .zero neg
  | .fin a, .fin b => ieeeRound f (a / b)

/-- math.Abs of the standard library, on float64: clears the sign bit. -/
def f64Abs : GoFlt → GoFlt
  | .nan => .nan
  | .zero _ => .zero false
  | .fin q => .fin |q|
  | .inf _ => .inf false

/-- Go's conversion of a float32 or float64 value to a format. -/
def toFmt (f : Fmt) : GoFlt → GoFlt
  | .fin q => ieeeRound f q
  | x => x

/-- math/math.go:117-122 the `float32` entry of `toAbs`: float32(math.Abs(float64(*f))). -/
def absF32 (x : GoFlt) : GoFlt × Option MErr := (toFmt float32 (f64Abs (toFmt float64 x)), none)

/-- math/math.go:124-129 the `float64` entry of `toAbs`. -/
def absF64 (x : GoFlt) : GoFlt × Option MErr := (f64Abs x, none)

/-- math/math.go:294-302 the `float32` (`f = float32`) and `float64` entries of `toDiv`: the quotient variable gets dividend / divisor. -/
def divF (f : Fmt) (de dv : GoFlt) (_cur : GoFlt) : GoFlt × Option MErr := (ieeeQuo f de dv, none)

/-- math/math.go:131-150 the `*big.Int` and `*big.Rat` entries of `toAbs`: (*i).Abs(*i) stores the absolute value in the number pointed to. `none` is the
panic for a nil pointer. -/
def absBigMem {R : Type} [Lattice R] [AddGroup R] (m : Nat → R) (p : Option Nat) : Option (Nat → R) :=
  p.map (fun a => Function.update m a |m a|)

/-- math/math.go:138-143 the `*big.Float` entry of `toAbs`: (*f).Abs(*f) clears the sign of the number pointed to, and keeps its precision. -/
def absFloatMem (m : BFMem) (p : Option Nat) : Option BFMem :=
  p.map (fun a => ⟨Function.update m.obj a ⟨(m.obj a).prec, match (m.obj a).val with
    | .zero _ => .zero false
    | .fin q => .fin |q|
    | .inf _ => .inf false⟩, m.next⟩)

end Micro.MathInt
