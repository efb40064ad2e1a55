import Verif.MathInt.BigDivModel
import Verif.Conv.FloatModel
/-
Model of math.Div and math.DivBigOps for *big.Float with pointers, and for quotients that are nil pointers.
-/
namespace Micro.MathInt
open Micro

/-- The value of a big.Float (standard library): zeros and infinities have signs; a finite value is not zero. -/
inductive BFVal where
  | zero (neg : Bool)
  | fin (q : ℚ)
  | inf (neg : Bool)

/-- The sign bit. -/
def BFVal.neg : BFVal → Bool
  | .zero n => n
  | .fin q => decide (q < 0)
  | .inf n => n

/-- A big.Float (standard library): precision in bits and value. -/
structure BF where
  prec : Nat
  val : BFVal

/-- Memory of big.Float values; addresses from `next` on are free. -/
structure BFMem where
  obj : Nat → BF
  next : Nat

/-- (*big.Float).Quo (standard library): `none` is the panic ErrNaN. A receiver of precision 0 takes the larger precision of the operands.
Simplified: the rounding mode is the default ToNearestEven, and exponents have no limit. -/
def bfQuo (z x y : BF) : Option BF :=
  let p := if z.prec = 0 then max x.prec y.prec else z.prec
  let neg := x.val.neg != y.val.neg
  match x.val, y.val with
  | .fin a, .fin b => some ⟨p, .fin (Conv.roundSig 2 p (a / b))⟩
  | .zero _, .zero _ => none
  | .inf _, .inf _ => none
  | .zero _, _ => some ⟨p, .zero neg⟩
  | .fin _, .inf _ => some ⟨p, .zero neg⟩
  | _, _ => some ⟨p, .inf neg⟩

/-- Sign() == 0. -/
def BFVal.isZero : BFVal → Bool
  | .zero _ => true
  | _ => false

/-- IsInf(). -/
def BFVal.isInf : BFVal → Bool
  | .inf _ => true
  | _ => false

/-- What a division does: the error big.ErrNaN, a panic, or nothing special. -/
inductive BFErr where
  | nan | panic
  deriving DecidableEq

/-- math/math.go:337-353 the `*big.Float` entry of `toDiv` (called by math/math.go:506-510 `Div` and math/math.go:513-517 `DivBigOps`): dividend
and divisor are pointers, the quotient variable holds a pointer or nil. The result is the memory, the pointer in the quotient variable,
and the error. -/
def divFloatMem (m : BFMem) (de dv : Nat) (q : Option Nat) : BFMem × Nat × Option BFErr :=
  let (m1, qb) : BFMem × Nat := match q with
    | none => (⟨Function.update m.obj m.next ⟨53, .zero false⟩, m.next + 1⟩, m.next)
    | some a => (m, a)
  if ((m1.obj de).val.isZero && (m1.obj dv).val.isZero) || ((m1.obj de).val.isInf && (m1.obj dv).val.isInf) then (m1, qb, some .nan)
  else match bfQuo (m1.obj qb) (m1.obj de) (m1.obj dv) with
    | none => (m1, qb, some .panic)
    | some r => (⟨Function.update m1.obj qb r, m1.next⟩, qb, none)

/-- math/math.go:304-335 the `*big.Int` entry of `toDiv` with a quotient variable that may be nil: it is allocated before the divisor is
checked. `next` is a free address. -/
def divBigVar (m : BigMem) (next : Nat) (de dv : Nat) (q : Option Nat) : BigMem × Nat × Option MErr :=
  match q with
  | none => let r := divBigMem (Function.update m next 0) de dv next; (r.1, next, r.2)
  | some a => let r := divBigMem m de dv a; (r.1, a, r.2)

/-- math/math.go:355-370 the `*big.Rat` entry of `toDiv` with a quotient variable that may be nil. -/
def divRatVar (m : Nat → ℚ) (next : Nat) (de dv : Nat) (q : Option Nat) : (Nat → ℚ) × Nat × Option MErr :=
  match q with
  | none => let r := divRatMem (Function.update m next 0) de dv next; (r.1, next, r.2)
  | some a => let r := divRatMem m de dv a; (r.1, a, r.2)

end Micro.MathInt
