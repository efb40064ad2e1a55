import Verif.Conv.Model
/-
Model of math/math.go (integer part) and math/range.go.
-/
namespace Micro.MathInt
open Micro

/-- math/math.go:55-57 OverflowErr, UnderflowErr, DivByZeroErr; math/math.go:54 absErrMsg. -/
inductive MErr where
  | overflow | underflow | divByZero | abs
  deriving DecidableEq, Repr

/-- math/math.go:395-412 `AddInt`: (new *ae2, error). -/
def addInt (k : Kind) (ae1 ae2 : Int) : Int × Option MErr :=
  let sign1 : Bool := ae1 ≥ 0
  let sign2 : Bool := ae2 ≥ 0
  let ae2' := k.wrap (ae2 + ae1)
  let newSign : Bool := ae2' ≥ 0
  if sign1 = sign2 ∧ sign2 ≠ newSign then
    if sign2 then (ae2', some .overflow) else (ae2', some .underflow)
  else (ae2', none)

/-- math/math.go:416-425 `AddUint`. -/
def addUint (k : Kind) (ae1 ae2 : Int) : Int × Option MErr :=
  let ae2' := k.wrap (ae2 + ae1)
  if ae2' < ae2 then (ae2', some .overflow) else (ae2', none)

/-- math/math.go:455-460 `SubInt`: negate, then AddInt. -/
def subInt (k : Kind) (me sed : Int) : Int × Option MErr :=
  let sed' := k.wrap (-sed)
  addInt k me sed'

/-- math/math.go:464-471 `SubUint`. -/
def subUint (k : Kind) (me sed : Int) : Int × Option MErr :=
  let sed' := k.wrap (me - sed)
  if sed' > me then (sed', some .underflow) else (sed', none)

/-- math/math.go:476-491 `Mul`: multiply as *big.Int, convert back with conv.To. -/
def mul (k : Kind) (mp ma : Int) : Int × Option MErr :=
  let p := Conv.integerToBigInt k mp * Conv.integerToBigInt k ma
  let r := Conv.bigIntTo k p ma
  if r.failed then (r.target, some (if p ≥ 0 then .overflow else .underflow)) else (r.target, none)

/-- math/math.go:18-38 `divSInt` on int64 (Go `/`, `%` truncate; `dv & 1` is the parity of dv). -/
def divSInt (de dv : Int) : Int :=
  let w := Kind.int64.wrap
  let q := w (de.tdiv dv)
  let r := w (de.tmod dv)
  let halfdv := w (dv.tdiv 2)
  let r := if r < 0 then w (-r) else r
  let halfdv := if halfdv < 0 then w (-halfdv) else halfdv
  if (dv % 2 = 0 ∧ r ≥ halfdv) ∨ (dv % 2 = 1 ∧ r > halfdv) then
    if q ≥ 0 then w (q + 1) else w (q - 1)
  else q

/-- math/math.go:41-51 `divUInt` on uint64. -/
def divUInt (de dv : Int) : Int :=
  let w := Kind.uint64.wrap
  let q := w (de.tdiv dv)
  let r := w (de.tmod dv)
  let halfdv := w (dv.tdiv 2)
  if (dv % 2 = 0 ∧ r ≥ halfdv) ∨ (dv % 2 = 1 ∧ r > halfdv) then w (q + 1) else q

/-- math/math.go:156-289 the integer entries of `toDiv`, reached through `Div` (math/math.go:506-510):
error for a zero divisor (quotient untouched), else widen, divide, narrow. -/
def div (k : Kind) (de dv cur : Int) : Int × Option MErr :=
  if dv = 0 then (cur, some .divByZero)
  else if k.signed then (k.wrap (divSInt (Kind.int64.wrap de) (Kind.int64.wrap dv)), none)
  else (k.wrap (divUInt (Kind.uint64.wrap de) (Kind.uint64.wrap dv)), none)

/-- math/math.go:304-335 the `*big.Int` entry of `toDiv`: the same algorithm without overflow.
(`SetBytes(Bytes())` takes the absolute value, `Rsh` halves it.) -/
def divBig (de dv cur : Int) : Int × Option MErr :=
  if dv = 0 then (cur, some .divByZero)
  else
    let q := de.tdiv dv
    let r : Int := (de.tmod dv).natAbs
    let halfdv : Int := (dv.natAbs / 2 : Nat)
    if (dv.natAbs % 2 = 0 ∧ r ≥ halfdv) ∨ (dv.natAbs % 2 = 1 ∧ r > halfdv) then
      if q ≥ 0 then (q + 1, none) else (q - 1, none)
    else (q, none)

/-- math/math.go:62-115 the signed integer entries of `toAbs` and math/math.go:379-388 `Abs` (unsigned
types are returned as they are). -/
def abs (k : Kind) (v : Int) : Int × Option MErr :=
  if k.signed then
    if v < 0 then
      let v' := k.wrap (-v)
      if v' < 0 then (v', some .abs) else (v', none)
    else (v, none)
  else (v, none)

section Compare
variable {α : Type} [LT α] [DecidableLT α]

/-- math/math.go:428-436 `CmpOrdered`. -/
def cmpOrdered (val1 val2 : α) : Int := if val1 < val2 then -1 else if val1 > val2 then 1 else 0

/-- math/math.go:520-526 `MinOrdered`. -/
def minOrdered (val1 val2 : α) : α := if val1 > val2 then val2 else val1

/-- math/math.go:547-553 `MaxOrdered`. -/
def maxOrdered (val1 val2 : α) : α := if val1 < val2 then val2 else val1

variable {γ : Type} (abs : γ → α)

/-- math/math.go:439-451 `CmpComplex`; `abs` is cmplx.Abs. -/
def cmpComplex (val1 val2 : γ) : Int :=
  if abs val1 < abs val2 then -1 else if abs val1 > abs val2 then 1 else 0

/-- math/math.go:529-535 `MinComplex`. -/
def minComplex (val1 val2 : γ) : γ := if abs val1 > abs val2 then val2 else val1

/-- math/math.go:556-562 `MaxComplex`. -/
def maxComplex (val1 val2 : γ) : γ := if abs val1 < abs val2 then val2 else val1

variable (cmp : γ → γ → Int)

/-- math/math.go:538-544 `MinCmp`; `cmp` is the method Cmp. -/
def minCmp (val1 val2 : γ) : γ := if cmp val1 val2 > 0 then val2 else val1

/-- math/math.go:565-571 `MaxCmp`. -/
def maxCmp (val1 val2 : γ) : γ := if cmp val1 val2 < 0 then val2 else val1

end Compare

end Micro.MathInt
