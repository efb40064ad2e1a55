import Verif.Conv.Model
import Verif.Conv.FloatSpec
import Mathlib.Data.Int.Log
import Mathlib.Data.Nat.Log
import Mathlib.Data.Rat.Floor
/-
Model of package conv: conversions from and to float32, float64, *big.Float and *big.Rat.

Numbers are rationals. Simplifications: -0 and 0 are the same number; a *big.Float is its value (its precision is only used
while the value is computed). Error messages are not modelled.
-/
namespace Micro.Conv
open Micro

/-- A float32 or float64 value. -/
inductive Flt where
  | nan
  | inf (neg : Bool)
  | fin (q : ℚ)
  deriving DecidableEq

/-- Rounding to the nearest integer, ties to even (IEEE 754 roundTiesToEven, big.ToNearestEven). -/
def rne (x : ℚ) : ℤ :=
  if x - ⌊x⌋ < 1 / 2 then ⌊x⌋
  else if x - ⌊x⌋ > 1 / 2 then ⌊x⌋ + 1
  else if ⌊x⌋ % 2 = 0 then ⌊x⌋ else ⌊x⌋ + 1

/-- Rounding to a multiple of b^e. -/
def roundAt (b : ℕ) (e : ℤ) (q : ℚ) : ℚ := rne (q / (b : ℚ) ^ e) * (b : ℚ) ^ e

/-- Rounding to `n` significant digits in base `b`. -/
def roundSig (b n : ℕ) (q : ℚ) : ℚ := if q = 0 then 0 else roundAt b (Int.log b |q| - (n - 1)) q

/-- Rounding to a number of a floating point format, without an upper limit of the exponent. -/
def roundFloat (f : Fmt) (q : ℚ) : ℚ :=
  if q = 0 then 0 else roundAt 2 (max (Int.log 2 |q| - (f.prec - 1)) f.emin) q

/-- The part of a number before the point. -/
def trunc (x : ℚ) : ℤ := if 0 ≤ x then ⌊x⌋ else ⌈x⌉

/-! ### Integers to floats -/

/-- The Go conversion of a float to an integer type: the fraction is discarded; if the result does not fit the type, the
value is up to the implementation (Go specification, "Conversions between numeric types"), here `oor`. -/
def castToInt (oor : Kind → ℚ → Int) (k : Kind) (x : ℚ) : Int := if k.InRange (trunc x) then trunc x else oor k x

/-- Out of range conversions on amd64: CVTTSD2SQ gives the smallest integer. For the unsigned types it is the value at the
only out of range numbers that IntToFloat meets, 2^32 and 2^64. -/
def amd64 (k : Kind) (_ : ℚ) : Int := if k.signed then k.minV else 0

/-- Out of range conversions on arm64: FCVTZS and FCVTZU saturate. -/
def arm64 (k : Kind) (x : ℚ) : Int := if 0 ≤ x then k.maxV else k.minV

/-- conv/float.go:19-30 `IntToFloat`. -/
def intToFloat (oor : Kind → ℚ → Int) (f : Fmt) (k : Kind) (ival : Int) (cur : ℚ) : Res ℚ :=
  let inter := roundFloat f ival
  if ival ≠ castToInt oor k inter then ⟨cur, true⟩ else ⟨inter, false⟩

/-- conv/conv.go:658-691: the integer entries with a float32 target; `true` is a call of IntToFloat, `false` a cast. -/
def checked32 : Kind → Bool
  | .int | .int32 | .int64 | .uint | .uint32 | .uint64 => true
  | .int8 | .int16 | .uint8 | .uint16 => false

/-- conv/conv.go:721-756: the integer entries with a float64 target. -/
def checked64 : Kind → Bool
  | .int | .int64 | .uint | .uint64 => true
  | .int8 | .int16 | .int32 | .uint8 | .uint16 | .uint32 => false

/-- The integer to float entries of the conversion table. -/
def intTo (oor : Kind → ℚ → Int) (f : Fmt) (checked : Kind → Bool) (k : Kind) (ival : Int) (cur : ℚ) : Res ℚ :=
  if checked k then intToFloat oor f k ival cur else ⟨roundFloat f ival, false⟩

/-! ### Floats to floats -/

/-- conv/float.go:39-52 `FloatToFloat`, to a float32 (`f = float32`) or to a float64. -/
def floatToFloat (is32 : Bool) (ival cur : Flt) : Res Flt :=
  match ival with
  | .nan => ⟨.nan, false⟩
  | .inf n => ⟨.inf n, false⟩
  | .fin q =>
    if is32 = true ∧ ((q ≠ 0 ∧ |q| < float32.smallest) ∨ |q| > float32.max) then ⟨cur, true⟩
    else ⟨.fin (roundFloat (if is32 then float32 else float64) q), false⟩

/-! ### *big.Float and *big.Rat -/

/-- conv/bigfloat.go:16, 50, 64: ceil(n * log2(10)), i.e. the smallest p with 10^n ≤ 2^p. Simplification: the float64 product
is taken as exact; `bitsFloat` is the float64 computation, the same for up to 174000 digits (`c79_bits`). -/
def bitsFor (n : ℕ) : ℕ := Nat.clog 2 (10 ^ n)

/-- conv/bigfloat.go:15-20 `IntToBigFloat`; SetInt64 rounds to the precision set. -/
def intToBigFloat (k : Kind) (ival : Int) : ℚ := roundSig 2 (bitsFor (integerToString k ival).length) (Kind.int64.wrap ival)

/-- conv/bigfloat.go:23-25 `UintToBigFloat`; big.NewFloat sets the precision to 53, and SetUint64 keeps it. -/
def uintToBigFloat (_k : Kind) (ival : Int) : ℚ := roundSig 2 53 (Kind.uint64.wrap ival)

/-- conv/bigfloat.go:28-35 `FloatToBigFloat`; `none` is an error. -/
def floatToBigFloat : Flt → Option Flt
  | .nan => none
  | x => some x

/-- conv/bigfloat.go:43-45 `BigIntToBigFloat`, through StringToBigFloat (conv/bigfloat.go:59-73) of the decimal digits. -/
def bigIntToBigFloat (ival : Int) : ℚ := roundSig 2 (max 53 (bitsFor (formatInt ival).length)) ival

/-- big.Rat FloatString(n), read back: rounded to n decimals, halves away from zero. -/
def roundDecimals (n : ℕ) (q : ℚ) : ℚ :=
  let r : ℤ := ⌊|q| * 10 ^ n + 1 / 2⌋
  (if q < 0 then -r else r) / 10 ^ n

/-- conv/bigfloat.go:48-55 `BigRatToBigFloat`. Simplification: big.ParseFloat is taken as correctly rounding, although it divides by a power of
five rounded to 64 bits more than the precision. -/
def bigRatToBigFloat (ival : ℚ) : ℚ :=
  let prec := max 53 (bitsFor (formatInt ival.num).length)
  roundSig 2 prec (roundDecimals prec ival)

/-- The number of zeros at the end of a number of at most `f` digits. -/
def trailingZeros : ℕ → ℕ → ℕ
  | 0, _ => 0
  | f + 1, m => if m % 10 = 0 then trailingZeros f (m / 10) + 1 else 0

/-- The power of ten of the last digit other than 0 of a number of ten significant digits. -/
def lastPlace (x : ℚ) : ℤ :=
  let l := Int.log 10 |x| - 9
  l + trailingZeros 10 (x / 10 ^ l).num.natAbs

/-- conv/string.go:35-37 `BigFloatToString`, read back by big.Rat SetString: String is Text('g', 10), i.e. ten significant
digits. conv/bigrat.go:47-54 `BigFloatToBigRat`; `none` is an error, `some none` is the nil pointer without an error: SetString refuses powers of
ten beyond 10^6, and its result is not checked. -/
def bigFloatToBigRat : Flt → Option (Option ℚ)
  | .fin q =>
    let x := roundSig 10 10 q
    if x = 0 ∨ (lastPlace x).natAbs ≤ 1000000 then some (some x) else some none
  | _ => none

/-- conv/bigrat.go:25-34 `FloatToBigRat`, which calls BigFloatToBigRat; no float64 reaches the powers of ten which that refuses (`c79_float64_rat`). -/
def floatToBigRat : Flt → Option ℚ
  | .fin q => some (roundSig 10 10 q)
  | _ => none

/-- conv/bigrat.go:15-17 `IntToBigRat`, 20-22 `UintToBigRat`; conv/bigrat.go:42-44 `BigIntToBigRat`. -/
def integerToBigRat (k : Kind) (ival : Int) : ℚ := integerToBigInt k ival

/-! ### To integers -/

/-- conv/bigint.go:79-86 `BigRatToBigInt`; `none` is an error. -/
def bigRatToBigInt (q : ℚ) : Option Int := if q.den = 1 then some q.num else none

/-- conv/bigint.go:40-53 `FloatToBigInt`; SetFloat64 is exact. -/
def floatToBigInt : Flt → Option Int
  | .fin q => if q.den = 1 then some q.num else none
  | _ => none

/-- conv/bigint.go:62-70 `BigFloatToBigInt`; Rat(nil) is exact, and nil for an infinity. -/
def bigFloatToBigInt : Flt → Option Int
  | .fin q => if q.den = 1 then some q.num else none
  | _ => none

/-- conv/int.go:210-217 `BigRatToInt64`. -/
def bigRatToInt64 (q : ℚ) (cur : Int) : Res Int :=
  if ¬ q.den = 1 ∨ ¬ Kind.int64.InRange q.num then ⟨cur, true⟩ else ⟨q.num, false⟩

/-- conv/int.go:277-284 `BigRatToUint64`. -/
def bigRatToUint64 (q : ℚ) (cur : Int) : Res Int :=
  if ¬ q.den = 1 ∨ ¬ Kind.uint64.InRange q.num then ⟨cur, true⟩ else ⟨q.num, false⟩

/-- conv/int.go:194-201 `BigFloatToInt64`. -/
def bigFloatToInt64 (x : Flt) (cur : Int) : Res Int :=
  match bigFloatToBigInt x with
  | none => ⟨cur, true⟩
  | some i => bigIntToInt64 i cur

/-- conv/int.go:261-268 `BigFloatToUint64`. -/
def bigFloatToUint64 (x : Flt) (cur : Int) : Res Int :=
  match bigFloatToBigInt x with
  | none => ⟨cur, true⟩
  | some i => bigIntToUint64 i cur

/-- conv/int.go:92-103 `FloatToInt`. -/
def floatToInt (k : Kind) (x : Flt) (cur : Int) : Res Int :=
  match floatToBigRat x with
  | none => ⟨cur, true⟩
  | some q =>
    let r := bigRatToInt64 q 0
    if r.failed then ⟨cur, true⟩ else intToInt .int64 k r.target cur

/-- conv/int.go:156-167 `FloatToUint`. -/
def floatToUint (k : Kind) (x : Flt) (cur : Int) : Res Int :=
  match floatToBigRat x with
  | none => ⟨cur, true⟩
  | some q =>
    let r := bigRatToUint64 q 0
    if r.failed then ⟨cur, true⟩ else uintToUint .uint64 k r.target cur

/-! ### Big numbers to floats -/

/-- big.Float.Float32/Float64 and big.Rat.Float32/Float64 (standard library): the nearest value, an infinity from half a unit
above the largest number on, and whether it is exact. -/
def toNearest (f : Fmt) (q : ℚ) : Flt × Bool :=
  let r := roundFloat f q
  if |r| > f.max then (.inf (decide (r < 0)), false) else (.fin r, decide (r = q))

/-- conv/float.go:83-90 `BigFloatToFloat32`, conv/float.go:160-167 `BigFloatToFloat64`. The target is written even when an error is returned. -/
def bigFloatToFloat (f : Fmt) (x : Flt) : Res Flt :=
  match x with
  | .fin q => let r := toNearest f q; ⟨r.1, !r.2⟩
  | x => ⟨x, false⟩

/-- conv/float.go:63-74 `BigIntToFloat32`, conv/float.go:139-151 `BigIntToFloat64`. -/
def bigIntToFloat (f : Fmt) (ival : Int) : Res Flt :=
  let r := toNearest f (bigIntToBigFloat ival)
  ⟨r.1, !r.2⟩

/-- conv/float.go:99-106 `BigRatToFloat32`, conv/float.go:176-183 `BigRatToFloat64`. -/
def bigRatToFloat (f : Fmt) (q : ℚ) : Res Flt :=
  let r := toNearest f q
  ⟨r.1, !r.2⟩

/-- conv/conv.go:695-701: the *big.Int to float32 entry of the conversion table: through a float64. -/
def bigIntToFloat32Entry (ival : Int) (cur : Flt) : Res Flt :=
  let r := bigIntToFloat float64 ival
  if r.failed then ⟨cur, true⟩ else floatToFloat true r.target cur

end Micro.Conv
