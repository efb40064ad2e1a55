import Verif.Conv.TextModel
/-
Model of the texts of floats: conv/string.go FloatToString, BigFloatToString and BigRatToNormalizedString, with the formatting of strconv and math/big
(standard library) written out.

Simplification: 0 and -0 are the same number, so "-0" is never written.
-/
namespace Micro.Conv
open Micro

/-- The decimal number 0.d₁d₂…dₙ·10^exp (math/big decimal, strconv decimalSlice); no digits for 0. -/
structure Digs where
  mant : List Char
  exp : Int
  deriving DecidableEq

/-- math/big decimal.at: the digit at a position, 0 outside. -/
def Digs.at (d : Digs) (i : Int) : Char := if 0 ≤ i then (d.mant[i.toNat]?).getD '0' else '0'

/-- math/big fmtF and strconv fmtF (%f with `prec` decimals), without the sign. -/
def fmtF (d : Digs) (prec : Nat) : List Char :=
  (if d.exp > 0 then d.mant.take d.exp.toNat ++ List.replicate (d.exp.toNat - d.mant.length) '0' else ['0']) ++
    (if prec > 0 then '.' :: (List.range prec).map (fun i : Nat => d.at (d.exp + (i : Int))) else [])

/-- math/big fmtE (%e with `prec` decimals), without the sign. -/
def fmtE (d : Digs) (prec : Nat) : List Char :=
  (d.mant.head?).getD '0' ::
    ((if prec > 0 then '.' :: ((d.mant.drop 1).take prec ++ List.replicate (prec - (d.mant.length - 1)) '0') else []) ++
      let exp : Int := if d.mant.length > 0 then d.exp - 1 else 0
      'e' :: (if exp < 0 then '-' else '+') :: ((if exp.natAbs < 10 then ['0'] else []) ++ natChars exp.natAbs))

/-- math/big Float.Append with the format 'g' and a precision `prec` (not negative), for digits already rounded to `prec`. -/
def fmtG (prec : Nat) (d : Digs) : List Char :=
  let eprec : Nat := if prec > d.mant.length ∧ (d.mant.length : Int) ≥ d.exp then d.mant.length else prec
  if d.exp - 1 < -4 ∨ d.exp - 1 ≥ eprec then fmtE d ((if prec > d.mant.length then d.mant.length else prec) - 1)
  else fmtF d (((if (prec : Int) > d.exp then (d.mant.length : Int) else prec) - d.exp).toNat)

/-- The decimal digits of a number of ten significant digits, without zeros at the end. -/
def decimalOf (x : ℚ) : Digs :=
  if x = 0 then ⟨[], 0⟩
  else
    let ds := natChars (x / 10 ^ lastPlace x).num.natAbs
    ⟨ds, ds.length + lastPlace x⟩

/-- conv/string.go:35-37 `BigFloatToString`: String is Text('g', 10). A *big.Float is never NaN. -/
def bigFloatToString : Flt → List Char
  | .nan => "NaN".toList
  | .inf neg => if neg then "-Inf".toList else "+Inf".toList
  | .fin q => (if q < 0 then ['-'] else []) ++ fmtG 10 (decimalOf (roundSig 10 10 q))

/-- conv/string.go:47-55 `BigRatToNormalizedString`. -/
def bigRatToNormalizedString (q : ℚ) : List Char :=
  if q.den = 1 then formatInt q.num else bigFloatToString (.fin (bigRatToBigFloat q))

/-- strconv's shortest digits that identify a float among those of its type: which digits is not modelled, only that the nearest float of the type
is the one written. -/
structure ShortestDigits (f : Fmt) where
  digits : ℚ → Digs
  isDigits : ∀ q, ∀ c ∈ (digits q).mant, isDigit c = true
  leading : ∀ q, (digits q).mant.head? ≠ some '0'
  zero : digits 0 = ⟨[], 0⟩
  nonempty : ∀ q, f.Has q → q ≠ 0 → (digits |q|).mant ≠ []
  identify : ∀ q, f.Has q → q ≠ 0 →
    roundFloat f ((if q < 0 then -1 else 1) * (digitsVal (digits |q|).mant * 10 ^ ((digits |q|).exp - (digits |q|).mant.length))) = q

/-- conv/string.go:24-27 `FloatToString`: strconv.FormatFloat with the format 'f' and the shortest precision of the type. -/
def floatToString {f : Fmt} (lib : ShortestDigits f) : Flt → List Char
  | .nan => "NaN".toList
  | .inf neg => if neg then "-Inf".toList else "+Inf".toList
  | .fin q =>
    let d := lib.digits |q|
    (if q < 0 then ['-'] else []) ++ fmtF d ((d.mant.length : Int) - d.exp).toNat

end Micro.Conv
