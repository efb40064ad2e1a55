import Verif.Conv.FloatModel
/-
Model of the conversions between text and *big.Int, *big.Rat, *big.Float, float32 and float64.
-/
namespace Micro.Conv
open Micro

/-! ### Texts the Go standard library accepts -/

/-- An optional sign: is it a minus, and what follows. -/
def scanSign : List Char → Bool × List Char
  | '-' :: r => (true, r)
  | '+' :: r => (false, r)
  | r => (false, r)

/-- big.Int SetString(s, 10) (standard library): an optional sign and at least one digit, nothing else. -/
def scanInt (s : List Char) : Option Int :=
  let (neg, r) := scanSign s
  if r ≠ [] ∧ r.all isDigit = true then some (if neg then -(digitsVal r : Int) else digitsVal r) else none

/-- The exponent of a number (math/big scanExponent, standard library): nothing, or e or E, an optional sign and digits, within int64. -/
def scanExp : List Char → Option Int
  | [] => some 0
  | c :: r =>
    if c = 'e' ∨ c = 'E' then
      match scanInt r with
      | some e => if Kind.int64.InRange e then some e else none
      | none => none
    else none

/-- An optional point and digits; what follows them. -/
def scanFrac : List Char → List Char × List Char
  | '.' :: t => (t.takeWhile isDigit, t.dropWhile isDigit)
  | t => ([], t)

/-- A number m·10^k, as read by big.ParseFloat(s, 10, …) and big.Rat SetString (standard library): an optional sign, digits, an optional
point and digits, at least one digit, and an optional exponent. -/
def scanSci (s : List Char) : Option (Int × Int) :=
  let (neg, r) := scanSign s
  let ip := r.takeWhile isDigit
  let fp := (scanFrac (r.dropWhile isDigit)).1
  if ip ++ fp = [] then none
  else (scanExp (scanFrac (r.dropWhile isDigit)).2).map fun e => (if neg then -(digitsVal (ip ++ fp) : Int) else digitsVal (ip ++ fp), e - fp.length)

/-- The parts of the standard library's text conversions that are not modelled: the number big.ParseFloat computes when the power of ten
is too large to be exact in its 64 extra bits, what it does with binary exponents (`1p5`) and exponents beyond 10^8, the number it returns
beside the error in these cases, and what big.Rat SetString does with binary exponents, other bases and underscores. -/
structure TextLib where
  inexact : List Char → ℚ
  beside : List Char → Option Flt
  floats : List Char → Option Flt
  rats : List Char → Option ℚ

/-- The precision of conv/bigfloat.go:64. -/
def textPrec (s : List Char) : ℕ := max 53 (bitsFor s.length)

/-- big.ParseFloat(s, 10, …) and big.Float Parse(s, 10) before rounding (standard library). The mantissa is divided or multiplied by a power
of five computed with 64 bits more than the precision, so the number is exact if this power fits. Simplification: texts of more than 10^8 characters are not considered. -/
def parseFloatText (lib : TextLib) (s : List Char) : Option Flt :=
  if s = "Inf".toList ∨ s = "inf".toList ∨ s = "+Inf".toList ∨ s = "+inf".toList then some (.inf false)
  else if s = "-Inf".toList ∨ s = "-inf".toList then some (.inf true)
  else
    match scanSci s with
    | some (m, k) =>
      if m = 0 then some (.fin 0)
      else if 5 ^ k.natAbs < 2 ^ (textPrec s + 64) then some (.fin (m * 10 ^ k))
      else if k.natAbs ≤ 100000000 then some (.fin (lib.inexact s))
      else lib.floats s
    | none => if 'p' ∈ s ∨ 'P' ∈ s then lib.floats s else none

/-- The number m·10^k as computed by big.ParseFloat with the precision for the text `s`, of which it is the beginning. -/
def besideNumber (lib : TextLib) (s : List Char) (m k : Int) : Option Flt :=
  if m = 0 then some (.fin 0)
  else if 5 ^ k.natAbs < 2 ^ (textPrec s + 64) then some (.fin (roundSig 2 (textPrec s) (m * 10 ^ k)))
  else lib.beside s

/-- What big.ParseFloat(s, 10, …) returns beside an error (standard library; `none` is nil): the number the text begins with, if only the
characters after it are wrong, and nil if there is no digit at the beginning or the exponent is not a number within int64. -/
def besideError (lib : TextLib) (s : List Char) : Option Flt :=
  let (neg, r) := scanSign s
  let ip := r.takeWhile isDigit
  let fp := (scanFrac (r.dropWhile isDigit)).1
  let m : Int := if neg then -(digitsVal (ip ++ fp) : Int) else digitsVal (ip ++ fp)
  if ip ++ fp = [] then none
  else
    match (scanFrac (r.dropWhile isDigit)).2 with
    | [] => none
    | c :: t =>
      if c = 'e' ∨ c = 'E' then
        let (eneg, u) := scanSign t
        let ds := u.takeWhile isDigit
        let e : Int := if eneg then -(digitsVal ds : Int) else digitsVal ds
        if ds = [] then none
        else if Kind.int64.InRange e then besideNumber lib s m (e - fp.length) else none
      else if c = 'p' ∨ c = 'P' then lib.beside s
      else besideNumber lib s m (-fp.length)

/-- A decimal number without leading zeros. -/
def canonical (s : List Char) : Bool := s ≠ [] ∧ s.all isDigit = true ∧ (s.head? = some '0' → s.length = 1)

/-- big.Rat SetString (standard library): a fraction a/b with b ≠ 0, or a number; a power of ten beyond 10^6 is refused unless the number is
0. Texts with a letter other than e and E or an underscore, and fractions with a leading zero (which selects another base), are left to
`lib`. -/
def parseRatText (lib : TextLib) (s : List Char) : Option ℚ :=
  match s.dropWhile (· ≠ '/') with
  | _ :: den =>
    let (neg, num) := scanSign (s.takeWhile (· ≠ '/'))
    if canonical num ∧ canonical den then
      if digitsVal den = 0 then none
      else some ((if neg then -(digitsVal num : ℚ) else digitsVal num) / digitsVal den)
    else lib.rats s
  | [] =>
    if 'p' ∈ s ∨ 'P' ∈ s ∨ 'x' ∈ s ∨ 'X' ∈ s ∨ 'b' ∈ s ∨ 'B' ∈ s ∨ 'o' ∈ s ∨ 'O' ∈ s ∨ '_' ∈ s then lib.rats s
    else
      match scanSci s with
      | some (m, k) => if m = 0 then some 0 else if k.natAbs ≤ 1000000 then some (m * 10 ^ k) else none
      | none => none

/-! ### conv -/

/-- conv/string.go:30-32 `BigIntToString`. -/
def bigIntToString (v : Int) : List Char := formatInt v

/-- conv/string.go:41-43 `BigRatToString`: always numerator/denominator in lowest terms. -/
def bigRatToString (q : ℚ) : List Char := formatInt q.num ++ '/' :: natChars q.den

/-- A pointer variable after a conversion: what it now points to (`none` is nil), and whether an error was returned. -/
abbrev PRes (α : Type) := Res (Option α)

/-- conv/bigint.go:95-102 `StringToBigInt`: the target is a new 0 before parsing starts. Simplification: after a syntax error its
value, which SetString leaves undefined, is 0. -/
def stringToBigInt (s : List Char) (_cur : Option Int) : PRes Int :=
  match scanInt s with
  | some v => ⟨some v, false⟩
  | none => ⟨some 0, true⟩

/-- conv/bigrat.go:62-69 `StringToBigRat`: SetString returns nil if it fails, and that is stored in the target. -/
def stringToBigRat (lib : TextLib) (s : List Char) (_cur : Option ℚ) : PRes ℚ :=
  match parseRatText lib s with
  | some v => ⟨some v, false⟩
  | none => ⟨none, true⟩

/-- conv/bigrat.go:78-92 `FloatStringToBigRat`; the error of StringToBigRat in line 90 is dropped. -/
def floatStringToBigRat (lib : TextLib) (s : List Char) (cur : Option ℚ) : PRes ℚ :=
  if s = "+Inf".toList ∨ s = "-Inf".toList ∨ s = "NaN".toList then ⟨cur, true⟩
  else
    match parseFloatText lib s with
    | none => ⟨cur, true⟩
    | some _ => ⟨(stringToBigRat lib s cur).target, false⟩

/-- conv/bigfloat.go:59-73 `StringToBigFloat`: the number rounded to the larger of 53 bits and the bits needed for as many decimal digits
as there are characters. The target is whatever big.ParseFloat returned, also beside an error. -/
def stringToBigFloat (lib : TextLib) (s : List Char) (_cur : Option Flt) : PRes Flt :=
  match parseFloatText lib s with
  | none => ⟨besideError lib s, true⟩
  | some (.fin q) => ⟨some (.fin (roundSig 2 (textPrec s) q)), false⟩
  | some x => ⟨some x, false⟩

/-- conv/float.go:115-128 `StringToFloat32`, conv/float.go:192-205 `StringToFloat64`. -/
def stringToFloat (lib : TextLib) (f : Fmt) (s : List Char) (cur : Flt) : Res Flt :=
  if s = "NaN".toList then ⟨.nan, false⟩
  else
    match stringToBigFloat lib s none with
    | ⟨some x, false⟩ => bigFloatToFloat f x
    | _ => ⟨cur, true⟩

end Micro.Conv
