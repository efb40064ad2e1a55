import Verif.Go
import Verif.Digits
import Verif.Conv.Model
/-
Model of math/decimal.go.
int64 arithmetic that can leave the range is wrapped explicitly (`w`); `uint` scales are natural
numbers. Error values carry their kind only, not the formatted message.
-/
namespace Micro.Dec
open Micro

/-- Kinds of errors (math/decimal.go:85-116). -/
inductive DErr where
  | scaleTooLarge | valueTooLarge | valueTooSmall | invalidString | tooLargeToRound | tooSmallToRound
  | overflow | underflow | divByZero | divisorTooLarge
  deriving DecidableEq, Repr

/-- math/decimal.go:124-128 `Decimal`. -/
structure Decimal where
  value : Int
  scale : Nat
  denormalized : Bool
  deriving DecidableEq, Repr

/-- Result of an int64 operation. -/
def w (x : Int) : Int := Kind.int64.wrap x

/-- math/decimal.go:57 decimalMaxValue. -/
abbrev maxValue : Int := 999999999999999999
/-- math/decimal.go:61 decimalMinValue. -/
abbrev minValue : Int := -999999999999999999
/-- math/decimal.go:69 decimalRoundMaxValue. -/
abbrev roundMaxValue : Int := 999999999999999994
/-- math/decimal.go:73 decimalRoundMinValue. -/
abbrev roundMinValue : Int := -999999999999999994
/-- math/decimal.go:53 decimalMaxScale. -/
abbrev maxScale : Nat := 18

/-- The loop of math/decimal.go:485-511 `Decimal.Normalize`:
`for q, r := v/10, v%10; (s > 0) && (r == 0); q, r = q/10, q%10 { v = q; s-- }`. -/
def normLoop : Nat → Int → Int → Int → Int × Nat
  | 0, v, _, _ => (v, 0)
  | s + 1, v, q, r => if r = 0 then normLoop s q (q.tdiv 10) (q.tmod 10) else (v, s + 1)

/-- math/decimal.go:485-511 `Decimal.Normalize`. -/
def Decimal.normalize (d : Decimal) : Decimal :=
  if d.value = 0 then { d with scale := 0 }
  else if d.scale > 0 then
    let neg := d.value < 0
    let v := if neg then w (-d.value) else d.value
    let vs := normLoop d.scale v (v.tdiv 10) (v.tmod 10)
    { d with value := if neg then w (-vs.1) else vs.1, scale := vs.2 }
  else d

/-- math/decimal.go:515-520 `Decimal.applyNormalization`. -/
def Decimal.applyNormalization (d : Decimal) : Decimal :=
  if d.value = 0 ∨ d.denormalized = false then d.normalize else d

/-- math/decimal.go:132-155 `OfDecimal`; `normalized` is the variadic argument. -/
def ofDecimal (value : Int) (scale : Nat) (normalized : List Bool) : Out DErr Decimal :=
  if scale > maxScale then .err .scaleTooLarge
  else if value > maxValue then .err .valueTooLarge
  else if value < minValue then .err .valueTooSmall
  else .ok (Decimal.applyNormalization ⟨value, scale, !(normalized.head?.getD true)⟩)

/-- Submatches of decimalRegex `(-?)([0-9]*)[.]?([0-9]*)` (math/decimal.go:19): all parts are optional,
so the leftmost match is at position 0 and each part is greedy. -/
structure Parts where
  whole : List Char
  minus : List Char
  int : List Char
  frac : List Char

/-- FindStringSubmatch for decimalRegex. -/
def matchDecimal (s : List Char) : Parts :=
  let minus := if s.head? = some '-' then ['-'] else []
  let s1 := s.drop minus.length
  let ip := s1.takeWhile isDigit
  let s2 := s1.dropWhile isDigit
  let dot := if s2.head? = some '.' then ['.'] else []
  let fp := (s2.drop dot.length).takeWhile isDigit
  ⟨minus ++ ip ++ dot ++ fp, minus, ip, fp⟩

/-- math/decimal.go:165-188 `StringToDecimal`. The error of StringToInt64 is ignored by the code; its
target is overwritten nevertheless. -/
def stringToDecimal (s : List Char) : Out DErr Decimal :=
  let p := matchDecimal s
  if p.whole = [] ∨ p.int.length + p.frac.length > 18 then .err .invalidString
  else
    let v := (Conv.stringToInt64 (p.int ++ p.frac) 0).target
    .ok ⟨if p.minus.length > 0 then w (-v) else v, p.frac.length, false⟩

/-- conv.IntToString of the absolute value, as in String and AdjustDecimalScale. -/
def absDigits (v : Int) : List Char :=
  Conv.integerToString .int64 (if v < 0 then w (-v) else v)

/-- math/decimal.go:196-224 `Decimal.String`. -/
def Decimal.string (d : Decimal) : List Char :=
  let str := absDigits d.value
  let numSig := str.length
  let str :=
    if d.scale = 0 then str
    else if numSig ≤ d.scale then ['0', '.'] ++ List.replicate (d.scale - numSig) '0' ++ str
    else str.take (numSig - d.scale) ++ ['.'] ++ str.drop (numSig - d.scale)
  if d.value < 0 then '-' :: str else str

/-- strings.Replace(s, c, "", 1). -/
def removeFirst (c : Char) : List Char → List Char
  | [] => []
  | x :: xs => if x = c then xs else x :: removeFirst c xs

/-- math/decimal.go:228-231 `Decimal.Precision`. -/
def Decimal.precision (d : Decimal) : Nat :=
  (removeFirst '.' (removeFirst '-' d.string)).length

/-- math/decimal.go:249-258 `Decimal.Sign`. -/
def Decimal.sign (d : Decimal) : Int :=
  if d.value > 0 then 1 else if d.value < 0 then -1 else 0

/-- `for i := 0; i < n; i++ { v *= 10 }` (math/decimal.go:296-298). -/
def mulTens : Nat → Int → Int
  | 0, v => v
  | n + 1, v => mulTens n (w (v * 10))

/-- math/decimal.go:328-332: the carry loop; the digits are given last one first. -/
def carryLoop : Bool → List Char → Bool × List Char
  | round, [] => (round, [])
  | false, cs => (false, cs)
  | true, c :: cs =>
    let round := decide (c = '9')
    let r := carryLoop round cs
    (r.1, (if round then '0' else Char.ofNat (c.toNat + 1)) :: r.2)

/-- The part of math/decimal.go:271-349 `AdjustDecimalScale` after the swap: d1 has the larger scale.
`none` is a run time panic (index out of range). -/
def adjustLarger (d1 d2 : Decimal) : Option (Option DErr × Decimal × Decimal) :=
  let str1 := absDigits d1.value
  let str2 := absDigits d2.value
  let len1 : Int := str1.length
  let d2Capacity : Int := (maxScale : Int) - str2.length
  let scaleDiff := d1.scale - d2.scale
  if d2Capacity ≥ scaleDiff then
    some (none, d1, { d2 with value := mulTens scaleDiff d2.value, scale := d1.scale })
  else if d2.value > roundMaxValue then some (some .tooLargeToRound, d1, d2)
  else if d2.value < roundMinValue then some (some .tooSmallToRound, d1, d2)
  else if len1 - scaleDiff < 0 then none
  else
    let keep := (len1 - scaleDiff).toNat
    let round := decide ((str1.getD keep '0').toNat ≥ '5'.toNat)
    let r := carryLoop round (str1.take keep).reverse
    let str1' := if r.1 then '1' :: r.2.reverse else r.2.reverse
    let v := (Conv.stringToInt64 str1' d1.value).target
    some (none, { d1 with scale := d2.scale, value := if d1.value < 0 then w (-v) else v }, d2)

/-- math/decimal.go:271-349 `AdjustDecimalScale`: error, new *d1, new *d2. -/
def adjustDecimalScale (d1 d2 : Decimal) : Option (Option DErr × Decimal × Decimal) :=
  if d1.scale = d2.scale then some (none, d1, d2)
  else if d1.scale < d2.scale then
    match adjustLarger d2 d1 with
    | none => none
    | some (e, d2', d1') => some (e, d1', d2')
  else adjustLarger d1 d2

/-- strings.Split(s, ".") for at most one separator: the part before and, if there is one, the part
after the first dot. (Decimal.String has at most one dot.) -/
def splitDot (s : List Char) : List Char × Option (List Char) :=
  match s.dropWhile (· ≠ '.') with
  | [] => (s, none)
  | _ :: rest => (s.takeWhile (· ≠ '.'), some rest)

/-- math/decimal.go:367-431 `AdjustDecimalFormat`. -/
def adjustDecimalFormat (d1 d2 : Decimal) : List Char × List Char :=
  let str1 := d1.string
  let str2 := d2.string
  let minus1 := str1.head? = some '-'
  let minus2 := str2.head? = some '-'
  let parts1 := splitDot (removeFirst '-' str1)
  let parts2 := splitDot (removeFirst '-' str2)
  let int1 := parts1.1
  let int2 := parts2.1
  let frac1 := parts1.2.getD []
  let frac2 := parts2.2.getD []
  let mi := max int1.length int2.length
  let mf := max frac1.length frac2.length
  let tz1 := List.replicate (mf - frac1.length) '0'
  let tz2 := List.replicate (mf - frac2.length) '0'
  ((if minus1 then '-' else ' ') :: (List.replicate (mi - int1.length) '0' ++ int1 ++
      (if frac1.length > 0 ∨ tz1.length > 0 then '.' :: (frac1 ++ tz1) else [])),
   (if minus2 then '-' else ' ') :: (List.replicate (mi - int2.length) '0' ++ int2 ++
      (if frac2.length > 0 ∨ tz2.length > 0 then '.' :: (frac2 ++ tz2) else [])))

/-- math/math.go:428-436 `CmpOrdered` for strings: Go compares strings lexicographically by bytes (all
characters here are ASCII). -/
def cmpStrings : List Char → List Char → Int
  | [], [] => 0
  | [], _ :: _ => -1
  | _ :: _, [] => 1
  | a :: as, b :: bs =>
    if a.toNat < b.toNat then -1 else if b.toNat < a.toNat then 1 else cmpStrings as bs

/-- math/decimal.go:434-451 `Decimal.Cmp`. -/
def Decimal.cmp (d o : Decimal) : Int :=
  let (da, oa) := adjustDecimalFormat d o
  let compare := cmpStrings da oa
  let ds := da.headD ' '
  let os := oa.headD ' '
  if (ds = '-' ∧ os = ' ') ∨ (ds = '-' ∧ os = '-') ∨ (ds = ' ' ∧ os = '-') then -compare else compare

/-- math/decimal.go:455-457 `Decimal.Negate`. -/
def Decimal.negate (d : Decimal) : Decimal := { d with value := w (-d.value) }

/-- math/decimal.go:461-478 `Decimal.MagnitudeLessThanOne`: the table powersOf10 has 19 entries, a
larger index panics (`none`). -/
def Decimal.magnitudeLessThanOne (d : Decimal) : Option Bool :=
  let absVal := if d.value < 0 then w (-d.value) else d.value
  if d.scale ≤ 18 then some (decide (absVal < 10 ^ d.scale)) else none

/-- math/decimal.go:528-556 `addDecimal`. -/
def addDecimal (d o : Decimal) : Out DErr Decimal :=
  match adjustDecimalScale d o with
  | none => .panic
  | some (some e, _, _) => .err e
  | some (none, r, oc) =>
    let r : Decimal := { r with value := w (r.value + oc.value) }
    let rs := r.sign
    let ocs := oc.sign
    if rs = ocs ∧ rs = 1 ∧ r.value > maxValue then .err .overflow
    else if rs = ocs ∧ rs ≠ 1 ∧ r.value < minValue then .err .underflow
    else .ok r.applyNormalization

/-- math/decimal.go:564-566 `Decimal.Add`. -/
def Decimal.add (d o : Decimal) : Out DErr Decimal := addDecimal d o

/-- math/decimal.go:579-581 `Decimal.Sub`. -/
def Decimal.sub (d o : Decimal) : Out DErr Decimal := addDecimal d o.negate

/-- math/decimal.go:648-652: remove trailing zeros after the decimal point; digits are given last one
first. (The digit string of a non-zero number never becomes empty.) -/
def mulStrip : List Char → Nat → List Char × Nat
  | [], rscale => ([], rscale)
  | c :: cs, rscale =>
    if rscale > 0 ∧ digitVal c = 0 then mulStrip cs (rscale - 1) else (c :: cs, rscale)

/-- math/decimal.go:660-670: drop digits until 18 are left, tracking the carry; digits last one first.
(rscale cannot go below 0: the number of integer digits was checked to be at most 18.) -/
def mulRound : List Char → Nat → Nat → List Char × Nat × Nat
  | [], carry, rscale => ([], carry, rscale)
  | c :: cs, carry, rscale =>
    if (c :: cs).length > 18 then
      mulRound cs (if digitVal c + carry ≥ 5 then 1 else 0) (rscale - 1)
    else (c :: cs, carry, rscale)

/-- math/decimal.go:709-716: `for rscale > 18 { round off one digit }`; `k` is rscale - 18. -/
def mulScaleDown : Nat → Int → Int
  | 0, rval => rval
  | k + 1, rval =>
    mulScaleDown k (if rval.tmod 10 ≥ 5 then w (rval.tdiv 10 + 1) else rval.tdiv 10)

/-- math/decimal.go:689-706: the 19 digit adjustment; `none` is the overflow error. The scale is not
changed. -/
def mulRound19 (round19 : Bool) (rval : Int) (rscale : Nat) : Option Int :=
  if round19 = true ∧ rval > maxValue then
    if rscale = 0 then none
    else
      let q := rval.tdiv 10
      if rval.tmod 10 ≥ 5 then
        if w (q + 1) > maxValue then none else some (w (q + 1))
      else some q
  else some rval

/-- math/decimal.go:641-686: the big.Int path; result rval, rscale, round19; `none` is the overflow
error. big.Int is exact, so its Text(10) is the digits of the exact product. -/
def mulBig (dval oval : Int) (rscale : Nat) : Option (Int × Nat × Bool) :=
  if rscale = 0 then none
  else
    let (ds, rscale) := mulStrip (natChars (dval * oval).natAbs).reverse rscale
    if (ds.length : Int) - rscale > 18 then none
    else
      let (ds, carry, rscale) := mulRound ds 0 rscale
      let digit := digitVal (ds.headD '0')
      let rval := (Conv.parseInt64 ds.reverse).1
      if carry = 1 ∧ digit ≥ 5 then some (w (rval + 1), rscale, true) else some (rval, rscale, false)

/-- math/decimal.go:689-727: the end of `Decimal.Mul` after the product was computed. -/
def mulEnd (den rpos : Bool) (oflow : DErr) : Option (Int × Nat × Bool) → Out DErr Decimal
  | none => .err oflow
  | some (rval, rscale, round19) =>
    match mulRound19 round19 rval rscale with
    | none => .err oflow
    | some rval =>
      let rval := mulScaleDown (rscale - 18) rval
      let rval := if rpos then rval else w (-rval)
      .ok (Decimal.applyNormalization ⟨rval, min rscale 18, den⟩)

/-- math/decimal.go:602-727 `Decimal.Mul`. -/
def Decimal.mul (d o : Decimal) : Out DErr Decimal :=
  let dpos := decide (d.value ≥ 0)
  let opos := decide (o.value ≥ 0)
  let dval := if dpos then d.value else w (-d.value)
  let oval := if opos then o.value else w (-o.value)
  let rscale := d.scale + o.scale
  let rval := w (dval * oval)
  let rpos := decide (dpos = opos)
  let oflow : DErr := if d.sign = o.sign then .overflow else .underflow
  let r : Option (Int × Nat × Bool) :=
    if dval ≠ 0 then
      if rval.tdiv dval = oval then some (rval, rscale, true) else mulBig dval oval rscale
    else some (rval, rscale, false)
  mulEnd d.denormalized rpos oflow r

/-- `for i := uint(0); i < d.scale; i++ { intPartOfD /= 10 }` (math/decimal.go:751-753). -/
def divTens : Nat → Int → Int
  | 0, v => v
  | n + 1, v => divTens n (v.tdiv 10)

/-- math/decimal.go:742-766 `Decimal.DivIntQuoRem`; `o` is a uint. MustSub panics on an error. -/
def Decimal.divIntQuoRem (d : Decimal) (o : Nat) : Out DErr (Decimal × Decimal) :=
  if o = 0 then .err .divByZero
  else
    let intPartOfD := divTens d.scale (if d.value ≥ 0 then d.value else w (-d.value))
    if w o > intPartOfD then .err .divisorTooLarge
    else
      let q : Decimal := ⟨w (d.value.tdiv (w o)), d.scale, d.denormalized⟩
      match d.sub ⟨w (q.value * w o), d.scale, d.denormalized⟩ with
      | .ok r => .ok (q, r)
      | _ => .panic

/-- The loop of math/decimal.go:776-794 `Decimal.DivIntAdd`: `n` iterations left, `rc` counts down. -/
def divIntAddLoop (d q : Decimal) : Nat → Int → List Decimal
  | 0, _ => []
  | n + 1, rc =>
    ⟨w (q.value + if rc > 0 then 1 else 0), d.scale, d.denormalized⟩ :: divIntAddLoop d q n (w (rc - 1))

/-- math/decimal.go:776-794 `Decimal.DivIntAdd`. `make([]Decimal, o)` panics for o ≥ 2^63; running out
of memory for smaller o is not modelled. -/
def Decimal.divIntAdd (d : Decimal) (o : Nat) : Out DErr (List Decimal) :=
  match d.divIntQuoRem o with
  | .err e => .err e
  | .panic => .panic
  | .ok (q, r) => if o ≥ 9223372036854775808 then .panic else .ok (divIntAddLoop d q o r.value)

/-- math/decimal.go:940-949: `for s < 0 {…}`, `n` = -s iterations; `none` is the over/underflow
error. -/
def divScaleUp : Nat → Int → Int → Option (Int × Int)
  | 0, q, r => some (q, r)
  | n + 1, q, r =>
    let q := w (q * 10)
    let r := w (r * 10)
    if q > maxValue then none else divScaleUp n q r

/-- math/decimal.go:965-967: `for nr < oval { nr *= 10 }`. It need not terminate (`none`). -/
def divGrow (oval nr : Int) : Option Int :=
  if nr < oval then divGrow oval (w (nr * 10)) else some nr
partial_fixpoint

/-- math/decimal.go:973-975: `for nr > 10 { nr /= 10 }`. -/
def divShrink (nr : Int) : Int :=
  if nr > 10 then divShrink (nr.tdiv 10) else nr
termination_by nr.toNat
decreasing_by
  have : nr.tdiv 10 = nr / 10 := Int.tdiv_eq_ediv_of_nonneg (by omega)
  omega

/-- math/decimal.go:951-1001: the main loop (`inner = false`: at `for r != 0`, `inner = true`: at
`for r < oval`). `none`: the loop does not terminate; `some none`: over/underflow; `some (some (q, s))`:
the loop is left with q and s. -/
def divLoop (oval : Int) (inner : Bool) (q r s : Int) : Option (Option (Int × Int)) :=
  if inner = false then
    if r ≠ 0 then divLoop oval true q r s else some (some (q, s))
  else if r < oval then
    let nq := w (q * 10)
    let nr := w (r * 10)
    if nq > maxValue then
      match divGrow oval nr with
      | none => none
      | some nr => if divShrink (nr.tdiv oval) ≥ 5 then some (some (w (q + 1), s)) else some (some (q, s))
    else if nr > maxValue then some none
    else divLoop oval true nq nr (s + 1)
  else divLoop oval false (w (q + r.tdiv oval)) (r.tmod oval) s
partial_fixpoint

/-- math/decimal.go:917-1010 `Decimal.Div`. `none`: does not terminate. `int(d.scale - o.scale)` is the
signed difference. -/
def Decimal.div (d o : Decimal) : Option (Out DErr Decimal) :=
  let dpos := decide (d.value ≥ 0)
  let opos := decide (o.value ≥ 0)
  let dval := if dpos then d.value else w (-d.value)
  let oval := if opos then o.value else w (-o.value)
  let oflow : DErr := if dpos = opos then .overflow else .underflow
  if oval = 0 then some .panic
  else
    match divScaleUp (o.scale - d.scale) (dval.tdiv oval) (dval.tmod oval) with
    | none => some (.err oflow)
    | some (q, r) =>
      match divLoop oval false q r ((d.scale - o.scale : Nat) : Int) with
      | none => none
      | some none => some (.err oflow)
      | some (some (q, s)) =>
        some (.ok ⟨if dpos = opos then q else w (-q), s.toNat, d.denormalized⟩)

end Micro.Dec
