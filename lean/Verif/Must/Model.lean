import Verif.Decimal.Model
import Verif.Conv.TextModel
import Verif.Json.ValueModel
import Verif.Rest.Model
/-
Model of Must, MustValue, MustValue2 and the Must versions of the functions of conv, math, json and rest.
-/
namespace Micro.Must
open Micro

/-- How a Must function ends: it returns a value, or panics with an error; `none` for a panic of the function it calls. -/
inductive Ret (ε α : Type) where
  | returned (a : α)
  | panicked (e : Option ε)
  deriving DecidableEq

/-- funcs/funcs.go:1076-1080 `Must`, for a function that has returned an error or nil. -/
def must {ε : Type} (err : Option ε) : Ret ε Unit :=
  match err with
  | some e => .panicked (some e)
  | none => .returned ()

/-- funcs/funcs.go:1084-1090 `MustValue` (and 1094-1100 `MustValue2`, with a pair), applied to the call of another function. -/
def mustValue {ε α : Type} : Out ε α → Ret ε α
  | .ok a => .returned a
  | .err e => .panicked (some e)
  | .panic => .panicked none

/-- funcs.Must applied to a conversion: the content of the target when it returns; `none` is a panic. -/
def mustConv {α : Type} (r : Conv.Res α) : Option α :=
  match must (if r.failed then some () else none) with
  | .returned () => some r.target
  | .panicked _ => none

/-! ### math/decimal.go -/
open Dec in
/-- math/decimal.go:158-160 `MustDecimal`. -/
def mustDecimal (value : Int) (scale : Nat) (normalized : List Bool) : Ret DErr Decimal := mustValue (ofDecimal value scale normalized)
open Dec in
/-- math/decimal.go:191-193 `MustStringToDecimal`. -/
def mustStringToDecimal (s : List Char) : Ret DErr Decimal := mustValue (stringToDecimal s)
open Dec in
/-- math/decimal.go:352-354 `MustAdjustDecimalScale`: the decimals afterwards; the outer `none` as in the model of AdjustDecimalScale. -/
def mustAdjustDecimalScale (d1 d2 : Decimal) : Option (Ret DErr Unit × Decimal × Decimal) :=
  (adjustDecimalScale d1 d2).map fun (e, d1, d2) => (must e, d1, d2)
open Dec in
/-- math/decimal.go:569-571 `MustAdd`. -/
def mustAdd (d o : Decimal) : Ret DErr Decimal := mustValue (d.add o)
open Dec in
/-- math/decimal.go:584-586 `MustSub`. -/
def mustSub (d o : Decimal) : Ret DErr Decimal := mustValue (d.sub o)
open Dec in
/-- math/decimal.go:730-732 `MustMul`. -/
def mustMul (d o : Decimal) : Ret DErr Decimal := mustValue (d.mul o)
open Dec in
/-- math/decimal.go:769-771 `MustDivIntQuoRem`. -/
def mustDivIntQuoRem (d : Decimal) (o : Nat) : Ret DErr (Decimal × Decimal) := mustValue (d.divIntQuoRem o)
open Dec in
/-- math/decimal.go:797-799 `MustDivIntAdd`. -/
def mustDivIntAdd (d : Decimal) (o : Nat) : Ret DErr (List Decimal) := mustValue (d.divIntAdd o)
open Dec in
/-- math/decimal.go:1013-1015 `MustDiv`; `none` if Div does not return. -/
def mustDiv (d o : Decimal) : Option (Ret DErr Decimal) := (d.div o).map mustValue
open Dec in
/-- math/decimal.go:234-236 `Scale`. -/
def scale (d : Decimal) : Nat := d.scale
open Dec in
/-- math/decimal.go:239-241 `Normalized`. -/
def normalized (d : Decimal) : Bool := !d.denormalized

/-! ### conv -/
open Conv

/-- conv/int.go:65-67 `MustIntToInt`. -/
def mustIntToInt (s t : Kind) (ival cur : Int) : Option Int := mustConv (intToInt s t ival cur)
/-- conv/int.go:86-88 `MustUintToInt`. -/
def mustUintToInt (s t : Kind) (ival cur : Int) : Option Int := mustConv (uintToInt s t ival cur)
/-- conv/int.go:129-131 `MustIntToUint`. -/
def mustIntToUint (s t : Kind) (ival cur : Int) : Option Int := mustConv (intToUint s t ival cur)
/-- conv/int.go:150-152 `MustUintToUint`. -/
def mustUintToUint (s t : Kind) (ival cur : Int) : Option Int := mustConv (uintToUint s t ival cur)
/-- conv/int.go:106-108 `MustFloatToInt`. -/
def mustFloatToInt (k : Kind) (x : Flt) (cur : Int) : Option Int := mustConv (floatToInt k x cur)
/-- conv/int.go:170-172 `MustFloatToUint`. -/
def mustFloatToUint (k : Kind) (x : Flt) (cur : Int) : Option Int := mustConv (floatToUint k x cur)
/-- conv/int.go:188-190 `MustBigIntToInt64`. -/
def mustBigIntToInt64 (ival cur : Int) : Option Int := mustConv (bigIntToInt64 ival cur)
/-- conv/int.go:255-257 `MustBigIntToUint64`. -/
def mustBigIntToUint64 (ival cur : Int) : Option Int := mustConv (bigIntToUint64 ival cur)
/-- conv/int.go:204-206 `MustBigFloatToInt64`. -/
def mustBigFloatToInt64 (x : Flt) (cur : Int) : Option Int := mustConv (bigFloatToInt64 x cur)
/-- conv/int.go:271-273 `MustBigFloatToUint64`. -/
def mustBigFloatToUint64 (x : Flt) (cur : Int) : Option Int := mustConv (bigFloatToUint64 x cur)
/-- conv/int.go:220-222 `MustBigRatToInt64`. -/
def mustBigRatToInt64 (q : ℚ) (cur : Int) : Option Int := mustConv (bigRatToInt64 q cur)
/-- conv/int.go:287-289 `MustBigRatToUint64`. -/
def mustBigRatToUint64 (q : ℚ) (cur : Int) : Option Int := mustConv (bigRatToUint64 q cur)
/-- conv/int.go:237-239 `MustStringToInt64`. -/
def mustStringToInt64 (s : List Char) (cur : Int) : Option Int := mustConv (stringToInt64 s cur)
/-- conv/int.go:303-305 `MustStringToUint64`. -/
def mustStringToUint64 (s : List Char) (cur : Int) : Option Int := mustConv (stringToUint64 s cur)
/-- conv/float.go:33-35 `MustIntToFloat`. -/
def mustIntToFloat (oor : Kind → ℚ → Int) (f : Fmt) (k : Kind) (ival : Int) (cur : ℚ) : Option ℚ := mustConv (intToFloat oor f k ival cur)
/-- conv/float.go:55-57 `MustFloatToFloat`. -/
def mustFloatToFloat (is32 : Bool) (ival cur : Flt) : Option Flt := mustConv (floatToFloat is32 ival cur)
/-- conv/float.go:77-79 `MustBigIntToFloat32`, 154-156 `MustBigIntToFloat64`. -/
def mustBigIntToFloat (f : Fmt) (ival : Int) : Option Flt := mustConv (bigIntToFloat f ival)
/-- conv/float.go:93-95 `MustBigFloatToFloat32`, 170-172 `MustBigFloatToFloat64`. -/
def mustBigFloatToFloat (f : Fmt) (x : Flt) : Option Flt := mustConv (bigFloatToFloat f x)
/-- conv/float.go:109-111 `MustBigRatToFloat32`, 186-188 `MustBigRatToFloat64`. -/
def mustBigRatToFloat (f : Fmt) (q : ℚ) : Option Flt := mustConv (bigRatToFloat f q)
/-- conv/float.go:131-133 `MustStringToFloat32`, 208-210 `MustStringToFloat64`. -/
def mustStringToFloat (lib : TextLib) (f : Fmt) (s : List Char) (cur : Flt) : Option Flt := mustConv (stringToFloat lib f s cur)
/-- conv/bigint.go:105-107 `MustStringToBigInt`. -/
def mustStringToBigInt (s : List Char) (cur : Option Int) : Option (Option Int) := mustConv (stringToBigInt s cur)
/-- conv/bigrat.go:72-74 `MustStringToBigRat`. -/
def mustStringToBigRat (lib : TextLib) (s : List Char) (cur : Option ℚ) : Option (Option ℚ) := mustConv (stringToBigRat lib s cur)
/-- conv/bigrat.go:95-97 `MustFloatStringToBigRat`. -/
def mustFloatStringToBigRat (lib : TextLib) (s : List Char) (cur : Option ℚ) : Option (Option ℚ) := mustConv (floatStringToBigRat lib s cur)
/-- conv/bigfloat.go:76-78 `MustStringToBigFloat`. -/
def mustStringToBigFloat (lib : TextLib) (s : List Char) (cur : Option Flt) : Option (Option Flt) := mustConv (stringToBigFloat lib s cur)

/-! ### json and rest -/

/-- encoding/json/parse/parse.go:335-337 `MustParse`; `none` as in the model of Parse. -/
def mustParse (fin : Iter.Err) (t : List Char) : Option (Ret Iter.Err Json.JVal) :=
  (Json.parse fin t).map fun
    | .ok (v, _) => .returned v
    | .error e => .panicked (some e)

/-- encoding/json/write/write.go:30-32 `MustWrite`: the state of the writer afterwards. -/
def mustWrite {σ : Type} (w : Json.W σ) (s : σ) (v : Json.JVal) : Ret Iter.Err Unit × σ :=
  let r := Json.writeTo w s v
  (must r.1, r.2)

/-- rest/rest.go:83-85 `MustHandle`: the handlers afterwards. -/
def mustHandle {P H : Type} (compile : List Char → Option P) (c : Rest.HCall H) (handlers : List (Rest.Reg P H)) : Ret Rest.HErr Unit × List (Rest.Reg P H) :=
  let r := Rest.handle compile c handlers
  (must r.1, r.2)

end Micro.Must
