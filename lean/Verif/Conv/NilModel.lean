import Verif.Conv.ToModel
import Verif.Conv.TextModel
import Verif.Json.AccModel
/-
Model of conv.To, conv.AnyTo and json.NumberToValue for a source that is a nil pointer of a big type.

The methods of math/big on a nil receiver (standard library): (*Int)(nil).String() is "<nil>", all the other methods used here read a field of
the receiver and panic.
-/
namespace Micro.Conv
open Micro

/-- The big types. -/
inductive BigTy where
  | int | float | rat
  deriving DecidableEq

/-- As numeric types. -/
def BigTy.ty : BigTy → NTy
  | .int => .bigInt
  | .float => .bigFloat
  | .rat => .bigRat

/-- A big.Int pointer's String method (standard library). -/
def intString : Option Int → List Char
  | none => "<nil>".toList
  | some v => formatInt v

/-- conv/bigfloat.go:43-45 `BigIntToBigFloat` with a pointer that may be nil: the error of StringToBigFloat is dropped, the target is what it
left there. -/
def bigIntToBigFloatPtr (lib : TextLib) (v : Option Int) : Option Flt := (stringToBigFloat lib (intString v) none).target

/-- conv/float.go:63-74 `BigIntToFloat32`, conv/float.go:139-151 `BigIntToFloat64` with a pointer that may be nil; `none` is the panic of Float32()/Float64() on a nil
*big.Float. -/
def bigIntToFloatPtr (lib : TextLib) (f : Fmt) (v : Option Int) : Option (Res Flt) :=
  (bigIntToBigFloatPtr lib v).map fun x => bigFloatToFloat f x

/-- conv/conv.go:1018-1061 `To` of a nil pointer into a variable of a numeric type; `none` is a panic.
If the types are the same, line 1039 makes the target nil. Otherwise the entry of the table runs: the functions from *big.Int to the
integer types call IsInt64 or IsUint64 (conv/int.go:178-185, conv/int.go:245-252), to *big.Rat SetFrac (conv/bigrat.go:42-44), those from
*big.Float call Rat, Float64 or IsInf (conv/bigint.go:62-70, conv/float.go:160-167, conv/bigrat.go:47-54), those from *big.Rat IsInt, Float64 or
Num (conv/bigint.go:79-86, conv/float.go:176-183, conv/bigfloat.go:48-55), which panic. -/
def nilTo (lib : TextLib) (s : BigTy) (t : NTy) (cur : Cell) : Option (Res Cell) :=
  match s, t with
  | .int, .bigInt => some ⟨none, false⟩
  | .int, .bigFloat => some ⟨(bigIntToBigFloatPtr lib none).map .bigFloat, false⟩
  | .int, .float32 =>
    (bigIntToFloatPtr lib float64 none).map fun r =>
      if r.failed then ⟨cur, true⟩ else let q := floatToFloat true r.target (curFlt cur); ⟨some (.float32 q.target), q.failed⟩
  | .int, .float64 => (bigIntToFloatPtr lib float64 none).map fun r => ⟨some (.float64 r.target), r.failed⟩
  | .int, _ => none
  | .float, .bigFloat => some ⟨none, false⟩
  | .float, _ => none
  | .rat, .bigRat => some ⟨none, false⟩
  | .rat, _ => none

/-- conv/conv.go:997-1008: the entries to string, for a nil pointer: BigIntToString (conv/string.go:30-32), BigFloatToString
(conv/string.go:35-37), BigRatToString (conv/string.go:41-43); `none` is a panic. No error is ever returned. -/
def nilToText : BigTy → Option (List Char)
  | .int => some (intString none)
  | .float => none
  | .rat => none

end Micro.Conv

namespace Micro.Json
open Micro Micro.Conv

/-- encoding/json/value.go:242-244 `NumberToValue` of a nil big pointer, with encoding/json/value.go:218-239 `numberToValue`; `none` is a panic
(BigRatToNormalizedString, conv/string.go:47-55, calls IsInt). -/
def nilNumberToValue (s : BigTy) : Option JVal :=
  match s with
  | .rat => none
  | s => (nilToText s).map .num

end Micro.Json
