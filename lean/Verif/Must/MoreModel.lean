import Verif.Must.Model
import Verif.Conv.DispatchModel
import Verif.Funcs.MapModel
import Verif.Reflect.Model
/-
Model of the remaining Must functions, and of AssertType.
-/
namespace Micro.Must
open Micro

/-- A function that returns a value, or an error (`none`), called through funcs.Must or funcs.MustValue; the panic value is not modelled. -/
def mustOpt {α : Type} (r : Option α) : Ret Unit α :=
  match r with
  | some a => mustValue (.ok a)
  | none => mustValue (.err ())

/-- conv/bigfloat.go:38-40 `MustFloatToBigFloat`. -/
def mustFloatToBigFloat (x : Conv.Flt) : Ret Unit Conv.Flt := mustOpt (Conv.floatToBigFloat x)
/-- conv/bigint.go:56-58 `MustFloatToBigInt`. -/
def mustFloatToBigInt (x : Conv.Flt) : Ret Unit Int := mustOpt (Conv.floatToBigInt x)
/-- conv/bigint.go:73-75 `MustBigFloatToBigInt`. -/
def mustBigFloatToBigInt (x : Conv.Flt) : Ret Unit Int := mustOpt (Conv.bigFloatToBigInt x)
/-- conv/bigint.go:89-91 `MustBigRatToBigInt`. -/
def mustBigRatToBigInt (q : ℚ) : Ret Unit Int := mustOpt (Conv.bigRatToBigInt q)
/-- conv/bigrat.go:37-39 `MustFloatToBigRat`. -/
def mustFloatToBigRat (x : Conv.Flt) : Ret Unit ℚ := mustOpt (Conv.floatToBigRat x)
/-- conv/bigrat.go:57-59 `MustBigFloatToBigRat`. -/
def mustBigFloatToBigRat (x : Conv.Flt) : Ret Unit (Option ℚ) := mustOpt (Conv.bigFloatToBigRat x)

open Conv.Dispatch in
/-- How To, AnyTo, ToBigOps or ReflectTo end, once they have found what to do: `fails` tells whether the conversion function for a pair of
types returns an error for the value at hand. (conv/conv.go:1060, 1113, 1150, 1201: the error of the conversion is returned.) -/
def finish (fails : Base → Base → Bool) : Action → Out Unit Unit
  | .convert a b => if fails a b then .err () else .ok ()
  | .copy => .ok ()
  | .error => .err ()
  | .panic => .panic

open Conv.Dispatch in
/-- conv/conv.go:1064-1066 `MustTo`. -/
def mustTo (fails : Base → Base → Bool) (i o : Ty) : Ret Unit Unit := mustValue (finish fails (convTo i o))
open Conv.Dispatch in
/-- conv/conv.go:1154-1156 `MustToBigOps`. -/
def mustToBigOps (fails : Base → Base → Bool) (i o : Ty) : Ret Unit Unit := mustValue (finish fails (toBigOps i o))
open Conv.Dispatch in
/-- conv/conv.go:1205-1207 `MustReflectTo`. -/
def mustReflectTo (fails : Base → Base → Bool) (i : Option Ty) (o : Target) : Ret Unit Unit := mustValue (finish fails (reflectTo i o))

/-- funcs/funcs.go:1104-1110 `MustValue3`. -/
def mustValue3 {ε α β γ : Type} (t : α) (u : β) (v : γ) (err : Option ε) : Ret ε (α × β × γ) :=
  match err with
  | some e => .panicked (some e)
  | none => .returned (t, u, v)

/-- funcs/funcs.go:1117-1124 `AssertType`: `asT` is the type assertion v.(T); the value comes with an error flag. -/
def assertType {α β : Type} (asT : α → Option β) (zv : β) (v : α) : β × Bool :=
  match asT v with
  | some val => (val, false)
  | none => (zv, true)

/-- funcs/funcs.go:1127-1129 `MustAssertType`. -/
def mustAssertType {α β : Type} (asT : α → Option β) (zv : β) (v : α) : Ret Unit β :=
  mustValue (if (assertType asT zv v).2 then .err () else .ok (assertType asT zv v).1)

open Funcs in
/-- funcs/funcs.go:1252-1254 `MustConvertToMap`. -/
def mustConvertToMap {K α V : Type} [DecidableEq K] (visit : Option (List (K × α))) (asV : α → Option V) : Ret (ConvErr K) (GoMap K V) :=
  mustValue (match convertToMap visit asV with
    | .ok m => .ok m
    | .error e => .err e)

open Funcs in
/-- funcs/funcs.go:1177-1179 `MustConvertToSlice`. -/
def mustConvertToSlice {α β : Type} (asSlice : α → Option (List α)) (asT : α → Option β) (v : α) : Ret (ConvErr Unit) (List β) :=
  mustValue (match convertToSlice asSlice asT v with
    | .ok r => .ok r
    | .error e => .err e)

open Funcs in
/-- funcs/funcs.go:1220-1222 `MustConvertToSlice2`. -/
def mustConvertToSlice2 {α β : Type} (asSlice : α → Option (List α)) (asT : α → Option β) (v : α) : Ret (ConvErr Unit) (List (List β)) :=
  mustValue (match convertToSlice2 asSlice asT v with
    | .ok r => .ok r
    | .error e => .err e)

/-- reflect/reflect.go:253-255 `MustTypeAssert`. -/
def mustTypeAssert {T : Type} [DecidableEq T] (u : Reflect.Univ T (Reflect.Content T)) (val : Reflect.Value T) (typ : T) : Ret Unit Unit :=
  mustValue (Reflect.typeAssert u val typ)

open Json in
/-- encoding/json/write/write.go:35-60 `WriteObject`: the result (`none` is a panic, of AsMap) and the writer afterwards. -/
def writeObject {σ : Type} (w : W σ) (s : σ) (v : JVal) : Option (Option Iter.Err) × σ :=
  match w s ['{'] with
  | (some e, s) => (some (some e), s)
  | (none, s) => match v with
    | .obj kvs => match fieldsTo w s 0 kvs with
      | (some e, s) => (some (some e), s)
      | (none, s) => let r := w s ['}']; (some r.1, r.2)
    | _ => (none, s)

open Json in
/-- encoding/json/write/write.go:68-86 `WriteArray`. -/
def writeArray {σ : Type} (w : W σ) (s : σ) (v : JVal) : Option (Option Iter.Err) × σ :=
  match w s ['['] with
  | (some e, s) => (some (some e), s)
  | (none, s) => match v with
    | .arr vs => match elemsTo w s 0 vs with
      | (some e, s) => (some (some e), s)
      | (none, s) => let r := w s [']']; (some r.1, r.2)
    | _ => (none, s)

open Json in
/-- encoding/json/write/write.go:63-65 `MustWriteObject` and 89-91 `MustWriteArray`, of the outcome of the plain function. -/
def mustWritten {σ : Type} (r : Option (Option Iter.Err) × σ) : Ret Iter.Err Unit × σ :=
  (match r.1 with
    | none => .panicked none
    | some err => must err, r.2)

end Micro.Must
