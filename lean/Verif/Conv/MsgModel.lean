import Verif.Conv.ToSpec
import Verif.Conv.TextModel
/-
Model of what the error of a failed conv.To says: "The %T value of %s cannot be converted to %s" (conv/conv.go:17).

Simplification: a message is the value it shows, with its type, and the type it names as the target; the text of a value is left to fmt and math/big (a *big.Float is shown with ten digits, or without a
fraction).
-/
namespace Micro.Conv
open Micro

/-- What a message shows: a number of a numeric type, or a string. -/
inductive Shown where
  | num (n : Num)
  | text (s : List Char)
  deriving DecidableEq

/-- conv/conv.go:17 `errMsg`: the value shown, with its type, and the type named as the target. -/
structure Msg where
  value : Shown
  target : NTy
  deriving DecidableEq

/-- The type that the entries for the integer type go through: conv/conv.go:70-97 for int (int64), conv/conv.go:335-361 for uint (uint64), and so on. -/
def wide (k : Kind) : Kind := if k.signed then .int64 else .uint64

/-- The message of the function IntToInt (conv/int.go:57) or UintToUint (conv/int.go:142) that converts the intermediate result. -/
def secondMsg (k : Kind) (v : Int) : Option Msg :=
  if (if k.signed then intToInt .int64 k v 0 else uintToUint .uint64 k v 0).failed then some ⟨.num (.int (wide k) v), .int k⟩ else none

/-- conv/conv.go:30-656: the message of an entry from a big type or string (n) to an integer type; `r` is what the function for int64 or uint64 does, which is called directly for these types:
conv/int.go:178-185 `BigIntToInt64`, conv/int.go:245-252 `BigIntToUint64`, conv/int.go:194-201 `BigFloatToInt64`, conv/int.go:261-268 `BigFloatToUint64`, conv/int.go:210-217 `BigRatToInt64`,
conv/int.go:277-284 `BigRatToUint64`, conv/int.go:226-234 `StringToInt64`, conv/int.go:293-300 `StringToUint64`. -/
def stagedMsg (n : Shown) (k : Kind) (r : Res Int) : Option Msg :=
  match k with
  | .int64 => if r.failed then some ⟨n, .int .int64⟩ else none
  | .uint64 => if r.failed then some ⟨n, .int .uint64⟩ else none
  | k => if r.failed then some ⟨n, .int (wide k)⟩ else secondMsg k r.target

/-- conv/conv.go:695-715: the message of an entry from a big type (n) to float32; `r` is what the function for float64 does: conv/float.go:139-151 `BigIntToFloat64`, conv/float.go:160-167 `BigFloatToFloat64`,
conv/float.go:176-183 `BigRatToFloat64`; then conv/float.go:39-52 `FloatToFloat`. -/
def stagedMsg32 (n : Num) (r : Res Flt) : Option Msg :=
  if r.failed then some ⟨.num n, .float64⟩
  else if (floatToFloat true r.target (.fin 0)).failed then some ⟨.num (.float64 r.target), .float32⟩ else none

/-- The message of an entry that calls one function for the value and the variable; all of them show the value and name the type of the variable: conv/int.go:57, conv/int.go:78, conv/int.go:99, conv/int.go:121,
conv/int.go:142, conv/int.go:163, conv/float.go:25, conv/float.go:47, conv/float.go:147, conv/float.go:163, conv/float.go:179, conv/bigint.go:42, conv/bigint.go:48, conv/bigint.go:65,
conv/bigint.go:81, conv/bigfloat.go:30, conv/bigrat.go:27, conv/bigrat.go:49. -/
def directMsg (oor : Kind → ℚ → Int) (n : Num) (t : NTy) (cur : Cell) : Option Msg :=
  match numTo oor n t cur with
  | some r => if r.failed then some ⟨.num n, t⟩ else none
  | none => none

/-- conv/conv.go:1018-1061 `To` of a number: the message of the error, `none` if there is no error. -/
def numMsg (oor : Kind → ℚ → Int) (n : Num) (t : NTy) (cur : Cell) : Option Msg :=
  match n, t with
  | .bigInt v, .int k => stagedMsg (.num (.bigInt v)) k (if k.signed then bigIntToInt64 v 0 else bigIntToUint64 v 0)
  | .bigFloat x, .int k => stagedMsg (.num (.bigFloat x)) k (if k.signed then bigFloatToInt64 x 0 else bigFloatToUint64 x 0)
  | .bigRat q, .int k => stagedMsg (.num (.bigRat q)) k (if k.signed then bigRatToInt64 q 0 else bigRatToUint64 q 0)
  | .bigInt v, .float32 => stagedMsg32 (.bigInt v) (bigIntToFloat float64 v)
  | .bigFloat x, .float32 => stagedMsg32 (.bigFloat x) (bigFloatToFloat float64 x)
  | .bigRat q, .float32 => stagedMsg32 (.bigRat q) (bigRatToFloat float64 q)
  | n, t => directMsg oor n t cur

/-- conv/conv.go:1018-1061 `To` of a string into a variable of a numeric type: the message of the error. To the integer types in two steps, to the others by conv/float.go:115-128 `StringToFloat32`, conv/float.go:192-205
`StringToFloat64`, conv/bigint.go:95-102 `StringToBigInt`, conv/bigfloat.go:59-73 `StringToBigFloat`, conv/bigrat.go:62-69 `StringToBigRat`. -/
def textMsg (lib : TextLib) (s : List Char) (t : NTy) : Option Msg :=
  match t with
  | .int k => stagedMsg (.text s) k (if k.signed then stringToInt64 s 0 else stringToUint64 s 0)
  | .float32 => if (stringToFloat lib float32 s (.fin 0)).failed then some ⟨.text s, .float32⟩ else none
  | .float64 => if (stringToFloat lib float64 s (.fin 0)).failed then some ⟨.text s, .float64⟩ else none
  | .bigInt => if (stringToBigInt s none).failed then some ⟨.text s, .bigInt⟩ else none
  | .bigFloat => if (stringToBigFloat lib s none).failed then some ⟨.text s, .bigFloat⟩ else none
  | .bigRat => if (stringToBigRat lib s none).failed then some ⟨.text s, .bigRat⟩ else none

end Micro.Conv
