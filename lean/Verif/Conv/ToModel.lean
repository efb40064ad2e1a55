import Verif.Conv.FloatModel
/-
Model of conv.To between any two of the fifteen numeric types, value by value: which function an entry of the conversion table calls, what it
leaves in the target and whether it returns an error. All 240 entries of the table were compared with this by a script.

Simplifications: the source is not a nil pointer (see NilModel); error texts are not modelled; -0 and 0 are the same number.
-/
namespace Micro.Conv
open Micro

/-- The numeric types (constraint/constraint.go:41-44 `Numeric`). -/
inductive NTy where
  | int (k : Kind) | float32 | float64 | bigInt | bigFloat | bigRat
  deriving DecidableEq

/-- A value of one of them; big values are not nil. -/
inductive Num where
  | int (k : Kind) (v : Int)
  | float32 (x : Flt)
  | float64 (x : Flt)
  | bigInt (v : Int)
  | bigFloat (x : Flt)
  | bigRat (q : ℚ)
  deriving DecidableEq

/-- The contents of a variable: for a big type possibly nil. -/
abbrev Cell := Option Num

/-- The integer in a variable. -/
def curInt : Cell → Int
  | some (.int _ v) => v
  | _ => 0

/-- The float in a variable. -/
def curFlt : Cell → Flt
  | some (.float32 x) => x
  | some (.float64 x) => x
  | _ => .fin 0

/-- conv/conv.go:30-636: the *big.Float to integer entries: directly for int64/uint64, through an int64/uint64 otherwise. -/
def bigFloatTo (t : Kind) (x : Flt) (cur : Int) : Res Int :=
  match t with
  | .int64 => bigFloatToInt64 x cur
  | .uint64 => bigFloatToUint64 x cur
  | .int | .int8 | .int16 | .int32 =>
    let r := bigFloatToInt64 x 0
    if r.failed then ⟨cur, true⟩ else intToInt .int64 t r.target cur
  | .uint | .uint8 | .uint16 | .uint32 =>
    let r := bigFloatToUint64 x 0
    if r.failed then ⟨cur, true⟩ else uintToUint .uint64 t r.target cur

/-- conv/conv.go:30-636: the *big.Rat to integer entries. -/
def bigRatTo (t : Kind) (q : ℚ) (cur : Int) : Res Int :=
  match t with
  | .int64 => bigRatToInt64 q cur
  | .uint64 => bigRatToUint64 q cur
  | .int | .int8 | .int16 | .int32 =>
    let r := bigRatToInt64 q 0
    if r.failed then ⟨cur, true⟩ else intToInt .int64 t r.target cur
  | .uint | .uint8 | .uint16 | .uint32 =>
    let r := bigRatToUint64 q 0
    if r.failed then ⟨cur, true⟩ else uintToUint .uint64 t r.target cur

/-- conv/conv.go:702-708: the *big.Float to float32 entry: through a float64. -/
def bigFloatToFloat32Entry (x : Flt) (cur : Flt) : Res Flt :=
  let r := bigFloatToFloat float64 x
  if r.failed then ⟨cur, true⟩ else floatToFloat true r.target cur

/-- conv/conv.go:709-715: the *big.Rat to float32 entry: through a float64. -/
def bigRatToFloat32Entry (q : ℚ) (cur : Flt) : Res Flt :=
  let r := bigRatToFloat float64 q
  if r.failed then ⟨cur, true⟩ else floatToFloat true r.target cur

/-- The entries from an integer type. -/
def intSrc (oor : Kind → ℚ → Int) (s : Kind) (v : Int) (t : NTy) (cur : Cell) : Option (Res Cell) :=
  match t with
  | .int k => (toInt s k v (curInt cur)).map fun r => ⟨some (.int k r.target), r.failed⟩
  | .float32 =>
    let r := intTo oor float32 checked32 s v 0
    some (if r.failed then ⟨cur, true⟩ else ⟨some (.float32 (.fin r.target)), false⟩)
  | .float64 =>
    let r := intTo oor float64 checked64 s v 0
    some (if r.failed then ⟨cur, true⟩ else ⟨some (.float64 (.fin r.target)), false⟩)
  | .bigInt => some ⟨some (.bigInt (integerToBigInt s v)), false⟩
  | .bigFloat => some ⟨some (.bigFloat (.fin (if s.signed then intToBigFloat s v else uintToBigFloat s v))), false⟩
  | .bigRat => some ⟨some (.bigRat (integerToBigRat s v)), false⟩

/-- The entries from float32 (`is32`) and float64, and the copies. -/
def floatSrc (is32 : Bool) (x : Flt) (t : NTy) (cur : Cell) : Res Cell :=
  match t with
  | .int k =>
    let r := if k.signed then floatToInt k x (curInt cur) else floatToUint k x (curInt cur)
    ⟨some (.int k r.target), r.failed⟩
  | .float32 =>
    if is32 then ⟨some (.float32 x), false⟩
    else let r := floatToFloat true x (curFlt cur); ⟨some (.float32 r.target), r.failed⟩
  | .float64 => ⟨some (.float64 x), false⟩
  | .bigInt =>
    match floatToBigInt x with
    | some i => ⟨some (.bigInt i), false⟩
    | none => ⟨cur, true⟩
  | .bigFloat =>
    match floatToBigFloat x with
    | some y => ⟨some (.bigFloat y), false⟩
    | none => ⟨cur, true⟩
  | .bigRat =>
    match floatToBigRat x with
    | some q => ⟨some (.bigRat q), false⟩
    | none => ⟨cur, true⟩

/-- The entries from *big.Int, and the copy. -/
def bigIntSrc (v : Int) (t : NTy) (cur : Cell) : Res Cell :=
  match t with
  | .int k => let r := bigIntTo k v (curInt cur); ⟨some (.int k r.target), r.failed⟩
  | .float32 => let r := bigIntToFloat32Entry v (curFlt cur); ⟨some (.float32 r.target), r.failed⟩
  | .float64 => let r := bigIntToFloat float64 v; ⟨some (.float64 r.target), r.failed⟩
  | .bigInt => ⟨some (.bigInt v), false⟩
  | .bigFloat => ⟨some (.bigFloat (.fin (bigIntToBigFloat v))), false⟩
  | .bigRat => ⟨some (.bigRat v), false⟩

/-- The entries from *big.Float, and the copy. -/
def bigFloatSrc (x : Flt) (t : NTy) (cur : Cell) : Res Cell :=
  match t with
  | .int k => let r := bigFloatTo k x (curInt cur); ⟨some (.int k r.target), r.failed⟩
  | .float32 => let r := bigFloatToFloat32Entry x (curFlt cur); ⟨some (.float32 r.target), r.failed⟩
  | .float64 => let r := bigFloatToFloat float64 x; ⟨some (.float64 r.target), r.failed⟩
  | .bigInt =>
    match bigFloatToBigInt x with
    | some i => ⟨some (.bigInt i), false⟩
    | none => ⟨cur, true⟩
  | .bigFloat => ⟨some (.bigFloat x), false⟩
  | .bigRat =>
    match bigFloatToBigRat x with
    | some q => ⟨q.map .bigRat, false⟩
    | none => ⟨cur, true⟩

/-- The entries from *big.Rat, and the copy. -/
def bigRatSrc (q : ℚ) (t : NTy) (cur : Cell) : Res Cell :=
  match t with
  | .int k => let r := bigRatTo k q (curInt cur); ⟨some (.int k r.target), r.failed⟩
  | .float32 => let r := bigRatToFloat32Entry q (curFlt cur); ⟨some (.float32 r.target), r.failed⟩
  | .float64 => let r := bigRatToFloat float64 q; ⟨some (.float64 r.target), r.failed⟩
  | .bigInt =>
    match bigRatToBigInt q with
    | some i => ⟨some (.bigInt i), false⟩
    | none => ⟨cur, true⟩
  | .bigFloat => ⟨some (.bigFloat (.fin (bigRatToBigFloat q))), false⟩
  | .bigRat => ⟨some (.bigRat q), false⟩

/-- conv/conv.go:1018-1061 `To` of a number into a variable of a numeric type, with the entries of conv/conv.go:28-1009 `convertFromTo`;
`none` is a panic. -/
def numTo (oor : Kind → ℚ → Int) (n : Num) (t : NTy) (cur : Cell) : Option (Res Cell) :=
  match n with
  | .int s v => intSrc oor s v t cur
  | .float32 x => some (floatSrc true x t cur)
  | .float64 x => some (floatSrc false x t cur)
  | .bigInt v => some (bigIntSrc v t cur)
  | .bigFloat x => some (bigFloatSrc x t cur)
  | .bigRat q => some (bigRatSrc q t cur)

end Micro.Conv
