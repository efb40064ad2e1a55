import Verif.MathInt.Model
/-
Model of the dispatch of math.Abs and math.Div on the printed name of the type. `none` models a panic (calling a nil function).
-/
namespace Micro.MathInt

/-- An integer type: predeclared, or user defined `pkg.name` with an underlying kind (constraint.Numeric allows both). -/
structure IntType where
  kind : Kind
  defined : Option (String × String)

/-- reflect.Type.String() of an integer type: "int8", or "pkg.name" for a user defined type. -/
def IntType.str (t : IntType) : String :=
  match t.defined with
  | none => t.kind.name
  | some (pkg, n) => pkg ++ "." ++ n

/-- math/math.go:62-152 the keys of `toAbs`. -/
def toAbsKeys : List String :=
  ["int", "int8", "int16", "int32", "int64", "float32", "float64", "*big.Int", "*big.Float", "*big.Rat"]

/-- math/math.go:155-371 the keys of `toDiv`. -/
def toDivKeys : List String :=
  ["int", "int8", "int16", "int32", "int64", "uint", "uint8", "uint16", "uint32", "uint64", "float32", "float64", "*big.Int",
    "*big.Float", "*big.Rat"]

/-- math/math.go:379-388 `Abs` for integer types. -/
def absOf (t : IntType) (v : Int) : Option (Int × Option MErr) :=
  if "uint".toList.isPrefixOf t.str.toList then some (v, none)
  else if t.str ∈ toAbsKeys then some (abs t.kind v) else none

/-- math/math.go:506-510 `Div` for integer types. -/
def divOf (t : IntType) (de dv cur : Int) : Option (Int × Option MErr) :=
  if t.str ∈ toDivKeys then some (div t.kind de dv cur) else none

end Micro.MathInt
