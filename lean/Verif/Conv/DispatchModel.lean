import Verif.Go
/-
Model of how conv.To, AnyTo, ToBigOps and ReflectTo find the conversion function for their argument types.
-/
namespace Micro.Conv.Dispatch

/-- The types conv knows: constraint.Numeric and string. -/
inductive Base where
  | int | int8 | int16 | int32 | int64 | uint | uint8 | uint16 | uint32 | uint64 | float32 | float64
  | bigInt | bigFloat | bigRat | string
  deriving DecidableEq, Repr

/-- All of them. -/
def Base.all : List Base :=
  [.int, .int8, .int16, .int32, .int64, .uint, .uint8, .uint16, .uint32, .uint64, .float32, .float64, .bigInt, .bigFloat, .bigRat,
    .string]

/-- reflect.Type.String() of these types. -/
def Base.str : Base → List Char
  | int => "int".toList | int8 => "int8".toList | int16 => "int16".toList | int32 => "int32".toList | int64 => "int64".toList
  | uint => "uint".toList | uint8 => "uint8".toList | uint16 => "uint16".toList | uint32 => "uint32".toList
  | uint64 => "uint64".toList | float32 => "float32".toList | float64 => "float64".toList | bigInt => "*big.Int".toList
  | bigFloat => "*big.Float".toList | bigRat => "*big.Rat".toList | string => "string".toList

/-- Is it one of the three big pointer types (reflect/reflect.go:164-167 `IsBigPtr`)? -/
def Base.big : Base → Bool
  | bigInt | bigFloat | bigRat => true
  | _ => false

/-- A Go type as far as these functions tell types apart: one of the above; a user defined type `pkg.name` whose underlying type is one of
the above; bool or a complex type, or a user defined type with one of these as underlying type (`under` is the name of the latter); a
user defined pointer type `type name *elem` (other than to a big type); or any other type. Names need not be unique: a package of the
program may be called big and have a type Int. -/
inductive Ty where
  | base (b : Base)
  | defined (name : List Char) (b : Base)
  | otherPrim (name under : List Char)
  | definedPtr (name : List Char) (elem : Ty)
  | other (name : List Char)

/-- reflect.Type.String(). -/
def Ty.str : Ty → List Char
  | .base b => b.str
  | .defined n _ => n
  | .otherPrim n _ => n
  | .definedPtr n _ => n
  | .other n => n

/-- reflect/reflect.go:284-286: is the type a user defined one of a primitive kind? -/
def Ty.userPrim : Ty → Bool
  | .defined _ b => !b.big
  | .otherPrim n u => u ≠ n
  | _ => false

/-- reflect/reflect.go:282-298 `ValueToBaseType` (also through the pointer to the target): the type afterwards. A user defined pointer type
(also `defined` of a big type) stays as it is. -/
def Ty.toBase : Ty → Ty
  | .defined n b => if b.big then .defined n b else .base b
  | .otherPrim _ u => .otherPrim u u
  | t => t

/-- Is it this very type? (The type assertions at the start of each function in the map convertFromTo.) -/
def Ty.is : Ty → Base → Bool
  | .base b, c => b = c
  | _, _ => false

/-- What happens: the conversion function for a pair of types is run, a plain copy is made, an error is returned, or a panic. -/
inductive Action where
  | convert (i o : Base)
  | copy
  | error
  | panic
  deriving DecidableEq

/-- conv/conv.go:28-1009 `convertFromTo`: the 240 entries, one per ordered pair of distinct types, under the concatenated names. -/
def convertFromTo (key : List Char) : Option (Base × Base) :=
  ((Base.all.flatMap fun a => Base.all.map fun b => (a, b)).filter fun p => p.1 ≠ p.2).find? fun p => p.1.str ++ p.2.str = key

/-- conv/conv.go:1018-1061 `To` (the target pointer is not nil). -/
def convTo (i o : Ty) : Action :=
  if i.toBase.str = o.toBase.str then .copy
  else
    match convertFromTo (i.toBase.str ++ o.toBase.str) with
    | some (a, b) => .convert a b
    | none => .panic

/-- conv/conv.go:1070-1114 `AnyTo`; `none` is the nil interface, for which `Interface()` panics in line 1073. `nonNil` matters for pointers:
ValueToBaseType panics for a non-nil pointer of a user defined pointer type to a user defined primitive type (Convert). -/
def anyTo (i : Option Ty) (nonNil : Bool) (o : Ty) : Action :=
  match i with
  | none => .panic
  | some (.base b) => convTo (.base b) o
  | some (.defined _ b) => if b.big then .error else convTo (.base b) o
  | some (.otherPrim _ _) => .error
  | some (.definedPtr _ e) => if nonNil && e.userPrim then .panic else .error
  | some (.other _) => .error

/-- conv/conv.go:1117-1151 `ToBigOps` (the target pointer is not nil): no conversion to base types. -/
def toBigOps (i o : Ty) : Action :=
  if i.str = o.str then .copy
  else
    match convertFromTo (i.str ++ o.str) with
    | some (a, b) => .convert a b
    | none => .panic

/-- The target of ReflectTo: invalid, not a pointer, a nil pointer, a non-nil pointer to a variable of the type, a *big.Int etc., or a non-nil
pointer of a user defined pointer type to a variable of the type. -/
inductive Target where
  | invalid
  | value
  | nilPtr
  | ptr (t : Ty)
  | bigPtr
  | definedPtr (t : Ty)

/-- conv/conv.go:1161-1202 `ReflectTo`; `none` is the invalid Value. `bigPtr` is a target that itself is a *big.Int etc. The function found
in the map starts with type assertions on both values, which panic if a type has the name of another, or if the pointer is of a user
defined pointer type; ValueToBaseType panics for a pointer of such a type to a user defined primitive type. -/
def reflectTo (i : Option Ty) (o : Target) : Action :=
  match i, o with
  | none, _ => .error
  | some _, .invalid => .error
  | some _, .value => .error
  | some _, .nilPtr => .error
  | some _, .bigPtr => .error
  | some i, .ptr t =>
    match convertFromTo (i.str ++ t.toBase.str) with
    | some (a, b) => if i.is a && t.toBase.is b then .convert a b else .panic
    | none => .error
  | some i, .definedPtr t =>
    if t.userPrim then .panic
    else match convertFromTo (i.str ++ t.str) with
      | some _ => .panic
      | none => .error

end Micro.Conv.Dispatch
