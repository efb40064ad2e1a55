import Verif.Json.ValueModel
/-
Model of the accessors of json.Value (encoding/json/value.go). `none` is a panic.
-/
namespace Micro.Json
open Micro

/-- encoding/json/value.go:31-42: the type `Type`. -/
inductive JType where
  | invalid | object | array | string | number | boolean | null
  deriving DecidableEq, Repr

/-- encoding/json/value.go:58-60 `Type.String`. -/
def JType.str : JType → String
  | .invalid => "" | .object => "Object" | .array => "Array" | .string => "String" | .number => "Number" | .boolean => "Boolean" | .null => "Null"

/-- encoding/json/value.go:257-259 `Type`. -/
def JVal.type : JVal → JType
  | .invalid => .invalid | .null => .null | .bool _ => .boolean | .num _ => .number | .str _ => .string | .arr _ => .array | .obj _ => .object

/-- encoding/json/value.go:263-269 `AsMap`. -/
def JVal.asMap : JVal → Option (List (List Char × JVal))
  | .obj kvs => some kvs
  | _ => none

/-- encoding/json/value.go:273-279 `AsSlice`. -/
def JVal.asSlice : JVal → Option (List JVal)
  | .arr vs => some vs
  | _ => none

/-- encoding/json/value.go:283-294 `AsString`. -/
def JVal.asString : JVal → Option (List Char)
  | .str s => some s
  | .num s => some s
  | .bool b => some (if b then "true".toList else "false".toList)
  | _ => none

/-- encoding/json/value.go:298-304 `AsNumber`. -/
def JVal.asNumber : JVal → Option (List Char)
  | .num s => some s
  | _ => none

/-- encoding/json/value.go:308-314 `AsBool`. -/
def JVal.asBool : JVal → Option Bool
  | .bool b => some b
  | _ => none

/-- encoding/json/value.go:317-319 `IsNull`. -/
def JVal.isNull (v : JVal) : Bool := v.type = .null

/-- encoding/json/value.go:379-381 `IsDocument`. -/
def JVal.isDoc (v : JVal) : Bool := v.type = .object ∨ v.type = .array

/-- encoding/json/value.go:347-359 `ToMap`. -/
def JVal.toMap : JVal → Option (List (List Char × GoAny))
  | .obj kvs => some (anyFields kvs)
  | _ => none

/-- encoding/json/value.go:364-376 `ToSlice`; the visitor argument is not used. -/
def JVal.toSlice : JVal → Option (List GoAny)
  | .arr vs => some (anyElems vs)
  | _ => none

/-- encoding/json/value.go:213-215 `StringToValue`. -/
def stringToValue (s : List Char) : JVal := .str s

/-- encoding/json/value.go:252-254 `BoolToValue`. -/
def boolToValue (b : Bool) : JVal := if b then .bool true else .bool false

/-- encoding/json/value.go:128-130 `ToValue`, 242-244 `NumberToValue`; 133-135 `MustToValue`, 173-175 `MustMapToValue`, 208-210
`MustSliceToValue`, 247-249 `MustNumberToValue` (funcs.MustValue panics with the
error). -/
def mustToValue (a : GoAny) : Option JVal :=
  match toValue a with
  | .ok v => some v
  | .error _ => none

/-- encoding/json/value.go:146-170 `MapToValue` for a map[string]Value: the map itself. -/
def mapVToValue (kvs : List (List Char × JVal)) : JVal := .obj kvs

/-- encoding/json/value.go:181-205 `SliceToValue` for a []Value: the slice itself. -/
def sliceVToValue (vs : List JVal) : JVal := .arr vs

end Micro.Json
