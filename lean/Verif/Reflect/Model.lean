import Verif.Go
/-
Model of package reflect (the helpers of bantling/micro over Go's reflect package) and of package union/reflect.

A program's types form a universe `Univ T`: identifiers with their kind, element type, printed name and so on, so that recursive
types such as `type P *P` are included. Values are typed contents of a memory of locations. `none` models a call that never
returns. `Out.panic` models a panic.
-/
namespace Micro.Reflect

/-- The constants of Go's reflect.Kind, in their order. -/
inductive RKind where
  | invalid | bool | int | int8 | int16 | int32 | int64 | uint | uint8 | uint16 | uint32 | uint64 | uintptr
  | float32 | float64 | complex64 | complex128 | array | chan | func | interface | map | pointer | slice | string
  | struct | unsafePointer
  deriving DecidableEq, Repr

/-- The numeric value of a reflect.Kind. -/
def RKind.code : RKind → Nat
  | invalid => 0 | bool => 1 | int => 2 | int8 => 3 | int16 => 4 | int32 => 5 | int64 => 6 | uint => 7 | uint8 => 8
  | uint16 => 9 | uint32 => 10 | uint64 => 11 | uintptr => 12 | float32 => 13 | float64 => 14 | complex64 => 15
  | complex128 => 16 | array => 17 | chan => 18 | func => 19 | interface => 20 | map => 21 | pointer => 22 | slice => 23
  | string => 24 | struct => 25 | unsafePointer => 26

/-- reflect.Kind.String(). -/
def RKind.str : RKind → String
  | invalid => "invalid" | bool => "bool" | int => "int" | int8 => "int8" | int16 => "int16" | int32 => "int32"
  | int64 => "int64" | uint => "uint" | uint8 => "uint8" | uint16 => "uint16" | uint32 => "uint32" | uint64 => "uint64"
  | uintptr => "uintptr" | float32 => "float32" | float64 => "float64" | complex64 => "complex64"
  | complex128 => "complex128" | array => "array" | chan => "chan" | func => "func" | interface => "interface"
  | map => "map" | pointer => "ptr" | slice => "slice" | string => "string" | struct => "struct"
  | unsafePointer => "unsafe.Pointer"

/-- The types of a program, as far as Go's reflect.Type tells them apart. `elem` matters for pointers only; `predeclared k` is
the predeclared type of a primitive kind; `getOut t` is the first result type of the method Get of `t`, if it has one;
`zero t` is the zero value; `convert s t c` is Value.Convert (`none` = panic) and `assign s t c` the conversion of an
argument of type `s` to a parameter of type `t` in Value.Call (`none` = panic). -/
structure Univ (T C : Type) where
  kind : T → RKind
  elem : T → T
  ptrTo : T → T
  str : T → String
  predeclared : RKind → T
  bigInt : T
  bigFloat : T
  bigRat : T
  pkgPath : T → String
  name : T → String
  getOut : T → Option T
  fields : T → List (String × T)
  zero : T → C
  convert : T → T → C → Option C
  assign : T → T → C → Option C

/-- Contents of a variable. `data` stands for every kind of value these functions do not look into. -/
inductive Content (T : Type) where
  | nil
  | ptr (a : Nat)
  | iface (dyn : T) (c : Content T)
  | data (d : Nat)
  | maybe (v : Content T) (present : Bool)

/-- Memory: what each location holds. -/
abbrev Mem (T : Type) := Nat → Content T

/-- A reflect.Value: invalid, or a type, contents and (if addressable) the location it came from. Simplification: the flag of
values obtained through unexported struct fields is not modelled. -/
inductive Value (T : Type) where
  | invalid
  | val (t : T) (c : Content T) (loc : Option Nat)

variable {T : Type} [DecidableEq T] (u : Univ T (Content T))

/-- reflect.Value.Kind. -/
def Value.kind : Value T → RKind
  | .invalid => .invalid
  | .val t _ _ => u.kind t

/-- reflect.Value.IsNil of a pointer, map, slice, interface etc. -/
def Content.isNil : Content T → Bool
  | .nil => true
  | _ => false

/-- reflect.Value.Elem of a pointer: the variable it points to, addressable; the invalid Value for nil. -/
def Value.elem (m : Mem T) : Value T → Value T
  | .val t (.ptr a) _ => .val (u.elem t) (m a) (some a)
  | _ => .invalid

/-! ### package reflect -/

/-- reflect/reflect.go:56-62 `DerefType`; `none` = does not return. -/
def derefType (typ : T) : Option T :=
  if u.kind typ = .pointer then derefType (u.elem typ) else some typ
partial_fixpoint

/-- reflect/reflect.go:66-78 `DerefTypeMaxOnePtr`; `none` = does not return. -/
def derefTypeMaxOnePtr (res : T) : Option T :=
  if u.kind res = .pointer then
    let d := u.elem res
    if u.kind d ≠ .pointer then some res else derefTypeMaxOnePtr d
  else some res
partial_fixpoint

/-- reflect/reflect.go:215-222 `NumPointers` with the count so far; `none` = does not return. -/
def numPointersFrom (val : T) (res : Nat) : Option Nat :=
  if u.kind val = .pointer then numPointersFrom (u.elem val) (res + 1) else some res
partial_fixpoint

/-- reflect/reflect.go:215-222 `NumPointers`. -/
def numPointers (val : T) : Option Nat := numPointersFrom u val 0

/-- reflect/reflect.go:82-93 `DerefValue`; `none` = does not return. -/
def derefValue (m : Mem T) (val : Value T) : Option (Value T) :=
  if val.kind u = .pointer then
    match val with
    | .val _ .nil _ => some .invalid
    | v => derefValue m (v.elem u m)
  else some val
partial_fixpoint

/-- reflect/reflect.go:116-135 `DerefValueMaxOnePtr`; `none` = does not return. -/
def derefValueMaxOnePtr (m : Mem T) (res : Value T) : Option (Value T) :=
  if res.kind u = .pointer then
    match res with
    | .val t c l =>
      if c.isNil ∧ u.kind (u.elem t) = .pointer then some .invalid
      else
        let d := (Value.val t c l).elem u m
        if d.kind u ≠ .pointer then some (.val t c l) else derefValueMaxOnePtr m d
    | .invalid => some .invalid
  else some res
partial_fixpoint

/-- reflect/reflect.go:141-154 `FieldsByName`: `none` = the nil map; assignment `fields[name] = fld` in field order. -/
def fieldsByName (typ : T) : Option (String → Option T) :=
  if u.kind typ = .struct ∧ (u.fields typ).length > 0 then
    some ((u.fields typ).foldl (fun mp f => fun n => if n = f.1 then some f.2 else mp n) (fun _ => none))
  else none

/-- reflect/reflect.go:331-337 `GetFieldByName`; `none` = panic. reflect.Type.FieldByName panics for a type that is no struct, returns the first field
of that name, and otherwise what is promoted from embedded fields, which is a parameter (`promoted`; nothing for a struct without embedded fields). -/
def getFieldByName (promoted : T → String → Option T) (typ : T) (name : String) : Option T :=
  if u.kind typ = .struct then
    match (u.fields typ).find? (fun f => f.1 = name) with
    | some sf => some sf.2
    | none => promoted typ name
  else none

/-- reflect/reflect.go:164-167 `IsBigPtr` with the map of lines 45-49. -/
def isBigPtr (typ : T) : Bool := typ = u.bigInt ∨ typ = u.bigFloat ∨ typ = u.bigRat

/-- reflect/reflect.go:171-174 `IsSignedInteger`. -/
def isSignedInteger (typ : T) : Bool := (u.kind typ).code ≥ RKind.int.code ∧ (u.kind typ).code ≤ RKind.int64.code

/-- reflect/reflect.go:178-181 `IsUnsignedInteger`. -/
def isUnsignedInteger (typ : T) : Bool := (u.kind typ).code ≥ RKind.uint.code ∧ (u.kind typ).code ≤ RKind.uint64.code

/-- reflect/reflect.go:184-187 `IsNumeric`. -/
def isNumeric (typ : T) : Bool :=
  ((u.kind typ).code ≥ RKind.int.code ∧ (u.kind typ).code ≤ RKind.float64.code ∧ (u.kind typ).code ≠ RKind.uintptr.code) ∨
    isBigPtr u typ

/-- reflect/reflect.go:195-202 `IsNillable` of a non-nil Type or Value of the given kind. -/
def isNillable (knd : RKind) : Bool := knd = .invalid ∨ (knd.code ≥ RKind.chan.code ∧ knd.code ≤ RKind.slice.code)

/-- reflect/reflect.go:205-207 `IsNil`. -/
def isNil (val : Value T) : Bool :=
  match val with
  | .invalid => true
  | .val t c _ => isNillable (u.kind t) && c.isNil

/-- reflect/reflect.go:25-42 the keys of `kindToType`. -/
def hasBaseType : RKind → Bool
  | .bool | .int | .int8 | .int16 | .int32 | .int64 | .uint | .uint8 | .uint16 | .uint32 | .uint64
  | .float32 | .float64 | .complex64 | .complex128 | .string => true
  | _ => false

/-- reflect/reflect.go:209-212 `IsPrimitive`. -/
def isPrimitive (knd : RKind) : Bool := hasBaseType knd

/-- reflect/reflect.go:229-237 `ResolveValueType`: the contents of an interface, the invalid Value for a nil one. -/
def resolveValueType (val : Value T) : Value T :=
  match val with
  | .invalid => .invalid
  | .val t c l =>
    if u.kind t = .interface then
      match c with
      | .iface dyn c' => .val dyn c' none
      | _ => .invalid
    else .val t c l

/-- reflect/reflect.go:243-250 `TypeAssert`: `Type()` panics on the invalid Value. The error carries no more than the fact. -/
def typeAssert (val : Value T) (typ : T) : Out Unit Unit :=
  match resolveValueType u val with
  | .invalid => .panic
  | .val rt _ _ => if rt ≠ typ then .err () else .ok ()

/-- reflect/reflect.go:259-265 `TypeOf`: the text of the invalid Value is that of package reflect. -/
def typeOf (val : Value T) : String :=
  match val with
  | .invalid => "<invalid Value>"
  | .val t _ _ => u.str t

/-- reflect/reflect.go:269-278 `TypeToBaseType`; `none` = nil. -/
def typeToBaseType (typ : T) : Option T :=
  if hasBaseType (u.kind typ) ∧ (u.kind typ).str ≠ u.str typ then some (u.predeclared (u.kind typ)) else none

/-- reflect/reflect.go:282-298 `ValueToBaseType`. `val.Elem()` of a nil pointer is the invalid Value, which is in no entry of
kindToType. Conversion to a type with the same underlying type keeps the contents. Convert to the pointer to the predeclared type
panics if the type of the pointer is a defined type (one with a name): Go converts pointers only between types that are not defined. -/
def valueToBaseType (m : Mem T) (val : Value T) : Out Unit (Value T) :=
  match val with
  | .invalid => .ok .invalid
  | .val t c l =>
    if hasBaseType (u.kind t) ∧ (u.kind t).str ≠ u.str t then .ok (.val (u.predeclared (u.kind t)) c none)
    else if u.kind t = .pointer then
      match (Value.val t c l).elem u m with
      | .invalid => .ok (.val t c l)
      | .val te _ _ =>
        if hasBaseType (u.kind te) ∧ (u.kind te).str ≠ u.str te then
          if u.name t ≠ "" then .panic
          else .ok (.val (u.ptrTo (u.predeclared (u.kind te))) c none)
        else .ok (.val t c l)
    else .ok (.val t c l)

/-- reflect/reflect.go:311-326 `ValueMaxOnePtrType`; `none` = nil. -/
def valueMaxOnePtrType (val : Value T) : Option T :=
  match val with
  | .invalid => none
  | .val t _ _ =>
    if u.kind t = .pointer then
      if u.kind (u.elem t) = .pointer then none else some (u.elem t)
    else some t

/-- Go's Value.Set: overwrite an addressable variable; panics otherwise. -/
def Mem.set (m : Mem T) (a : Nat) (c : Content T) : Mem T := fun b => if b = a then c else m b

/-- reflect/reflect.go:158-161 `SetPointerValue`; the result is the memory afterwards. `val` must be valid (Convert panics on
the invalid Value). -/
def setPointerValue (m : Mem T) (dst val : Value T) : Option (Out Unit (Mem T)) :=
  match derefValue u m dst with
  | none => none
  | some .invalid => some .panic
  | some (.val t _ loc) =>
    match val with
    | .invalid => some .panic
    | .val s c _ =>
      match u.convert s t c, loc with
      | some c', some a => some (.ok (m.set a c'))
      | _, _ => some .panic

/-! ### package union/reflect -/

/-- union/reflect/reflect.go:13-15 `unionPkgPath`. -/
def unionPkgPath : String := "github.com/bantling/micro/union"

/-- union/reflect/reflect.go:25-34 `GetMaybeType`: outer `none` = does not return, inner `none` = nil. -/
def getMaybeType (typ : T) : Option (Option T) :=
  match derefType u typ with
  | none => none
  | some dtyp =>
    if u.pkgPath dtyp = unionPkgPath ∧ "Maybe[".toList.isPrefixOf (u.name dtyp).toList then
      match u.getOut dtyp with
      | some o => some (some o)
      | none => some none
    else some none

/-- union/reflect/reflect.go:40-44 `safeMaybeAccess`; `none` = does not return. -/
def safeMaybeAccess (val : Value T) : Option Bool :=
  match val with
  | .invalid => some false
  | .val t c _ =>
    match getMaybeType u t with
    | none => none
    | some none => some false
    | some (some _) => some (u.kind t ≠ .pointer ∨ ¬ c.isNil)

/-- The Maybe a method with a value receiver (the methods Present and Get, union/union.go:366-383) is called on through reflection: the
receiver may be the Maybe or a non-nil pointer to it. MethodByName panics on the invalid Value, a call through a nil pointer
panics, and other types (such as pointers to pointers) have no such method. -/
def maybeReceiver (m : Mem T) (val : Value T) : Option (Content T × Bool) :=
  match val with
  | .val _ (.maybe v p) _ => some (v, p)
  | .val t (.ptr a) _ =>
    if u.kind t = .pointer then
      match m a with
      | .maybe v p => some (v, p)
      | _ => none
    else none
  | _ => none

/-- union/reflect/reflect.go:50-52 `MaybeValueIsPresent`. -/
def maybeValueIsPresent (m : Mem T) (val : Value T) : Option (Out Unit Bool) :=
  match safeMaybeAccess u val with
  | none => none
  | some false => some (.ok false)
  | some true =>
    match derefValueMaxOnePtr u m val with
    | none => none
    | some v =>
      match maybeReceiver u m v with
      | none => some .panic
      | some (_, p) => some (.ok p)

/-- union/reflect/reflect.go:60-66 `GetMaybeValue`. The result of Call has the result type of Get and is not addressable. -/
def getMaybeValue (m : Mem T) (val : Value T) : Option (Out Unit (Value T)) :=
  match maybeValueIsPresent u m val with
  | none => none
  | some (.ok false) => some (.ok .invalid)
  | some (.ok true) =>
    match derefValueMaxOnePtr u m val with
    | none => none
    | some v =>
      match maybeReceiver u m v, val with
      | some (c, true), .val t _ _ =>
        match getMaybeType u t with
        | some (some o) => some (.ok (.val o c none))
        | _ => some .panic
      | _, _ => some .panic
  | some _ => some .panic

/-- funcs/funcs.go:1056-1070 `Nillable`, by kind. -/
def nillable : RKind → Bool
  | .chan | .func | .map | .pointer | .slice => true
  | _ => false

/-- funcs/funcs.go:1017-1021 `IsNilValue` of a variable of type `t`: converting an interface to `any` keeps its dynamic value. -/
def isNilValue (t : T) (c : Content T) : Bool :=
  if u.kind t = .interface then
    match c with
    | .iface dyn c' => nillable (u.kind dyn) && c'.isNil
    | _ => true
  else nillable (u.kind t) && c.isNil

/-- The common part of union/reflect/reflect.go:70-81 `SetMaybeValue` and lines 85-96 `SetMaybeValueEmpty`: the checks, and
the Maybe whose Set/SetEmpty method is called (`DerefValue(dst).Addr()` panics unless that is an addressable variable): its
location and element type. -/
def maybeTarget (m : Mem T) (dst : Value T) : Option (Out Unit (Nat × T)) :=
  match safeMaybeAccess u dst with
  | none => none
  | some false => some (.err ())
  | some true =>
    match dst with
    | .invalid => some (.err ())
    | .val t _ loc =>
      if u.kind t ≠ .pointer ∧ loc = none then some (.err ())
      else
        match derefValue u m dst, getMaybeType u t with
        | none, _ => none
        | some (.val _ _ (some a)), some (some o) => some (.ok (a, o))
        | _, _ => some .panic

/-- union/reflect/reflect.go:70-81 `SetMaybeValue`, with union/union.go:402-408 `Maybe.Set`; Call panics for an invalid or
unassignable argument. The result is the memory afterwards. -/
def setMaybeValue (m : Mem T) (dst val : Value T) : Option (Out Unit (Mem T)) :=
  match maybeTarget u m dst with
  | none => none
  | some .panic => some .panic
  | some (.err e) => some (.err e)
  | some (.ok (a, o)) =>
    match val with
    | .invalid => some .panic
    | .val s c _ =>
      match u.assign s o c with
      | none => some .panic
      | some c' => some (.ok (m.set a (.maybe c' (!isNilValue u o c'))))

/-- union/reflect/reflect.go:85-96 `SetMaybeValueEmpty`, with union/union.go:411-415 `Maybe.SetEmpty`. -/
def setMaybeValueEmpty (m : Mem T) (dst : Value T) : Option (Out Unit (Mem T)) :=
  match maybeTarget u m dst with
  | none => none
  | some .panic => some .panic
  | some (.err e) => some (.err e)
  | some (.ok (a, o)) => some (.ok (m.set a (.maybe (u.zero o) false)))

end Micro.Reflect
