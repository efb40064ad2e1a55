import Verif.Funcs.Model
/-
Model of strukt.MapToStruct (strukt/reflect.go). At the pinned commit its body is commented out: only the evaluation of the ignore flag
and `return nil` remain.
-/
namespace Micro.Strukt

/-- A Go value as far as this package tells values apart. The field values of a struct are indexed by name. -/
inductive Val where
  | int (n : Int)
  | str (s : List Nat)
  | subMap (m : List (List Nat × Val))
  | other

/-- strukt/reflect.go:24-29 `MapStructIgnoreMode`: `true` is UnmappedFieldIgnore. -/
abbrev IgnoreMode := Bool

/-- What the second argument points to: nothing (nil), a value of a type that is not a struct, or a struct with the given fields. -/
inductive Pointee where
  | nil
  | notStruct (v : Val)
  | struct (fields : List Nat → Option Val)

/-- What a call does: it panics, or it returns an error or nil and leaves the pointed-to variable as given. -/
inductive Result where
  | panic
  | ret (err : Option String) (p : Pointee)

/-- strukt/reflect.go:55-153 `mapToStruct`: everything but `return nil` is commented out. -/
def mapToStructInner (_mp : List (List Nat × Val)) (p : Pointee) (_ignore : IgnoreMode) : Result := .ret none p

/-- strukt/reflect.go:48-50 `MapToStruct`; `ignore` is the variadic argument list (empty is the nil slice). -/
def mapToStruct (mp : List (List Nat × Val)) (p : Pointee) (ignore : List IgnoreMode) : Result :=
  match Funcs.sliceIndex (if ignore = [] then none else some ignore) 0 [] false with
  | none => .panic
  | some i => mapToStructInner mp p i

end Micro.Strukt
