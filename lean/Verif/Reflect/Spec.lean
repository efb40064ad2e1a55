import Verif.Reflect.Model
import Mathlib.Logic.Function.Iterate
import Mathlib.Logic.Relation
/-
Specification vocabulary for C85-C92, independent of the modelled functions: pointer chains of types and values, well typed
memory, the facts about Go types the properties need, and a concrete universe of types that has them.
-/
namespace Micro.Reflect

variable {T : Type} [DecidableEq T] (u : Univ T (Content T))

/-- `t` is exactly `n` pointers to `r`. -/
def Stars (t : T) (n : Nat) (r : T) : Prop := u.elem^[n] t = r ∧ ∀ i < n, u.kind (u.elem^[i] t) = .pointer

/-- `t` is a pointer to a pointer to a pointer ... without end, such as `type P *P`. -/
def Endless (t : T) : Prop := ∀ n, u.kind (u.elem^[n] t) = .pointer

/-- `w` is the variable the non-nil pointer `v` points to. -/
inductive Points (m : Mem T) : Value T → Value T → Prop where
  | mk (t : T) (a : Nat) (l : Option Nat) (h : u.kind t = .pointer) :
      Points m (.val t (.ptr a) l) (.val (u.elem t) (m a) (some a))

/-- `w` is reached from `v` by following non-nil pointers. -/
def Reaches (m : Mem T) : Value T → Value T → Prop := Relation.ReflTransGen (Points u m)

/-- `v` is a pointer (nil or not). -/
def IsPtr (v : Value T) : Prop := v.kind u = .pointer

/-- `v` is a nil pointer whose type points to `t`. -/
def NilPtrTo (v : Value T) (t : T) : Prop := ∃ s l, v = .val s .nil l ∧ u.kind s = .pointer ∧ u.elem s = t

/-- `t` is the type `union.Maybe[o]`. -/
def IsMaybe (t o : T) : Prop :=
  u.pkgPath t = "github.com/bantling/micro/union" ∧ (∃ rest, (u.name t).toList = "Maybe[".toList ++ rest) ∧
    u.getOut t = some o

/-- The contents `c` fit the type `t`, where `ty` gives the type of each location. -/
def Fits (ty : Nat → T) (t : T) (c : Content T) : Prop :=
  (u.kind t = .pointer → c = .nil ∨ ∃ a, c = .ptr a ∧ ty a = u.elem t) ∧
  (u.kind t = .interface → c = .nil ∨ ∃ d c', c = .iface d c') ∧
  (∀ o, IsMaybe u t o → ∃ v p, c = .maybe v p)

/-- Memory is well typed. -/
def TypedMem (ty : Nat → T) (m : Mem T) : Prop := ∀ a, Fits u ty (ty a) (m a)

/-- A Value that is well typed and, if addressable, agrees with memory. -/
def TypedVal (ty : Nat → T) (m : Mem T) : Value T → Prop
  | .invalid => True
  | .val t c l => Fits u ty t c ∧ ∀ a, l = some a → ty a = t ∧ m a = c

/-- The primitive kinds. -/
def Primitive (k : RKind) : Prop :=
  k ∈ ([.bool, .int, .int8, .int16, .int32, .int64, .uint, .uint8, .uint16, .uint32, .uint64, .float32, .float64,
    .complex64, .complex128, .string] : List RKind)

/-- Facts about Go types: the predeclared type of a primitive kind has that kind and prints as its name, no other type of
that kind does (user defined types print with their package); pointer types; a Maybe is a struct; assigning a value to a
variable of its own type keeps it. -/
structure Univ.Lawful : Prop where
  predeclared_kind : ∀ k, Primitive k → u.kind (u.predeclared k) = k
  predeclared_str : ∀ k, Primitive k → u.str (u.predeclared k) = k.str
  str_predeclared : ∀ t, Primitive (u.kind t) → u.str t = (u.kind t).str → t = u.predeclared (u.kind t)
  ptr_kind : ∀ t, u.kind (u.ptrTo t) = .pointer
  ptr_elem : ∀ t, u.elem (u.ptrTo t) = t
  ptr_name : ∀ t, u.name (u.ptrTo t) = ""
  big_kind : ∀ t, t = u.bigInt ∨ t = u.bigFloat ∨ t = u.bigRat → u.kind t = .pointer
  maybe_kind : ∀ t o, IsMaybe u t o → u.kind t = .struct
  assign_self : ∀ t c, u.assign t t c = some c
  convert_self : ∀ t c, u.convert t t c = some c

/-! ### A concrete universe of types, for examples -/

/-- Some Go types: predeclared ones, user defined ones `main.<n>` of a kind, pointers, the big structs, interfaces,
`type P *P`, union.Maybe of another type, and `type N *T`. -/
inductive GoTy where
  | prim (k : RKind)
  | named (n : String) (k : RKind)
  | ptr (t : GoTy)
  | big (i : Nat)
  | any
  | endless
  | maybe (t : GoTy)
  | namedPtr (n : String) (t : GoTy)
  deriving DecidableEq

/-- Kinds of the example types. -/
def GoTy.kind : GoTy → RKind
  | .prim k => if hasBaseType k then k else .struct
  | .named _ k => if k = .pointer then .struct else if k = .interface then .struct else k
  | .ptr _ => .pointer
  | .big _ => .struct
  | .any => .interface
  | .endless => .pointer
  | .maybe _ => .struct
  | .namedPtr _ _ => .pointer

/-- The example universe. -/
def goUniv : Univ GoTy (Content GoTy) where
  kind := GoTy.kind
  elem | .ptr t => t | .namedPtr _ t => t | t => t
  ptrTo := .ptr
  str
    | .prim k => if hasBaseType k then k.str else "struct {}"
    | .named n _ => "main." ++ n
    | .ptr _ => "*" | .big _ => "big" | .any => "interface {}" | .endless => "main.P" | .maybe _ => "union.Maybe[]" | .namedPtr n _ => "main." ++ n
  predeclared := .prim
  bigInt := .ptr (.big 0)
  bigFloat := .ptr (.big 1)
  bigRat := .ptr (.big 2)
  pkgPath | .maybe _ => "github.com/bantling/micro/union" | .named _ _ => "main" | .namedPtr _ _ => "main" | .endless => "main" | _ => ""
  name | .maybe _ => "Maybe[x]" | .named n _ => n | .namedPtr n _ => n | .endless => "P" | _ => ""
  getOut | .maybe t => some t | _ => none
  fields | .named "S" .struct => [("A", .prim .int), ("B", .prim .string)] | _ => []
  zero t := match t.kind with
    | .pointer | .interface | .map | .slice | .chan | .func => .nil
    | _ => match t with
      | .maybe _ => .maybe .nil false
      | _ => .data 0
  convert s t c := if s = t then some c else if s.kind = t.kind then some c else none
  assign s t c := if s = t then some c else if t = .any then some (.iface s c) else none

end Micro.Reflect
