import Verif.Funcs.Model
import Verif.Conv.FloatModel
import Mathlib.Logic.Function.Basic
/-
Model of the small functions of package funcs: comparison filters, Compose2 to Compose10, nil checks, and SupplierCached used by several goroutines.
-/
namespace Micro.Funcs
open Micro

/-! ### Comparison filters -/

/-- Go's comparison operators on a type of the constraint Ordered. `a > b` is `b < a` and `a >= b` is `b <= a`. -/
class GoOrdered (α : Type) where
  lt : α → α → Bool
  le : α → α → Bool
  eq : α → α → Bool

/-- Integers and strings: Go compares them in their linear order. -/
@[reducible] def GoOrdered.ofLinear (α : Type) [LinearOrder α] : GoOrdered α := ⟨fun a b => decide (a < b), fun a b => decide (a ≤ b), fun a b => decide (a = b)⟩

/-- Floats: comparisons with NaN are false, infinities are below and above all numbers (Go language specification, comparison operators; IEEE 754). -/
instance : GoOrdered Conv.Flt where
  lt a b := match a, b with
    | .nan, _ => false
    | _, .nan => false
    | .inf s, .inf t => s && !t
    | .inf s, .fin _ => s
    | .fin _, .inf t => !t
    | .fin p, .fin q => decide (p < q)
  le a b := match a, b with
    | .nan, _ => false
    | _, .nan => false
    | .inf s, .inf t => s || !t
    | .inf s, .fin _ => s
    | .fin _, .inf t => !t
    | .fin p, .fin q => decide (p ≤ q)
  eq a b := match a, b with
    | .nan, _ => false
    | _, .nan => false
    | .inf s, .inf t => s == t
    | .inf _, .fin _ => false
    | .fin _, .inf _ => false
    | .fin p, .fin q => decide (p = q)

section
variable {α : Type} [GoOrdered α]

/-- funcs/funcs.go:761-765 `LessThan`. -/
def lessThan (val t : α) : Bool := GoOrdered.lt t val
/-- funcs/funcs.go:768-772 `LessThanEqual`. -/
def lessThanEqual (val t : α) : Bool := GoOrdered.le t val
/-- funcs/funcs.go:775-779 `Equal`. -/
def equal (val t : α) : Bool := GoOrdered.eq t val
/-- funcs/funcs.go:795-799 `GreaterThan`. -/
def greaterThan (val t : α) : Bool := GoOrdered.lt val t
/-- funcs/funcs.go:802-806 `GreaterThanEqual`. -/
def greaterThanEqual (val t : α) : Bool := GoOrdered.le val t

/-- funcs/funcs.go:811-815 `IsNegative`; `zero` is the constant 0 of the type. -/
def isNegative (zero t : α) : Bool := GoOrdered.lt t zero
/-- funcs/funcs.go:818-822 `IsNonNegative`. -/
def isNonNegative (zero t : α) : Bool := GoOrdered.le zero t
/-- funcs/funcs.go:825-829 `IsPositive`. -/
def isPositive (zero t : α) : Bool := GoOrdered.lt zero t
end

/-! ### Composition

The functions may have effects (panic, change state, do output): they are Kleisli arrows of a monad. -/

section
variable {M : Type → Type} [Monad M] {P Q R S T U V W X Y Z : Type}

/-- funcs/funcs.go:848-855 `Compose2`. -/
def compose2 (f0 : P → M Q) (f1 : Q → M R) (p : P) : M R := do f1 (← f0 p)
/-- funcs/funcs.go:858-866 `Compose3`. -/
def compose3 (f0 : P → M Q) (f1 : Q → M R) (f2 : R → M S) (p : P) : M S := do f2 (← f1 (← f0 p))
/-- funcs/funcs.go:869-878 `Compose4`. -/
def compose4 (f0 : P → M Q) (f1 : Q → M R) (f2 : R → M S) (f3 : S → M T) (p : P) : M T := do f3 (← f2 (← f1 (← f0 p)))
/-- funcs/funcs.go:881-891 `Compose5`. -/
def compose5 (f0 : P → M Q) (f1 : Q → M R) (f2 : R → M S) (f3 : S → M T) (f4 : T → M U) (p : P) : M U := do f4 (← f3 (← f2 (← f1 (← f0 p))))
/-- funcs/funcs.go:894-905 `Compose6`. -/
def compose6 (f0 : P → M Q) (f1 : Q → M R) (f2 : R → M S) (f3 : S → M T) (f4 : T → M U) (f5 : U → M V) (p : P) : M V := do
  f5 (← f4 (← f3 (← f2 (← f1 (← f0 p)))))
/-- funcs/funcs.go:908-920 `Compose7`. -/
def compose7 (f0 : P → M Q) (f1 : Q → M R) (f2 : R → M S) (f3 : S → M T) (f4 : T → M U) (f5 : U → M V) (f6 : V → M W) (p : P) : M W := do
  f6 (← f5 (← f4 (← f3 (← f2 (← f1 (← f0 p))))))
/-- funcs/funcs.go:923-936 `Compose8`. -/
def compose8 (f0 : P → M Q) (f1 : Q → M R) (f2 : R → M S) (f3 : S → M T) (f4 : T → M U) (f5 : U → M V) (f6 : V → M W) (f7 : W → M X) (p : P) : M X := do
  f7 (← f6 (← f5 (← f4 (← f3 (← f2 (← f1 (← f0 p)))))))
/-- funcs/funcs.go:939-953 `Compose9`. -/
def compose9 (f0 : P → M Q) (f1 : Q → M R) (f2 : R → M S) (f3 : S → M T) (f4 : T → M U) (f5 : U → M V) (f6 : V → M W) (f7 : W → M X) (f8 : X → M Y)
    (p : P) : M Y := do
  f8 (← f7 (← f6 (← f5 (← f4 (← f3 (← f2 (← f1 (← f0 p))))))))
/-- funcs/funcs.go:956-971 `Compose10`. -/
def compose10 (f0 : P → M Q) (f1 : Q → M R) (f2 : R → M S) (f3 : S → M T) (f4 : T → M U) (f5 : U → M V) (f6 : V → M W) (f7 : W → M X) (f8 : X → M Y)
    (f9 : Y → M Z) (p : P) : M Z := do
  f9 (← f8 (← f7 (← f6 (← f5 (← f4 (← f3 (← f2 (← f1 (← f0 p)))))))))

/-- funcs/funcs.go:986-1000 `TernaryResult`; a nil function is `none`, `zv` is the zero value. -/
def ternaryResult (zv : T) (expr : Bool) (trueVal falseVal : Option (Unit → M T)) : M T :=
  if expr then
    match trueVal with
    | some f => f ()
    | none => pure zv
  else
    match falseVal with
    | some f => f ()
    | none => pure zv

/-- funcs/funcs.go:976-982 `Ternary`. -/
def ternary (expr : Bool) (trueVal falseVal : T) : T := if expr then trueVal else falseVal
end

/-! ### Nil checks -/

/-- Kinds of types other than interfaces; the first six have a nil value. -/
inductive NKind where
  | chan | func | map | pointer | slice | unsafePointer | other
  deriving DecidableEq

/-- A type: an interface type, or a type of some kind. -/
inductive NTy where
  | iface
  | conc (k : NKind)
  deriving DecidableEq

/-- What reflect.ValueOf tells about a value: the kind of the dynamic type, whether the value is nil, and whether it is the zero value; a nil interface has no
dynamic type (`none`). -/
structure Dyn where
  kind : NKind
  isNil : Bool
  isZero : Bool

section
variable {α : Type}

/-- funcs/funcs.go:1056-1070 `Nillable`. -/
def nillableKind : NKind → Bool
  | .chan | .func | .map | .pointer | .slice => true
  | _ => false

/-- funcs/funcs.go:1049-1053 `MustBeNillable`; reflect.TypeOf of a nil interface is a nil Type, whose Kind method panics. `none` is a panic. -/
def mustBeNillable : NTy → Option Unit
  | .iface => none
  | .conc k => if nillableKind k then some () else none

/-- funcs/funcs.go:1007-1014 `IsNil`: `none` if it panics, and so for the filter it returns. -/
def isNilFilter (ty : NTy) (ref : α → Option Dyn) : Option (α → Option Bool) :=
  (mustBeNillable ty).map fun _ t => (ref t).map (·.isNil)

/-- funcs/funcs.go:1039-1046 `IsNonNil`. -/
def isNonNilFilter (ty : NTy) (ref : α → Option Dyn) : Option (α → Option Bool) :=
  (mustBeNillable ty).map fun _ t => (ref t).map (!·.isNil)

/-- funcs/funcs.go:1025-1034 `MustNonNilValue`: reflect's Type method panics for a nil interface. -/
def mustNonNilValue (ref : α → Option Dyn) (val : α) : Option α :=
  match ref val with
  | none => none
  | some d => (mustBeNillable (.conc d.kind)).bind fun _ => if nillableKind d.kind && d.isNil then none else some val

/-- funcs/funcs.go:1132-1138 `MustNonZero`: reflect's IsZero panics for a nil interface. -/
def mustNonZero (ref : α → Option Dyn) (v : α) : Option α :=
  match ref v with
  | none => none
  | some d => if d.isZero then none else some v

/-- funcs/funcs.go:1141-1147 `MustNonEmptySlice`; a nil slice is empty. -/
def mustNonEmptySlice (v : List α) : Option (List α) := if v.length = 0 then none else some v
end

/-! ### SupplierCached and goroutines -/

/-- A goroutine that calls a cached supplier: before the call, with the value of the supplier, with isCached set, about to read cachedVal, and finished. -/
inductive CThread (α : Type) where
  | start
  | got (v : α)
  | flagged (v : α)
  | ready
  | returned (v : α)
  deriving DecidableEq

/-- The shared variables, the number of calls of the supplier, and the goroutines. -/
structure CState (α : Type) where
  isCached : Bool
  cachedVal : α
  invoked : Nat
  threads : Nat → CThread α

/-- funcs/funcs.go:1273-1279: one step of goroutine i; `val k` is the value of the k-th call of the supplier. The assignments of line 1275 take place after the
call, from left to right. Simplification: reads and writes of a variable are single steps, seen by all goroutines in the same order. -/
def cstep {α : Type} (val : Nat → α) (i : Nat) (s : CState α) : CState α :=
  match s.threads i with
  | .start =>
    if !s.isCached then { s with invoked := s.invoked + 1, threads := Function.update s.threads i (.got (val s.invoked)) }
    else { s with threads := Function.update s.threads i .ready }
  | .got v => { s with isCached := true, threads := Function.update s.threads i (.flagged v) }
  | .flagged v => { s with cachedVal := v, threads := Function.update s.threads i .ready }
  | .ready => { s with threads := Function.update s.threads i (.returned s.cachedVal) }
  | .returned _ => s

/-- A schedule: which goroutine makes the next step. -/
def crun {α : Type} (val : Nat → α) : List Nat → CState α → CState α
  | [], s => s
  | i :: sched, s => crun val sched (cstep val i s)

/-- funcs/funcs.go:1267-1271: a new cached supplier. -/
def cinit {α : Type} (zv : α) : CState α := ⟨false, zv, 0, fun _ => .start⟩

end Micro.Funcs
