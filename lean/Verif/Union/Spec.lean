import Verif.Union.Model
/-
Specification vocabulary for package union.
-/
namespace Micro.Union

variable {A B C D α : Type}

/-- The value a union of two holds. -/
inductive Sum2 (A B : Type) where | t (a : A) | u (b : B)
/-- The value a union of three holds. -/
inductive Sum3 (A B C : Type) where | t (a : A) | u (b : B) | v (c : C)
/-- The value a union of four holds. -/
inductive Sum4 (A B C D : Type) where | t (a : A) | u (b : B) | v (c : C) | w (d : D)

/-- `s` shows exactly the value `x`: Which names its member, its getter returns it, other getters panic. -/
def Holds2 (s : Two A B) : Sum2 A B → Prop
  | .t a => s.which = .T ∧ s.getT = some a ∧ s.getU = none
  | .u b => s.which = .U ∧ s.getT = none ∧ s.getU = some b

/-- See `Holds2`. -/
def Holds3 (s : Three A B C) : Sum3 A B C → Prop
  | .t a => s.which = .T ∧ s.getT = some a ∧ s.getU = none ∧ s.getV = none
  | .u b => s.which = .U ∧ s.getT = none ∧ s.getU = some b ∧ s.getV = none
  | .v c => s.which = .V ∧ s.getT = none ∧ s.getU = none ∧ s.getV = some c

/-- See `Holds2`. -/
def Holds4 (s : Four A B C D) : Sum4 A B C D → Prop
  | .t a => s.which = .T ∧ s.getT = some a ∧ s.getU = none ∧ s.getV = none ∧ s.getW = none
  | .u b => s.which = .U ∧ s.getT = none ∧ s.getU = some b ∧ s.getV = none ∧ s.getW = none
  | .v c => s.which = .V ∧ s.getT = none ∧ s.getU = none ∧ s.getV = some c ∧ s.getW = none
  | .w d => s.which = .W ∧ s.getT = none ∧ s.getU = none ∧ s.getV = none ∧ s.getW = some d

/-- A call of the setter for a value. -/
def Two.put (s : Two A B) : Sum2 A B → Two A B | .t a => s.setT a | .u b => s.setU b
/-- A call of the setter for a value. -/
def Three.put (s : Three A B C) : Sum3 A B C → Three A B C | .t a => s.setT a | .u b => s.setU b | .v c => s.setV c
/-- A call of the setter for a value. -/
def Four.put (s : Four A B C D) : Sum4 A B C D → Four A B C D
  | .t a => s.setT a | .u b => s.setU b | .v c => s.setV c | .w d => s.setW d

/-- Operations that change a Maybe. -/
inductive MbOp (α : Type) where
  | set (x : α)
  | setEmpty
  | setOrError (x : α)

/-- An option type with the same operations; `isNil` tells the nil values, which are never stored. -/
def specStep (isNil : α → Bool) (o : Option α) : MbOp α → Option α
  | .set x => if isNil x then none else some x
  | .setEmpty => none
  | .setOrError x => match o with | some y => some y | none => if isNil x then none else some x

/-- The code's step. -/
def Maybe.step (ref : α → Option RV) (zv : α) (m : Maybe α) : MbOp α → Maybe α
  | .set x => m.set ref x
  | .setEmpty => m.setEmpty zv
  | .setOrError x => (m.setOrError ref x).2

/-- A Maybe shows the option `o` through all its observers. -/
def Shows (zv : α) (m : Maybe α) (o : Option α) : Prop :=
  m.present = o.isSome ∧ m.get = o ∧ (∀ d, m.orElse d = o.getD d) ∧
    m.orError zv = (match o with | some x => (x, false) | none => (zv, true))

/-- A value is nil: the nil interface, or a nil chan, func, map, pointer or slice. -/
def IsNil (ref : α → Option RV) (x : α) : Prop :=
  ref x = none ∨ ∃ v, ref x = some v ∧ v.kind ≠ .other ∧ v.isNil = true

end Micro.Union
