import Verif.Funcs.Model
/-
Model of SliceFlatten with types: the panics for arguments of a wrong type.
-/
namespace Micro.Funcs
open Micro
variable {α : Type}

/-- Go types, as far as SliceFlatten looks at them: slice types (which may be defined types, with a name), interface types and others. -/
inductive FTy where
  | slice (name : Option Nat) (elem : FTy)
  | iface (id : Nat)
  | other (id : Nat)
  deriving DecidableEq, Repr

/-- Values: slices, and values that are none; a nil interface is `leaf none`. -/
inductive FVal (α : Type) where
  | leaf (x : Option α)
  | node (vs : List (FVal α))

/-- The panics: sliceFlattenArgNotSliceMsg, sliceFlattenArgNotTMsg, and that of a type assertion. -/
inductive FErr where
  | notSlice | notT | assertion
  deriving DecidableEq, Repr

/-- funcs/funcs.go:102-107: the type under all slice dimensions, and their number. -/
def FTy.dims : FTy → FTy × Nat
  | .slice _ e => (e.dims.1, e.dims.2 + 1)
  | .iface i => (.iface i, 0)
  | .other i => (.other i, 0)

mutual
/-- funcs/funcs.go:121-133: one element, for which `f` is called if it is a slice; `val.Interface().(T)` panics for a nil interface. -/
def flatElem (rslc : List α) : FVal α → Option (List α)
  | .leaf none => none
  | .leaf (some x) => some (rslc ++ [x])
  | .node vs => flatSlice rslc vs
/-- funcs/funcs.go:121-133: the loop of the closure `f`. -/
def flatSlice (rslc : List α) : List (FVal α) → Option (List α)
  | [] => some rslc
  | v :: vs => match flatElem rslc v with
    | none => none
    | some r => flatSlice r vs
end

/-- The elements of a one dimensional slice (`none`: a nil interface). -/
def FVal.elems : FVal α → List (Option α)
  | .leaf _ => []
  | .node vs => vs.map fun v => match v with | .leaf x => x | .node _ => none

/-- funcs/funcs.go:82-137 `SliceFlatten[T]` of a value with its type (`none`: the untyped nil). -/
def sliceFlattenT (t : FTy) (value : Option (FTy × FVal α)) : Except FErr (List (Option α)) :=
  match value with
  | none => .ok []
  | some (.slice n e, v) =>
    if t ≠ e.dims.1 then .error .notT
    else if e.dims.2 + 1 = 1 then
      if FTy.slice n e = .slice none t then .ok v.elems else .error .assertion
    else match v with
      | .leaf _ => .ok []
      | .node vs => match flatSlice [] vs with
        | none => .error .assertion
        | some r => .ok (r.map some)
  | some (_, _) => .error .notSlice

/-! ### Specification -/

/-- The value has the type. -/
inductive HasTy : FVal α → FTy → Prop
  | other (x i) : HasTy (.leaf (some x)) (.other i)
  | iface (x i) : HasTy (.leaf x) (.iface i)
  | slice (vs n e) : (∀ v ∈ vs, HasTy v e) → HasTy (.node vs) (.slice n e)

/-- k slice dimensions over t, with any names. -/
inductive Over : Nat → FTy → FTy → Prop
  | zero (t) : Over 0 t t
  | succ (k n e t) : Over k e t → Over (k + 1) (.slice n e) t

mutual
/-- The values that are no slices, from left to right. -/
def FVal.leaves : FVal α → List (Option α)
  | .leaf x => [x]
  | .node vs => leavesL vs
/-- Those of several values. -/
def leavesL : List (FVal α) → List (Option α)
  | [] => []
  | v :: vs => v.leaves ++ leavesL vs
end

/-- Not a slice type. -/
def FTy.NoSlice (t : FTy) : Prop := ∀ n e, t ≠ .slice n e

end Micro.Funcs
