import Verif.Event.Model
import Verif.Funcs.Spec
import Mathlib.Data.List.Forall2
/-
Specification vocabulary for the event registry whose receivers use it.
-/
namespace Micro.Event
open Micro Micro.Funcs

variable {I R T : Type}

/-- The registry lies in memory. -/
def Reg.Ok (m : Reg I R) : Prop := m.cur < m.next ∧ m.len ≤ (m.arrs m.cur).length

/-- Entries of an array may have changed so: the same ids, and of the receivers outside `D` those there were come first, in their order. -/
def Grown (D : R → Bool) (a b : List (I × List R)) : Prop :=
  List.Forall₂ (fun x y => y.1 = x.1 ∧ (x.2.filter (fun r => !D r)) <+: (y.2.filter (fun r => !D r))) a b

/-- The Process function calls Remove only for receivers whose pointer text belongs to receivers in `D`, and does not call RemoveId. -/
inductive NoRemoveId (ptr : R → Nat) (D : R → Bool) : Prog I R T → Prop where
  | ret (val : T) : NoRemoveId ptr D (.ret val)
  | register (id : I) (r : R) (k : Prog I R T) : NoRemoveId ptr D k → NoRemoveId ptr D (.register id r k)
  | remove (id : I) (r : R) (all : Bool) (k : Prog I R T) : (∀ x, ptr x = ptr r → D x = true) → NoRemoveId ptr D k → NoRemoveId ptr D (.remove id r all k)
  | send (val : T) (k : T → Prog I R T) : (∀ v, NoRemoveId ptr D (k v)) → NoRemoveId ptr D (.send val k)

/-- The Process function does not change the registry. -/
inductive Quiet : Prog I R T → Prop where
  | ret (val : T) : Quiet (.ret val)
  | send (val : T) (k : T → Prog I R T) : (∀ v, Quiet (k v)) → Quiet (.send val k)

/-- The Process function does not send. -/
inductive NoSend : Prog I R T → Prop where
  | ret (val : T) : NoSend (.ret val)
  | register (id : I) (r : R) (k : Prog I R T) : NoSend k → NoSend (.register id r k)
  | removeId (id : I) (k : Prog I R T) : NoSend k → NoSend (.removeId id k)
  | remove (id : I) (r : R) (all : Bool) (k : Prog I R T) : NoSend k → NoSend (.remove id r all k)

/-- A history of Register, RemoveId and Remove calls on the registry in memory. -/
def memOps [LinearOrder I] {T : Type} (m : Reg I (Recv T)) : List (MOp I (Recv T)) → Option (Reg I (Recv T))
  | [] => some m
  | .add k v :: ops => (m.register k v).bind fun m => memOps m ops
  | .removeKey k :: ops => (m.removeId k).bind fun m => memOps m ops
  | .removeValue k v all :: ops => (m.remove Recv.ptr k v all).bind fun m => memOps m ops

end Micro.Event
