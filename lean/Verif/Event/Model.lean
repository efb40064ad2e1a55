import Verif.Funcs.SliceModel
/-
Model of package event with receivers that use the registry themselves while an event is being sent. The slice of (id, receivers) pairs is a
window on a backing array that `Send` keeps reading while the receivers change it. The receiver slices inside the pairs are modelled by their
elements: the code only ever appends to them or replaces them by a new slice, so a slice header that `Send` holds never sees a change.
-/
namespace Micro.Event
open Micro Micro.Funcs

variable {I R T : Type}

/-- event/event.go:51-53 `Registry`, in memory: `receivers` is the slice of the first `len` elements of the array `cur`. -/
structure Reg (I R : Type) where
  arrs : Nat → List (I × List R)
  next : Nat
  cur : Nat
  len : Nat

/-- The elements of the slice `r.receivers`. -/
def Reg.receivers (m : Reg I R) : List (I × List R) := (m.arrs m.cur).take m.len

/-- The zero value of the registry (event/event.go:51-53). -/
def Reg.zero : Reg I R := ⟨fun _ => [], 1, 0, 0⟩

/-- The slice variable is assigned a new array with the given elements. -/
def Reg.alloc (m : Reg I R) (l : List (I × List R)) : Reg I R := ⟨Function.update m.arrs m.next l, m.next + 1, m.next, l.length⟩

/-- An element of the slice is assigned. -/
def Reg.assign (m : Reg I R) (i : Nat) (e : I × List R) : Reg I R := { m with arrs := Function.update m.arrs m.cur ((m.arrs m.cur).set i e) }

section
variable [LinearOrder I]

/-- event/event.go:61-64 `Register`, funcs/funcs.go:674-690 `OrderedTuple2SliceAdd`. -/
def Reg.register (m : Reg I R) (id : I) (rcvr : R) : Option (Reg I R) :=
  match search m.receivers id with
  | none => none
  | some (none, _) => some (m.alloc [(id, [rcvr])])
  | some (some index, true) =>
    match m.receivers[index]? with
    | none => none
    | some e => some (m.assign index (id, e.2 ++ [rcvr]))
  | some (some index, false) => some (m.alloc (m.receivers.take (index + 1) ++ [(id, [rcvr])] ++ m.receivers.drop (index + 1)))

/-- event/event.go:67-70 `RemoveId`, funcs/funcs.go:693-697 `OrderedTuple2SliceRemoveKey`: append copies the elements after the key over the key's
element, in place; the array's element at the old end stays as it is. -/
def Reg.removeId (m : Reg I R) (id : I) : Option (Reg I R) :=
  match search m.receivers id with
  | none => none
  | some (some index, true) =>
    some { m with arrs := Function.update m.arrs m.cur (writeAt (m.arrs m.cur) index (m.receivers.drop (index + 1))), len := m.len - 1 }
  | some _ => some m

/-- event/event.go:74-76 `Remove`, funcs/funcs.go:709-713 `OrderedTuple2SliceRemoveUncomparable`; `ptr` is the text by which receivers are
compared. -/
def Reg.remove (ptr : R → Nat) (m : Reg I R) (id : I) (rcvr : R) (all : Bool) : Option (Reg I R) :=
  match search m.receivers id with
  | none => none
  | some (some index, true) =>
    match m.receivers[index]? with
    | none => none
    | some e => some (m.assign index (id, sliceRemoveUncomparable ptr e.2 rcvr [all]))
  | some _ => some m

end

/-- What a receiver's Process function (event/event.go:29-31) does with the registry before it returns its value. A ReceiverFunc
(event/event.go:39-41 `ReceiverFunc.Process`) is a receiver whose Process is the function itself. -/
inductive Prog (I R T : Type) where
  | ret (val : T)
  | register (id : I) (rcvr : R) (k : Prog I R T)
  | removeId (id : I) (k : Prog I R T)
  | remove (id : I) (rcvr : R) (all : Bool) (k : Prog I R T)
  | send (val : T) (k : T → Prog I R T)

section
variable [LinearOrder I] (ptr : R → Nat)

/-- Running a Process function; `sendF` is the nested Send. -/
def exec (sendF : Reg I R → T → Option (Reg I R × T)) : Prog I R T → Reg I R → Option (Reg I R × T)
  | .ret val, m => some (m, val)
  | .register id rcvr k, m => (m.register id rcvr).bind (exec sendF k)
  | .removeId id k, m => (m.removeId id).bind (exec sendF k)
  | .remove id rcvr all k, m => (m.remove ptr id rcvr all).bind (exec sendF k)
  | .send val k, m => (sendF m val).bind fun (m', v) => exec sendF (k v) m'

/-- event/event.go:88-90: the inner loop. The last component lists the receivers called. -/
def sendInner (call : R → T → Reg I R → Option (Reg I R × T)) : List R → T → Reg I R → Option (Reg I R × T × List R)
  | [], val, m => some (m, val, [])
  | rcvr :: rs, val, m => (call rcvr val m).bind fun (m', v) => (sendInner call rs v m').map fun (m'', w, log) => (m'', w, rcvr :: log)

/-- event/event.go:87-91: the outer loop, over the `n` elements from index i on of the array the slice had at the start; the elements are read when
their turn comes. The last component lists, for each element, the id and the receivers called. -/
def sendOuter (call : R → T → Reg I R → Option (Reg I R × T)) (arr : Nat) : (n i : Nat) → T → Reg I R → Option (Reg I R × T × List (I × List R))
  | 0, _, val, m => some (m, val, [])
  | n + 1, i, val, m =>
    match (m.arrs arr)[i]? with
    | none => none
    | some e =>
      match sendInner call e.2 val m with
      | none => none
      | some (m', v, called) => (sendOuter call arr n (i + 1) v m').map fun (m'', w, log) => (m'', w, (e.1, called) :: log)

/-- event/event.go:86-94 `Send`. `none`: a panic, or Sends nested more than `depth` deep. -/
def sendReg (proc : R → T → Prog I R T) : (depth : Nat) → Reg I R → T → Option (Reg I R × T × List (I × List R))
  | 0, _, _ => none
  | d + 1, m, val =>
    sendOuter (fun rcvr v m => exec ptr (fun m w => (sendReg proc d m w).map fun (m', x, _) => (m', x)) (proc rcvr v) m) m.cur m.len 0 val m

end
end Micro.Event
