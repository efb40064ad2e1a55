import Verif.Event.Model
import Verif.Event.Spec
/-
Model of a registry (event/event.go) that goroutines send events with, while other goroutines call Register, RemoveId and Remove.

A call of Register, RemoveId or Remove first searches a copy of the slice header for the id, and then reads the registry again, at the index found: if another goroutine has changed the registry meanwhile, there may be
another id at this index, or no element at all (a panic).

Simplifications: reading or writing a slice header or an element (an id with the header of its receivers) is atomic, which Go does not promise for racing accesses. The search is one step, so is the second
reading of the registry; after that every write is a step of its own. If these calls do not overlap with one another, this is no restriction: nobody else writes. The receivers of an id are
modelled by their elements, as in `Micro.Event.Reg`. Receivers are functions that do not use the registry themselves (those are in `Micro.Event.Prog`).
-/
namespace Micro.Event.Conc
open Micro Micro.Funcs

variable {I T : Type}

/-- A write that others can see: an element of an array, a new array with its elements and the slice header that refers to it, or the slice header. -/
inductive Write (I T : Type) where
  | elem (arr i : Nat) (e : I × List (Recv T))
  | fresh (l : List (I × List (Recv T)))
  | header (cur len : Nat)

/-- The effect of a write on the memory (event/event.go:51-53). -/
def Write.perform (m : Reg I (Recv T)) : Write I T → Reg I (Recv T)
  | .elem arr i e => { m with arrs := Function.update m.arrs arr ((m.arrs arr).set i e) }
  | .fresh l => m.alloc l
  | .header cur len => { m with cur, len }

/-- funcs/funcs.go:695: append copies the elements after the key to the places from i on, one after the other. -/
def shift (arr : Nat) : (i : Nat) → List (I × List (Recv T)) → List (Write I T)
  | _, [] => []
  | i, e :: es => .elem arr i e :: shift arr (i + 1) es

/-- The id that Register, RemoveId or Remove searches for (event/event.go:61-76). -/
def key : MOp I (Recv T) → I
  | .add id _ => id
  | .removeKey id => id
  | .removeValue id _ _ => id

/-- The writes of Register (event/event.go:61-64, funcs/funcs.go:674-690), RemoveId (event/event.go:67-70, funcs/funcs.go:693-697) and Remove (event/event.go:74-76,
funcs/funcs.go:709-713), after the search has found an index (none: -1) and whether the id is there, by reading the registry m at this index. `none` is a panic: there are not so many elements any more. -/
def planAt (m : Reg I (Recv T)) : MOp I (Recv T) → Option Nat → Bool → Option (List (Write I T))
  | .add id rcvr, none, _ => some [.fresh [(id, [rcvr])]]
  | .add id rcvr, some index, true =>
    match m.receivers[index]? with
    | none => none
    | some e => some [.elem m.cur index (id, e.2 ++ [rcvr])]
  | .add id rcvr, some index, false =>
    if index + 1 ≤ m.receivers.length then some [.fresh (m.receivers.take (index + 1) ++ [(id, [rcvr])] ++ m.receivers.drop (index + 1))] else none
  | .removeKey _, some index, true =>
    if index + 1 ≤ m.receivers.length then some (shift m.cur index (m.receivers.drop (index + 1)) ++ [.header m.cur (m.len - 1)]) else none
  | .removeKey _, _, _ => some []
  | .removeValue id rcvr all, some index, true =>
    match m.receivers[index]? with
    | none => none
    | some e => some [.elem m.cur index (id, sliceRemoveUncomparable Recv.ptr e.2 rcvr [all])]
  | .removeValue _ _ _, _, _ => some []

/-- Where a goroutine that changes the registry is (event/event.go:61-76): between two calls, in a call that has searched the registry and found an index (none: -1) and whether the id is
there, in a call that has still to make the writes ws and then returns, or it has panicked. -/
inductive MutSt (I T : Type) where
  | idle
  | searched (op : MOp I (Recv T)) (index : Option Nat) (matches_ : Bool)
  | writing (op : MOp I (Recv T)) (ws : List (Write I T))
  | panicked

/-- Where a goroutine is in Send (event/event.go:86-94): not begun, at index i of the outer loop over the n elements of the array arr, in the inner loop (`called`: the receivers called in this round, `rest`: those
still to call), returned, or panicked. `log` lists the rounds made. -/
inductive SndSt (I T : Type) where
  | ready
  | loop (arr n i : Nat) (val : T) (log : List (I × List (Recv T)))
  | inner (arr n i : Nat) (id : I) (called rest : List (Recv T)) (val : T) (log : List (I × List (Recv T)))
  | done (val : T) (log : List (I × List (Recv T)))
  | panicked

/-- The registry, the goroutines that change it, with the calls they have still to make, and those that send, with the value sent. -/
structure St (I T : Type) where
  reg : Reg I (Recv T)
  muts : List (MutSt I T × List (MOp I (Recv T)))
  snds : List (T × SndSt I T)

/-- One step of a goroutine that changes the registry (event/event.go:61-76). -/
def mutStep [LinearOrder I] (m : Reg I (Recv T)) : MutSt I T × List (MOp I (Recv T)) → Reg I (Recv T) × (MutSt I T × List (MOp I (Recv T)))
  | (.idle, []) => (m, .idle, [])
  | (.idle, op :: todo) =>
    match search m.receivers (key op) with
    | none => (m, .panicked, todo)
    | some (index, matches_) => (m, .searched op index matches_, todo)
  | (.searched op index matches_, todo) =>
    match planAt m op index matches_ with
    | none => (m, .panicked, todo)
    | some ws => (m, .writing op ws, todo)
  | (.writing op (w :: ws), todo) => (w.perform m, .writing op ws, todo)
  | (.writing _ [], todo) => (m, .idle, todo)
  | (.panicked, todo) => (m, .panicked, todo)

/-- One step of a goroutine that sends val (event/event.go:86-94): the slice header is read once, an element when its turn comes. -/
def sndStep (m : Reg I (Recv T)) (val : T) : SndSt I T → SndSt I T
  | .ready => .loop m.cur m.len 0 val []
  | .loop arr n i v log =>
    if i < n then
      match (m.arrs arr)[i]? with
      | none => .panicked
      | some e => .inner arr n i e.1 [] e.2 v log
    else .done v log
  | .inner arr n i id called [] v log => .loop arr n (i + 1) v (log ++ [(id, called)])
  | .inner arr n i id called (r :: rest) v log => .inner arr n i id (called ++ [r]) rest (r.process v) log
  | .done v log => .done v log
  | .panicked => .panicked

/-- Who makes the next step. -/
inductive Choice where
  | chg (k : Nat)
  | snd (k : Nat)

/-- One step of the program (event/event.go:61-94). -/
def St.step [LinearOrder I] (p : St I T) : Choice → St I T
  | .chg k =>
    match p.muts[k]? with
    | none => p
    | some g => { p with reg := (mutStep p.reg g).1, muts := p.muts.set k (mutStep p.reg g).2 }
  | .snd k =>
    match p.snds[k]? with
    | none => p
    | some (val, s) => { p with snds := p.snds.set k (val, sndStep p.reg val s) }

/-- The program run with a schedule. -/
def St.run [LinearOrder I] (p : St I T) (sched : List Choice) : St I T := sched.foldl St.step p

/-- Goroutines that are to make the calls opss of Register, RemoveId and Remove (event/event.go:61-76), and others that are to send the values vals (event/event.go:86-94), with the registry m. -/
def St.init (m : Reg I (Recv T)) (opss : List (List (MOp I (Recv T)))) (vals : List T) : St I T :=
  ⟨m, opss.map fun ops => (.idle, ops), vals.map fun v => (v, .ready)⟩

end Micro.Event.Conc
