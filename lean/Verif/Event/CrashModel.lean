import Verif.Event.Model
/-
Package event with receivers that may panic, and that may recover from the panic of an event they send themselves.
-/
namespace Micro.Event
open Micro Micro.Funcs

variable {P I R T : Type}

/-- What a receiver's Process function (event/event.go:29-31) does with the registry before it returns its value or panics. The continuation of
`send` gets the value a nested Send returns, or the value it panicked with: a Process function that does not recover then panics with the same. -/
inductive PProg (P I R T : Type) where
  | ret (val : T)
  | panic (p : P)
  | register (id : I) (rcvr : R) (k : PProg P I R T)
  | removeId (id : I) (k : PProg P I R T)
  | remove (id : I) (rcvr : R) (all : Bool) (k : PProg P I R T)
  | send (val : T) (k : Except P T → PProg P I R T)

section
variable [LinearOrder I] (ptr : R → Nat)

/-- Running a Process function (event/event.go:29-31); `sendF` is the nested Send. The result is the value returned or panicked with. -/
def execP (sendF : Reg I R → T → Option (Except P T × Reg I R)) : PProg P I R T → Reg I R → Option (Except P T × Reg I R)
  | .ret val, m => some (.ok val, m)
  | .panic p, m => some (.error p, m)
  | .register id rcvr k, m => (m.register id rcvr).bind (execP sendF k)
  | .removeId id k, m => (m.removeId id).bind (execP sendF k)
  | .remove id rcvr all k, m => (m.remove ptr id rcvr all).bind (execP sendF k)
  | .send val k, m => (sendF m val).bind fun (r, m') => execP sendF (k r) m'

/-- event/event.go:88-90: the inner loop. A panic leaves it. The last component lists the receivers called, with the id. -/
def sendInnerP (call : R → T → Reg I R → Option (Except P T × Reg I R)) (id : I) :
    List R → T → Reg I R → Option (Except P T × Reg I R × List (I × R))
  | [], val, m => some (.ok val, m, [])
  | rcvr :: rs, val, m =>
    match call rcvr val m with
    | none => none
    | some (.error p, m') => some (.error p, m', [(id, rcvr)])
    | some (.ok v, m') => (sendInnerP call id rs v m').map fun (x, m'', log) => (x, m'', (id, rcvr) :: log)

/-- event/event.go:87-91: the outer loop, over the `n` elements from index i on of the array the slice had at the start. A panic leaves it. -/
def sendOuterP (call : R → T → Reg I R → Option (Except P T × Reg I R)) (arr : Nat) :
    (n i : Nat) → T → Reg I R → Option (Except P T × Reg I R × List (I × R))
  | 0, _, val, m => some (.ok val, m, [])
  | n + 1, i, val, m =>
    match (m.arrs arr)[i]? with
    | none => none
    | some e =>
      match sendInnerP call e.1 e.2 val m with
      | none => none
      | some (.error p, m', log) => some (.error p, m', log)
      | some (.ok v, m', log) => (sendOuterP call arr n (i + 1) v m').map fun (x, m'', log') => (x, m'', log ++ log')

/-- event/event.go:86-94 `Send`. `none`: a panic of the registry's own code, or Sends nested more than `depth` deep. -/
def sendP (proc : R → T → PProg P I R T) : (depth : Nat) → Reg I R → T → Option (Except P T × Reg I R × List (I × R))
  | 0, _, _ => none
  | d + 1, m, val =>
    sendOuterP (fun rcvr v m => execP ptr (fun m w => (sendP proc d m w).map fun (x, m', _) => (x, m')) (proc rcvr v) m) m.cur m.len 0 val m

end
end Micro.Event
