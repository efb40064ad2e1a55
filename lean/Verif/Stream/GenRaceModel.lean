import Verif.Stream.BigModel
/-
Generator when its transform is called by several goroutines at once, as Parallel does with its transforms. `currentIter` and `fn` are variables of
the call of Generator, not of the call of the transform, so the calls share them. (Verif/Stream/BigModel.lean has the calls one after the other.)
-/
namespace Micro.Stream.GenRace

/-- What happens to `fn` and to the generator: call k receives function number f from `gen()`, stores f in `fn`, or reads `fn`, to apply it
(stream/stream.go:714, 714, 717). -/
inductive Ev where
  | made (k f : Nat)
  | store (k f : Nat)
  | read (k : Nat) (f : Option Nat)
  deriving DecidableEq, Repr

/-- Where call k of the transform is (stream/stream.go:712-718): not started, past the comparison, with the result of `gen()` at hand, about to read `fn`, or
returned (or panicked). -/
inductive PC where
  | start
  | differs
  | made (f : Nat)
  | ready
  | done
  deriving DecidableEq, Repr

/-- stream/stream.go:707-710: the variables, none for nil; the number of functions generated so far; the calls; what has happened. The functions that the
generator returns are numbered in the order in which it returns them. -/
structure St where
  currentIter : Option Nat
  fn : Option Nat
  gens : Nat
  pc : Nat → PC
  trace : List Ev

/-- stream/stream.go:707-710. -/
def St.init : St := ⟨none, none, 0, fun _ => .start, []⟩

/-- stream/stream.go:712-718: one step of call k, on the iterator `it k` (none for nil). -/
def St.step (it : Nat → Option Nat) (s : St) (k : Nat) : St :=
  let goto (s : St) (p : PC) : St := { s with pc := fun j => if j = k then p else s.pc j }
  match s.pc k with
  | .start => if s.currentIter ≠ it k then goto s .differs else goto s .ready
  | .differs => goto { s with gens := s.gens + 1, trace := s.trace ++ [.made k s.gens] } (.made s.gens)
  | .made f => goto { s with fn := some f, trace := s.trace ++ [.store k f] } .ready
  | .ready => goto { s with trace := s.trace ++ [.read k s.fn] } .done
  | .done => s

/-- The events, when the goroutines make their steps in the order given. -/
def run (it : Nat → Option Nat) (sched : List Nat) : St := sched.foldl (St.step it) .init

end Micro.Stream.GenRace
