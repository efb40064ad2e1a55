import Verif.Stream.ParModel
/-
Parallel with the goroutine that calls it as one more thread of execution: the threads are started one after the other, and run as soon as they are
started; the caller waits for their Done calls, and goes on with the result. Each access to an element of a shared slice, and each synchronisation,
is an event. (Verif/Stream/ParModel.lean has all the threads started at once, and the caller not at all.)
-/
namespace Micro.Stream.Race
open Micro Micro.Iter Micro.Stream

variable {τ α β μ : Type}

/-- The memory that goroutines share in Parallel (stream/stream.go:1186-1226): the elements of `input`, of `output` and of `errs`. -/
inductive Loc where
  | inp (i : Nat)
  | out (i : Nat)
  | err (k : Nat)
  deriving DecidableEq, Repr

/-- What a goroutine does: it reads or writes a location, starts thread k (`go`, stream/stream.go:1243), calls wg.Done (1231) or returns from wg.Wait (1247). -/
inductive What where
  | read (l : Loc)
  | write (l : Loc)
  | go (k : Nat)
  | done
  | wait
  deriving DecidableEq, Repr

/-- An event; `g` is the number of the thread, none for the goroutine that called Parallel. -/
structure Ev where
  g : Option Nat
  what : What
  deriving DecidableEq, Repr

/-- stream/stream.go:1214-1220: where `input[i]` lies: if T and U are the same type `output` is the same slice. -/
def inputLoc (inplace : Bool) (i : Nat) : Loc := if inplace then .out i else .inp i

/-- The shared location the next step of thread k (`stepThread`) reads or writes: stream/stream.go:1229-1238 `threadFn`, with `ReduceIntoSlice` 403-446 and
SliceIterGen iter/gen.go:29-44. The step that ends the transform writes `errs[threadNum]`. -/
def access (inplace : Bool) (act : τ → Act τ α β) (k lo hi : Nat) : TS τ → Option What
  | .run t ri wi =>
    match act t with
    | .read _ => if lo + ri < hi then some (.read (inputLoc inplace (lo + ri))) else none
    | .emit _ _ => if lo + wi < hi then some (.write (.out (lo + wi))) else none
    | .stop e => if e = .eoi then some (.write (.err k)) else none
  | .zeroing _ i => if lo + i < hi then some (.write (.out (lo + i))) else some (.write (.err k))
  | .done _ => none
  | .panicked => none

/-- The program: shared memory, the threads (with true if wg.Done has been called), how many have been started, whether wg.Wait has returned, and what has
happened so far. -/
structure RP (μ τ : Type) where
  mem : μ
  threads : List (TS τ × Bool)
  started : Nat
  waited : Bool
  trace : List Ev

/-- Who makes the next step. When wg.Wait has returned the caller may read and write any location; which one, is part of the choice. -/
inductive Choice where
  | caller (write : Bool) (l : Loc)
  | thread (k : Nat)

/-- The transform has ended, or panicked: what remains is the deferred wg.Done (stream/stream.go:1231). -/
def ended : TS τ → Bool
  | .done _ => true
  | .panicked => true
  | _ => false

/-- One step (stream/stream.go:1228-1258). -/
def RP.step (M : Mem μ α β) (inplace : Bool) (act : τ → Act τ α β) (zv : β) (ranges : List (Nat × Nat)) (p : RP μ τ) : Choice → RP μ τ
  | .caller write l =>
    if p.started < p.threads.length then { p with started := p.started + 1, trace := p.trace ++ [⟨none, .go p.started⟩] }
    else if p.waited = false then
      if p.threads.all (·.2) then { p with waited := true, trace := p.trace ++ [⟨none, .wait⟩] } else p
    else { p with trace := p.trace ++ [⟨none, if write then .write l else .read l⟩] }
  | .thread k =>
    if k < p.started then
      match ranges[k]?, p.threads[k]? with
      | some r, some (ts, false) =>
        if ended ts then { p with threads := p.threads.set k (ts, true), trace := p.trace ++ [⟨some k, .done⟩] }
        else
          { p with
            mem := (stepThread M act zv r.1 r.2 p.mem ts).1
            threads := p.threads.set k ((stepThread M act zv r.1 r.2 p.mem ts).2, false)
            trace := p.trace ++ ((access inplace act k r.1 r.2 ts).toList.map fun w => ⟨some k, w⟩) }
      | _, _ => p
    else p

/-- A schedule. -/
def RP.exec (M : Mem μ α β) (inplace : Bool) (act : τ → Act τ α β) (zv : β) (ranges : List (Nat × Nat)) (p : RP μ τ) (sched : List Choice) : RP μ τ :=
  sched.foldl (RP.step M inplace act zv ranges) p

/-- stream/stream.go:1186-1226: the caller has made the slices, with any reads and writes, and started no thread. -/
def RP.start (t0 : τ) (mem : μ) (ranges : List (Nat × Nat)) (setup : List (Bool × Loc)) : RP μ τ :=
  ⟨mem, ranges.map (fun _ => (.run t0 0 0, false)), 0, false, setup.map fun x => ⟨none, if x.1 then .write x.2 else .read x.2⟩⟩

end Micro.Stream.Race
