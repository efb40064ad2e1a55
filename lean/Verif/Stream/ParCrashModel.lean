import Verif.Stream.ParModel
import Verif.Stream.CrashModel
/-
Model of stream.Parallel for transforms that may panic. A panic in a thread can't be recovered by the caller of Parallel: the deferred wg.Done() of the
thread is executed, then the program is terminated. Between the two the other goroutines go on.
-/
namespace Micro.Stream.ParCrash
open Micro Micro.Iter Micro.Stream

variable {P σ τ α β μ : Type}

/-- What a transform does next: as `Act`, or panics (and continues in state t if the caller recovers and calls Next again). -/
inductive PAct (P τ α β : Type) where
  | read (k : Option α → τ)
  | emit (b : β) (t : τ)
  | stop (e : Err)
  | panic (p : P) (t : τ)

/-- The value of a panic: of the transform's, or the index out of range of `slc[idx] = val` in ReduceIntoSlice (stream/stream.go:438). -/
inductive Fail (P : Type) where
  | user (p : P)
  | index
  deriving DecidableEq

/-- State of a thread (stream/stream.go:1229-1238): as `TS`; panicking before the deferred `wg.Done()` (1231), and after it. -/
inductive TP (P τ : Type) where
  | run (t : τ) (ri wi : Nat)
  | zeroing (e : Err) (i : Nat)
  | done (err : Option Err)
  | unwinding (f : Fail P)
  | unwound (f : Fail P)

/-- One step of the thread that works on the elements lo..hi-1 of the shared slices (stream/stream.go:1229-1238 `threadFn`, with `ReduceIntoSlice`
403-446). -/
def stepTP (M : Mem μ α β) (act : τ → PAct P τ α β) (zv : β) (lo hi : Nat) (m : μ) (ts : TP P τ) : μ × TP P τ :=
  match ts with
  | .run t ri wi =>
    match act t with
    | .read k =>
      if lo + ri < hi then (m, .run (k (M.rd m (lo + ri))) (ri + 1) wi) else (m, .run (k none) ri wi)
    | .emit b t' =>
      if lo + wi < hi then (M.wr m (lo + wi) b, .run t' ri (wi + 1)) else (m, .unwinding .index)
    | .stop e => if e = .eoi then (m, .done none) else (m, .zeroing e 0)
    | .panic p _ => (m, .unwinding (.user p))
  | .zeroing e i => if lo + i < hi then (M.wr m (lo + i) zv, .zeroing e (i + 1)) else (m, .done (some e))
  | .unwinding f => (m, .unwound f)
  | ts => (m, ts)

/-- The program: the shared memory, the threads, and whether it has been terminated by a panic. -/
structure Prog (P μ τ : Type) where
  mem : μ
  threads : List (TP P τ)
  dead : Option (Fail P)

/-- The scheduler lets thread k make one step: the step after the deferred `wg.Done()` (stream/stream.go:1231) of a panicking thread terminates the
program. -/
def Prog.step (M : Mem μ α β) (act : τ → PAct P τ α β) (zv : β) (ranges : List (Nat × Nat)) (p : Prog P μ τ) (k : Nat) : Prog P μ τ :=
  match p.dead, ranges[k]?, p.threads[k]? with
  | none, some _, some (.unwound f) => ⟨p.mem, p.threads, some f⟩
  | none, some r, some ts => ⟨(stepTP M act zv r.1 r.2 p.mem ts).1, p.threads.set k (stepTP M act zv r.1 r.2 p.mem ts).2, none⟩
  | _, _, _ => p

/-- A schedule: the sequence of threads that make a step (stream/stream.go:1241-1247). -/
def Prog.exec (M : Mem μ α β) (act : τ → PAct P τ α β) (zv : β) (ranges : List (Nat × Nat)) (p : Prog P μ τ) (sched : List Nat) : Prog P μ τ :=
  sched.foldl (Prog.step M act zv ranges) p

/-- stream/stream.go:1241-1244: all threads are started with the same transform. -/
def Prog.start (t0 : τ) (mem : μ) (ranges : List (Nat × Nat)) : Prog P μ τ := ⟨mem, ranges.map (fun _ => .run t0 0 0), none⟩

/-- The thread has called `wg.Done()` (stream/stream.go:1231). -/
def TP.left : TP P τ → Prop
  | .done _ => True
  | .unwound _ => True
  | _ => False

/-- `wg.Wait()` returns (stream/stream.go:1247): the program runs and every thread has called `wg.Done()`. -/
def Prog.returns (p : Prog P μ τ) : Prop := p.dead = none ∧ ∀ ts ∈ p.threads, ts.left

/-- The element of `errs` set by a thread (stream/stream.go:1237): a thread that panics does not set it. -/
def TP.err : TP P τ → Option Err
  | .done e => e
  | _ => none

/-- The panic of a thread that has called `wg.Done()` (stream/stream.go:1231). -/
def TP.fail : TP P τ → Option (Fail P)
  | .unwound f => some f
  | _ => none

/-- `errs` (stream/stream.go:1225, 1237). -/
def Prog.errs (p : Prog P μ τ) : List (Option Err) := p.threads.map TP.err

/-- The panics which are going to terminate the program. -/
def Prog.pending (p : Prog P μ τ) : List (Fail P) := p.threads.filterMap TP.fail

/-- How a call of the function made by `Parallel` may end, as seen by the goroutine that calls it. -/
inductive Outcome (P α β : Type) where
  | raised (p : P)                                             -- it panics (in the caller's goroutine)
  | one (x : α)                                                -- it returns transforms(iter.OfOne(x))
  | returned (r : Except Err (List β)) (dying : List (Fail P)) -- it returns an iterator of these values, or of none and this error; panics of
                                                               -- other goroutines are on the way to terminate the program
  | died (f : Fail P)                                          -- the program is terminated

/-- stream/stream.go:1183-1260 `Parallel`: the possible outcomes, for every schedule. -/
inductive Parallel (M : Mem μ α β) (mem : List α → μ) (act : τ → PAct P τ α β) (t0 : τ) (zv : β) (info : Option PInfo)
    (next : Crash.PCall P σ α) (s : σ) : Outcome P α β → Prop where
  | sourcePanic {p st} : Crash.nextP (Crash.reduceToSliceP next) (ofIter false, s) = some (.panic p, st) →
      Parallel M mem act t0 zv info next s (.raised p)
  | sourceError {e st} : Crash.nextP (Crash.reduceToSliceP next) (ofIter false, s) = some (.err e, st) →
      Parallel M mem act t0 zv info next s (.returned (.error e) [])
  | empty {st} : Crash.nextP (Crash.reduceToSliceP next) (ofIter false, s) = some (.val [], st) →
      Parallel M mem act t0 zv info next s (.returned (.ok []) [])
  | one {x st} : Crash.nextP (Crash.reduceToSliceP next) (ofIter false, s) = some (.val [x], st) →
      Parallel M mem act t0 zv info next s (.one x)
  | many {input st} (sched : List Nat) (p : Prog P μ τ) :
      Crash.nextP (Crash.reduceToSliceP next) (ofIter false, s) = some (.val input, st) → 2 ≤ input.length →
      p = Prog.exec M act zv (generateRanges input.length info)
        (Prog.start t0 (mem input) (generateRanges input.length info)) sched → p.returns →
      Parallel M mem act t0 zv info next s
        (.returned (match firstErr p.errs with | none => .ok (M.out p.mem) | some e => .error e) p.pending)
  | killed {input st} (sched : List Nat) (p : Prog P μ τ) (f : Fail P) :
      Crash.nextP (Crash.reduceToSliceP next) (ofIter false, s) = some (.val input, st) → 2 ≤ input.length →
      p = Prog.exec M act zv (generateRanges input.length info)
        (Prog.start t0 (mem input) (generateRanges input.length info)) sched → p.dead = some f →
      Parallel M mem act t0 zv info next s (.died f)

/-- iter/gen.go:85-99 `SingleValueIterGen`: the captured variable is done. -/
def singleP {η : Type} (x : α) : Crash.PCall P (Bool × η) α := fun (done, h) =>
  if done then some (.err .eoi, (true, h)) else some (.val x, (true, h))

/-- A machine as an iterating function over any source: the loop of one call of Next. -/
def machineP {η : Type} (act : τ → PAct P τ α β) (next : Crash.PCall P η α) (st : τ × η) : Option (Crash.Got P β × (τ × η)) :=
  match act st.1 with
  | .emit b t' => some (.val b, (t', st.2))
  | .stop e => some (.err e, st)
  | .panic p t' => some (.panic p, (t', st.2))
  | .read k =>
    match next st.2 with
    | none => none
    | some (.val v, h') => machineP act next (k (some v), h')
    | some (.err e, h') => if e = .eoi then machineP act next (k none, h') else some (.err e, (st.1, h'))
    | some (.panic p, h') => some (.panic p, (st.1, h'))
partial_fixpoint

/-- stream/stream.go:44-56 `Map` with a function that may panic, as a machine. A value that made the function panic is not mapped again. -/
def mapPAct (f : α → Except P β) : MapState α → PAct P (MapState α) α β
  | .idle => .read (fun r => match r with | some a => .have_ a | none => .ended)
  | .have_ a => match f a with | .ok b => .emit b .idle | .error p => .panic p .idle
  | .ended => .stop .eoi

end Micro.Stream.ParCrash
