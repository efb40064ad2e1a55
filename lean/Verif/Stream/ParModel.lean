import Verif.Stream.Model
import Mathlib.Data.Nat.Sqrt
/-
Model of stream.Parallel: the ranges and the concurrent execution of the threads.
-/
namespace Micro.Stream
open Micro Micro.Iter

/-- stream/stream.go:29-32 `PInfo`. -/
structure PInfo where
  n : Int
  items : Bool  -- PUnit: false = Threads, true = Items

/-- stream/stream.go:1112-1121, 1146-1155: `count` ranges of size `bucket` beginning at `start`. -/
def rangesOf : Nat → Nat → Nat → List (Nat × Nat)
  | 0, _, _ => []
  | count + 1, start, bucket => (start, start + bucket) :: rangesOf count (start + bucket) bucket

/-- stream/stream.go:1112-1121 and 1146-1155: buckets of a given size, the remainder last. -/
def bucketRanges (numItems bucket : Nat) : List (Nat × Nat) :=
  rangesOf (numItems / bucket) 0 bucket ++
    (if numItems % bucket > 0 then [(numItems - numItems % bucket, numItems)] else [])

/-- stream/stream.go:1131-1138: the loop over the threads; fuel = numItems: each range is non-empty, and
`c41_partition` shows that the ranges reach numItems, so the loop has ended when the fuel is used up. -/
def threadRangesLoop (numItems bucket : Nat) : Nat → Nat → Nat → List (Nat × Nat)
  | 0, _, _ => []
  | fuel + 1, start, remainder =>
    if start < numItems then
      let end_ := start + bucket + (if remainder > 0 then 1 else 0)
      (start, end_) :: threadRangesLoop numItems bucket fuel end_ (remainder - 1)
    else []

/-- `uint(gomath.Min(float64(numItems), gomath.Max(1, float64(inf.N))))` (stream/stream.go:1127, 1142).
Simplification: exact; `clampFloat` is the float64 computation, the same below 2^53 items (`clampFloat_eq`). -/
def clampN (numItems : Nat) (n : Int) : Nat := min numItems (max 1 n).toNat

/-- `uint(gomath.Round(gomath.Sqrt(float64(numItems))))` (stream/stream.go:1108): the square root
rounded to the nearest integer (r² + r + 1/4 is the midpoint square, never an integer). Simplification: exact; `sqrtFloat` is the
float64 computation, the same below 2^49 items (`sqrtFloat_eq`). -/
def roundSqrt (numItems : Nat) : Nat :=
  let r := Nat.sqrt numItems
  if numItems ≤ r * r + r then r else r + 1

/-- stream/stream.go:1102-1160 `generateRanges`; `info` is the optional first element. The division
panics for numItems = 0, for which it is never called. -/
def generateRanges (numItems : Nat) (info : Option PInfo) : List (Nat × Nat) :=
  match info with
  | none => bucketRanges numItems (roundSqrt numItems)
  | some inf =>
    let q := clampN numItems inf.n
    if inf.items then bucketRanges numItems q
    else threadRangesLoop numItems (numItems / q) numItems 0 (numItems % q)

/-! ### Threads

The code run by a thread, `ReduceIntoSlice(out)(transforms(iter.OfSlice(in))).Next()`, is modelled as
a machine that interacts with its environment only by reading the next element of `in`, storing the
next element of `out`, and stopping. This covers every transform (the transform's own code is the
machine's internal state), and each read and each write of a shared slice element is a separate
step, so that all interleavings are covered. -/

/-- What a transform does next. -/
inductive Act (τ α β : Type) where
  | read (k : Option α → τ)      -- calls Next on its source (`none`: the source returned EOI)
  | emit (b : β) (t : τ)         -- returns a value, continues in state t at the next call
  | stop (e : Err)               -- returns an error (EOI at the end)

/-- State of a thread: running the transform with `ri` elements read and `wi` written
(stream/stream.go:422-440), zeroing the output after an error (431-433), finished with its entry of
`errs` set (1237), or crashed with an index out of range panic (438). -/
inductive TS (τ : Type) where
  | run (t : τ) (ri wi : Nat)
  | zeroing (e : Err) (i : Nat)
  | done (err : Option Err)
  | panicked

/-- The memory shared by the threads: slices input and output (separate arrays), or one array used for
both when T and U are the same type (stream/stream.go:1214-1220). -/
structure Mem (μ α β : Type) where
  rd : μ → Nat → Option α    -- input[i]
  wr : μ → Nat → β → μ       -- output[i] = b
  out : μ → List β           -- output

/-- Separate arrays. -/
def sepMem (α β : Type) : Mem (List α × List β) α β :=
  ⟨fun m i => m.1[i]?, fun m i b => (m.1, m.2.set i b), fun m => m.2⟩

/-- One array (T and U identical). -/
def oneMem (α : Type) : Mem (List α) α α := ⟨fun m i => m[i]?, fun m i b => m.set i b, fun m => m⟩

variable {τ α β μ : Type}

/-- One atomic step of the thread that works on the elements lo..hi-1 of the shared slices
(stream/stream.go:1229-1238 `threadFn`, with `ReduceIntoSlice` 403-446 and SliceIterGen iter/gen.go:29-44). -/
def stepThread (M : Mem μ α β) (act : τ → Act τ α β) (zv : β) (lo hi : Nat) (m : μ) (ts : TS τ) : μ × TS τ :=
  match ts with
  | .run t ri wi =>
    match act t with
    | .read k =>
      if lo + ri < hi then (m, .run (k (M.rd m (lo + ri))) (ri + 1) wi) else (m, .run (k none) ri wi)
    | .emit b t' =>
      if lo + wi < hi then (M.wr m (lo + wi) b, .run t' ri (wi + 1)) else (m, .panicked)
    | .stop e => if e = .eoi then (m, .done none) else (m, .zeroing e 0)
  | .zeroing e i => if lo + i < hi then (M.wr m (lo + i) zv, .zeroing e (i + 1)) else (m, .done (some e))
  | ts => (m, ts)

/-- Global state: the shared memory and all threads. -/
structure Par (μ τ : Type) where
  mem : μ
  threads : List (TS τ)

/-- The scheduler lets thread `k` make one step (a finished thread stays as it is). -/
def Par.step (M : Mem μ α β) (act : τ → Act τ α β) (zv : β) (ranges : List (Nat × Nat)) (p : Par μ τ) (k : Nat) :
    Par μ τ :=
  match ranges[k]?, p.threads[k]? with
  | some r, some ts =>
    let (m', ts') := stepThread M act zv r.1 r.2 p.mem ts
    ⟨m', p.threads.set k ts'⟩
  | _, _ => p

/-- A schedule: the sequence of threads that make a step. -/
def Par.exec (M : Mem μ α β) (act : τ → Act τ α β) (zv : β) (ranges : List (Nat × Nat)) (p : Par μ τ)
    (sched : List Nat) : Par μ τ := sched.foldl (Par.step M act zv ranges) p

/-- stream/stream.go:1241-1244: all threads are started with the same transform. -/
def Par.start (t0 : τ) (mem : μ) (ranges : List (Nat × Nat)) : Par μ τ :=
  ⟨mem, ranges.map (fun _ => .run t0 0 0)⟩

/-- `wg.Wait()` returns (stream/stream.go:1247): every thread has finished. -/
def Par.finished (p : Par μ τ) : Prop := ∀ ts ∈ p.threads, ∃ err, ts = .done err

/-- `errs` (stream/stream.go:1225, 1237) after all threads have finished. -/
def Par.errs (p : Par μ τ) : List (Option Err) :=
  p.threads.map (fun ts => match ts with | .done e => e | _ => none)

/-- stream/stream.go:1250-1256: the first error in thread order. -/
def firstErr : List (Option Err) → Option Err
  | [] => none
  | some e :: _ => some e
  | none :: es => firstErr es

/-- stream/stream.go:1183-1260 `Parallel`, the part after `wg.Wait()`: the resulting iterator. -/
def parResult (errs : List (Option Err)) (output : List β) : AnyIter β :=
  match firstErr errs with
  | none => anySlice output
  | some e => anyError e

/-- A machine as an iterating function over any source: the loop of one call of Next. -/
def machineLoop {σ : Type} (act : τ → Act τ α β) (next : Call σ α) (t : τ) (s : σ) :
    Option (Except Err β × (τ × σ)) :=
  match act t with
  | .emit b t' => some (.ok b, (t', s))
  | .stop e => some (.error e, (t, s))
  | .read k =>
    match next s with
    | none => none
    | some (.ok v, s') => machineLoop act next (k (some v)) s'
    | some (.error e, s') => if e = .eoi then machineLoop act next (k none) s' else some (.error e, (t, s'))
partial_fixpoint

/-- The iterating function of the transform `act` applied to a source. -/
def machineCall {σ : Type} (act : τ → Act τ α β) (next : Call σ α) : Call (τ × σ) β :=
  fun st => machineLoop act next st.1 st.2

/-- stream/stream.go:1183-1260 `Parallel`: the possible results (one for every schedule) for the
transform given by machine `act` with initial state `t0`; a crash of a thread crashes the program (result `none`; that the caller
may go on for a moment is in ParCrashModel).
`mem` builds the shared memory from the input slice (1209-1220). -/
inductive ParallelResult {σ : Type} (M : Mem μ α β) (mem : List α → μ) (act : τ → Act τ α β) (t0 : τ) (zv : β)
    (info : Option PInfo) (next : Call σ α) (s : σ) : Option (AnyIter β) → Prop where
  | sourceError {e st} : It.next (reduceToSliceCall next) (ofIter (false, s)) = some (.error e, st) →
      ParallelResult M mem act t0 zv info next s (some (anyError e))
  | empty {st} : It.next (reduceToSliceCall next) (ofIter (false, s)) = some (.ok [], st) →
      ParallelResult M mem act t0 zv info next s (some anyEmpty)
  | one {x st} : It.next (reduceToSliceCall next) (ofIter (false, s)) = some (.ok [x], st) →
      ParallelResult M mem act t0 zv info next s
        (some ⟨_, It.next (machineCall act (It.next (singleValueCall x))), ofIter (t0, ofIter false)⟩)
  | many {input st} (sched : List Nat) (p : Par μ τ) :
      It.next (reduceToSliceCall next) (ofIter (false, s)) = some (.ok input, st) → 2 ≤ input.length →
      p = Par.exec M act zv (generateRanges input.length info)
        (Par.start t0 (mem input) (generateRanges input.length info)) sched → p.finished →
      ParallelResult M mem act t0 zv info next s (some (parResult p.errs (M.out p.mem)))
  | crash {input st} (sched : List Nat) (p : Par μ τ) :
      It.next (reduceToSliceCall next) (ofIter (false, s)) = some (.ok input, st) → 2 ≤ input.length →
      p = Par.exec M act zv (generateRanges input.length info)
        (Par.start t0 (mem input) (generateRanges input.length info)) sched → .panicked ∈ p.threads →
      ParallelResult M mem act t0 zv info next s none

/-- Element types as far as Parallel looks at them: which type it is, and whether it is an interface type. -/
structure ElemType where
  name : Nat
  iface : Bool

/-- `reflect.TypeOf(zt)` of a zero value: nil for an interface type (stream/stream.go:1214). -/
def ElemType.typeOfZero (t : ElemType) : Option Nat := if t.iface then none else some t.name

/-- How Parallel gets its output slice: the input slice itself, a new one, or a failed type assertion. -/
inductive OutputChoice where
  | inplace | separate | panics
  deriving DecidableEq

/-- stream/stream.go:1208-1220: the branch of `Parallel` that picks the output slice; `any(input).([]U)` panics unless []T is []U. -/
def outputChoice (t u : ElemType) : OutputChoice :=
  if t.typeOfZero = u.typeOfZero then (if t.name = u.name then .inplace else .panics) else .separate

/-! Transforms as machines. -/

/-- `Map(f)` (stream/stream.go:44-56): states idle, holding a value, ended. -/
inductive MapState (α : Type) where
  | idle | have_ (a : α) | ended

/-- stream/stream.go:44-56 `Map` as a machine. -/
def mapAct (f : α → β) : MapState α → Act (MapState α) α β
  | .idle => .read (fun r => match r with | some a => .have_ a | none => .ended)
  | .have_ a => .emit (f a) .idle
  | .ended => .stop .eoi

/-- `MapError(f)`: as Map, with a failing state. -/
inductive MapErrState (α : Type) where
  | idle | have_ (a : α) | ended

/-- stream/stream.go:62-77 `MapError` as a machine. -/
def mapErrAct (f : α → Except Err β) : MapErrState α → Act (MapErrState α) α β
  | .idle => .read (fun r => match r with | some a => .have_ a | none => .ended)
  | .have_ a => match f a with | .ok b => .emit b .idle | .error e => .stop e
  | .ended => .stop .eoi

/-- stream/stream.go:82-104 `Filter` as a machine. -/
def filterAct (p : α → Bool) : MapState α → Act (MapState α) α α
  | .idle => .read (fun r => match r with | some a => if p a then .have_ a else .idle | none => .ended)
  | .have_ a => .emit a .idle
  | .ended => .stop .eoi

end Micro.Stream
