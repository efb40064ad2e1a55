import Verif.Stream.Model
/-
Model of package stream for functions with effects, which may panic. A panic that a caller of Next recovers from is a crash point: the iterators
stay as they were at that point and may be used again. The world η holds everything the functions and the source work on.
-/
namespace Micro.Stream.Crash
open Micro Micro.Iter

variable {P σ η ℓ φ α β γ : Type}

/-- What a call of Next gives: a value, an error, or a panic with a value of type P (which the caller recovers). -/
inductive Got (P α : Type) where
  | val (v : α)
  | err (e : Err)
  | panic (p : P)
  deriving DecidableEq

/-- A function like Next; `none`: it does not return. -/
abbrev PCall (P σ α : Type) := σ → Option (Got P α × σ)

/-- A function given by the user: it works on the world, and returns (ok) or panics (error). -/
abbrev Fn (P η α β : Type) := α → η → Except P β × η

/-- iter/iter.go:153-185 `IterImpl.Next`. If the iterating function panics, nothing after the call is executed: the iterator stays as it is, its
captured variables (ℓ) have the values they had at that point. -/
def nextP (call : PCall P (ℓ × η) α) : PCall P (It ℓ α × η) α := fun (it, h) =>
  match it.buffer.getLast? with
  | some v => some (.val v, ({ it with buffer := it.buffer.dropLast }, h))
  | none =>
    match it.fn with
    | some l =>
      match call (l, h) with
      | none => none
      | some (.val v, (l', h')) => some (.val v, ({ it with fn := some l' }, h'))
      | some (.err e, (_, h')) => some (.err e, ({ it with fn := none, lastErr := some e }, h'))
      | some (.panic p, (l', h')) => some (.panic p, ({ it with fn := some l' }, h'))
    | none =>
      match it.lastErr with
      | some e => some (.err e, (it, h))
      | none => none

/-- stream/stream.go:44-56 `Map`. -/
def mapP (f : Fn P η α β) (next : PCall P η α) : PCall P (Unit × η) β := fun (_, h) =>
  match next h with
  | none => none
  | some (.val v, h') =>
    match f v h' with
    | (.ok u, h'') => some (.val u, ((), h''))
    | (.error p, h'') => some (.panic p, ((), h''))
  | some (.err e, h') => some (.err e, ((), h'))
  | some (.panic p, h') => some (.panic p, ((), h'))

/-- stream/stream.go:62-77 `MapError`. -/
def mapErrorP (f : Fn P η α (Except Err β)) (next : PCall P η α) : PCall P (Unit × η) β := fun (_, h) =>
  match next h with
  | none => none
  | some (.val v, h') =>
    match f v h' with
    | (.ok (.ok u), h'') => some (.val u, ((), h''))
    | (.ok (.error e), h'') => some (.err e, ((), h''))
    | (.error p, h'') => some (.panic p, ((), h''))
  | some (.err e, h') => some (.err e, ((), h'))
  | some (.panic p, h') => some (.panic p, ((), h'))

/-- stream/stream.go:82-104 `Filter`. -/
def filterP (p : Fn P η α Bool) (next : PCall P η α) (st : Unit × η) : Option (Got P α × (Unit × η)) :=
  match next st.2 with
  | none => none
  | some (.val v, h') =>
    match p v h' with
    | (.ok true, h'') => some (.val v, ((), h''))
    | (.ok false, h'') => filterP p next ((), h'')
    | (.error p, h'') => some (.panic p, ((), h''))
  | some (.err e, h') => some (.err e, ((), h'))
  | some (.panic p, h') => some (.panic p, ((), h'))
partial_fixpoint

/-- stream/stream.go:675-692 `Peek`. -/
def peekP (f : Fn P η α Unit) (next : PCall P η α) : PCall P (Unit × η) α := fun (_, h) =>
  match next h with
  | none => none
  | some (.val v, h') =>
    match f v h' with
    | (.ok (), h'') => some (.val v, ((), h''))
    | (.error p, h'') => some (.panic p, ((), h''))
  | some (.err e, h') => some (.err e, ((), h'))
  | some (.panic p, h') => some (.panic p, ((), h'))

/-- stream/stream.go:152-164, 185-197, 238-250, 271-283, 376-390, 523-537: the loop of the reducing functions. -/
def foldP (next : PCall P η α) (f : β → Fn P η α β) (acc : β) (h : η) : Option (Got P β × η) :=
  match next h with
  | none => none
  | some (.val v, h') =>
    match f acc v h' with
    | (.ok acc', h'') => foldP next f acc' h''
    | (.error p, h'') => some (.panic p, h'')
  | some (.err e, h') => if e = .eoi then some (.val acc, h') else some (.err e, h')
  | some (.panic p, h') => some (.panic p, h')
partial_fixpoint

/-- Adds the captured variable `done`, which is true. -/
def nowDone (r : Option (Got P β × η)) : Option (Got P β × (Bool × η)) :=
  match r with
  | none => none
  | some (g, h) => some (g, (true, h))

/-- stream/stream.go:122-204 `Reduce`. -/
def reduceP (f : α → Fn P η α α) (identity : Option α) (next : PCall P η α) : PCall P (Bool × η) α := fun (done, h) =>
  if done then some (.err .eoi, (true, h))
  else match identity with
    | none =>
      match next h with
      | none => none
      | some (.err e, h') => some (.err e, (true, h'))
      | some (.panic p, h') => some (.panic p, (true, h'))
      | some (.val v, h') => nowDone (foldP next f v h')
    | some idv =>
      match next h with
      | none => none
      | some (.err e, h') => if e = .eoi then some (.val idv, (true, h')) else some (.err e, (true, h'))
      | some (.panic p, h') => some (.panic p, (true, h'))
      | some (.val v, h') =>
        match f idv v h' with
        | (.ok r, h'') => nowDone (foldP next f r h'')
        | (.error p, h'') => some (.panic p, (true, h''))

/-- stream/stream.go:208-290 `ReduceTo`. -/
def reduceToP (zv : β) (f : β → Fn P η α β) (identity : Option β) (next : PCall P η α) : PCall P (Bool × η) β := fun (done, h) =>
  if done then some (.err .eoi, (true, h))
  else match identity with
    | none =>
      match next h with
      | none => none
      | some (.err e, h') => some (.err e, (true, h'))
      | some (.panic p, h') => some (.panic p, (true, h'))
      | some (.val v, h') =>
        match f zv v h' with
        | (.ok r, h'') => nowDone (foldP next f r h'')
        | (.error p, h'') => some (.panic p, (true, h''))
    | some idv =>
      match next h with
      | none => none
      | some (.err e, h') => if e = .eoi then some (.val idv, (true, h')) else some (.err e, (true, h'))
      | some (.panic p, h') => some (.panic p, (true, h'))
      | some (.val v, h') =>
        match f idv v h' with
        | (.ok r, h'') => nowDone (foldP next f r h'')
        | (.error p, h'') => some (.panic p, (true, h''))

/-- stream/stream.go:360-395 `ReduceToSlice`. -/
def reduceToSliceP (next : PCall P η α) : PCall P (Bool × η) (List α) := fun (done, h) =>
  if done then some (.err .eoi, (true, h))
  else nowDone (foldP next (fun slc v h => (.ok (slc ++ [v]), h)) [] h)

/-- stream/stream.go:331-348: the loop of `ReduceToBool`. -/
def boolLoopP (next : PCall P η α) (p : Fn P η α Bool) (stopVal result : Bool) (h : η) : Option (Got P Bool × η) :=
  match next h with
  | none => none
  | some (.err e, h') => if e = .eoi then some (.val result, h') else some (.err e, h')
  | some (.panic p, h') => some (.panic p, h')
  | some (.val v, h') =>
    match p v h' with
    | (.ok b, h'') => if b = stopVal then some (.val b, h'') else boolLoopP next p stopVal b h''
    | (.error p, h'') => some (.panic p, h'')
partial_fixpoint

/-- stream/stream.go:295-355 `ReduceToBool`. -/
def reduceToBoolP (p : Fn P η α Bool) (identity stopVal : Bool) (next : PCall P η α) : PCall P (Bool × η) Bool := fun (done, h) =>
  if done then some (.err .eoi, (true, h))
  else
    match next h with
    | none => none
    | some (.err e, h') => if e = .eoi then some (.val identity, (true, h')) else some (.err e, (true, h'))
    | some (.panic p, h') => some (.panic p, (true, h'))
    | some (.val v, h') =>
      match p v h' with
      | (.ok b, h'') => if b = stopVal then some (.val b, (true, h'')) else nowDone (boolLoopP next p stopVal b h'')
      | (.error p, h'') => some (.panic p, (true, h''))

/-- stream/stream.go:603-637 `Skip`: the captured variable is skip, which keeps its value when the source panics. -/
def skipP (next : PCall P η α) : PCall P (Nat × η) α := fun (skip, h) => go skip h
where
  /-- stream/stream.go:615-634: the loop and the call after it. -/
  go : Nat → η → Option (Got P α × (Nat × η))
    | 0, h =>
      match next h with
      | none => none
      | some (g, h') => some (g, (0, h'))
    | n + 1, h =>
      match next h with
      | none => none
      | some (.val _, h') => go n h'
      | some (.err e, h') => some (.err e, (0, h'))
      | some (.panic p, h') => some (.panic p, (n + 1, h'))

/-- stream/stream.go:644-672 `Limit`. -/
def limitP (next : PCall P η α) : PCall P (Nat × η) α := fun (limit, h) =>
  match limit with
  | n + 1 =>
    match next h with
    | none => none
    | some (.val v, h') => some (.val v, (n, h'))
    | some (.err e, h') => some (.err e, (n + 1, h'))
    | some (.panic p, h') => some (.panic p, (n + 1, h'))
  | 0 => some (.err .eoi, (0, h))

/-- stream/stream.go:911-950 `AvgInt`: the loop; `add` is the addition, `k` the type of the values, `c64` the type of the count (see `avgLoop`). The sum and
the count are local to one call: a panic loses them. -/
def avgLoopP (add : Kind → Int → Int → Int × Option MathInt.MErr) (k c64 : Kind) (next : PCall P η Int) (sum count : Int) (h : η) :
    Option (Got P Int × η) :=
  match next h with
  | none => none
  | some (.val v, h') =>
    match add k v sum with
    | (sum', none) => avgLoopP add k c64 next sum' (c64.wrap (count + 1)) h'
    | (_, some e) => some (.err (mErr e), h')
  | some (.err e, h') =>
    if e = .eoi then (if count = 0 then some (.err e, h') else some (.val (avgResult k c64 sum count), h')) else some (.err e, h')
  | some (.panic p, h') => some (.panic p, h')
partial_fixpoint

/-- One call of AvgInt or AvgUint. -/
def avgP (add : Kind → Int → Int → Int × Option MathInt.MErr) (k c64 : Kind) (next : PCall P η Int) : PCall P (Unit × η) Int := fun (_, h) =>
  match avgLoopP add k c64 next 0 0 h with
  | none => none
  | some (g, h') => some (g, ((), h'))

/-- stream/stream.go:911-950 `AvgInt`. -/
def avgIntP (k : Kind) (next : PCall P η Int) : PCall P (Unit × η) Int := avgP MathInt.addInt k .int64 next

/-- stream/stream.go:955-994 `AvgUint`. -/
def avgUintP (k : Kind) (next : PCall P η Int) : PCall P (Unit × η) Int := avgP MathInt.addUint k .uint64 next

/-- Calling n times, recovering from panics: the results and the state afterwards. -/
def calls (next : PCall P σ α) : Nat → σ → Option (List (Got P α) × σ)
  | 0, s => some ([], s)
  | n + 1, s =>
    match next s with
    | none => none
    | some (g, s') => (calls next n s').map fun (gs, s'') => (g :: gs, s'')

end Micro.Stream.Crash
