import Verif.Stream.CrashModel
/-
Model of the other iterators of packages stream and iter when their source, or a function of the user, panics and the caller recovers: ExpandSlices,
ExpandMaps, Concat, SetError, InfiniteIterGen, ReduceIntoSlice, Distinct, Duplicate, and Reverse and SortBy, which read their source when they are
created.
-/
namespace Micro.Stream.Crash
open Micro Micro.Iter

variable {P σ η ι α β γ : Type}

/-- stream/stream.go:494-498: the end of `ExpandSlices`; an index out of range panics with `oor idx len`. -/
def deliverP (oor : Nat → Nat → P) (l : List α) (idx : Nat) (h : η) : Got P α × ((Option (List α) × Nat) × η) :=
  match l[idx]? with
  | some v => (.val v, ((some l, idx + 1), h))
  | none => (.panic (oor idx l.length), ((some l, idx), h))

/-- stream/stream.go:469-492: the search of `ExpandSlices` for a slice with elements. `slc` is the captured variable, which is assigned whenever
Next returns, but not if it panics. (After an error the iterator is never called again, so what slc is then does not matter.) -/
def searchSliceP (oor : Nat → Nat → P) (next : PCall P η (Option (List α))) (slc : Option (List α)) (idx : Nat) (h : η) :
    Option (Got P α × ((Option (List α) × Nat) × η)) :=
  match next h with
  | none => none
  | some (.err e, h') => some (.err e, ((none, idx), h'))
  | some (.panic p, h') => some (.panic p, ((slc, idx), h'))
  | some (.val none, h') => searchSliceP oor next none idx h'
  | some (.val (some l), h') =>
    if l.length > 0 then some (deliverP oor l 0 h') else searchSliceP oor next (some l) idx h'
partial_fixpoint

/-- stream/stream.go:452-500 `ExpandSlices`: the captured variables are slc and idx; a nil slice is `none`. -/
def expandSlicesP (oor : Nat → Nat → P) (next : PCall P η (Option (List α))) : PCall P ((Option (List α) × Nat) × η) α :=
  fun ((slc, idx), h) =>
  match slc with
  | none => searchSliceP oor next none idx h
  | some l => if idx = l.length then searchSliceP oor next none idx h else some (deliverP oor l idx h)

/-- A reflect.MapIter (standard library): the entries still to come, in the order of this iteration, and whether Next has returned false. -/
structure MapIt (ε : Type) where
  todo : List ε
  over : Bool

/-- stream/stream.go:592-594: the end of `ExpandMaps`: making the tuple panics if the key or the value is a nil interface (`conv`, see C120). -/
def deliverEntryP (conv : ε → Except P γ) (x : ε) (todo : List ε) (h : η) : Got P γ × (Option (MapIt ε) × η) :=
  match conv x with
  | .ok v => (.val v, (some ⟨todo, false⟩, h))
  | .error p => (.panic p, (some ⟨todo, false⟩, h))

/-- stream/stream.go:566-589: the search of `ExpandMaps` for a map with entries. A map is `none` if nil, otherwise its entries in the order in which
the iteration made here visits them. The captured variables m and mr are `none` if m is nil. -/
def searchMapP (conv : ε → Except P γ) (next : PCall P η (Option (List ε))) (m : Option (MapIt ε)) (h : η) :
    Option (Got P γ × (Option (MapIt ε) × η)) :=
  match next h with
  | none => none
  | some (.err e, h') => some (.err e, (none, h'))
  | some (.panic p, h') => some (.panic p, (m, h'))
  | some (.val none, h') => searchMapP conv next none h'
  | some (.val (some (x :: todo)), h') => some (deliverEntryP conv x todo h')
  | some (.val (some []), h') => searchMapP conv next (some ⟨[], true⟩) h'
partial_fixpoint

/-- stream/stream.go:549-596 `ExpandMaps`. MapIter.Next panics with `exhausted` if it has returned false before (standard library). -/
def expandMapsP (exhausted : P) (conv : ε → Except P γ) (next : PCall P η (Option (List ε))) : PCall P (Option (MapIt ε) × η) γ :=
  fun (m, h) =>
  match m with
  | none => searchMapP conv next none h
  | some mr =>
    if mr.over then some (.panic exhausted, (some mr, h))
    else match mr.todo with
      | [] => searchMapP conv next none h
      | x :: todo => some (deliverEntryP conv x todo h)

/-- iter/gen.go:456-458: the captured variable iter, set from the list if it is nil. -/
def curIter (src : List (Option ι)) (i : Nat) : Option ι → Option ι
  | some j => some j
  | none => (src[i]?).join

/-- iter/gen.go:450-475: the loop of `ConcatIterGen`; `it` is the captured variable iter, `err` the captured variable err (nil: none), `zv` the zero
value. An iterator is named by ι; all of them work on the same world. -/
def concatLoopP (zv : α) (next : ι → PCall P η α) (src : List (Option ι)) (i : Nat) (it : Option ι) (err : Option Err) (h : η) :
    Option (Got P α × ((Nat × Option ι × Option Err) × η)) :=
  if i = src.length then
    match err with
    | some e => some (.err e, ((i, it, err), h))
    | none => some (.val zv, ((i, it, err), h))
  else
    match curIter src i it with
    | some j =>
      match next j h with
      | none => none
      | some (.val v, h') => some (.val v, ((i, some j, none), h'))
      | some (.panic p, h') => some (.panic p, ((i, some j, err), h'))
      | some (.err e, h') =>
        if e ≠ .eoi then some (.err e, ((src.length, some j, some e), h')) else concatLoopP zv next src (i + 1) none (some e) h'
    | none => concatLoopP zv next src (i + 1) none err h
partial_fixpoint

/-- iter/gen.go:443-477 `ConcatIterGen`. -/
def concatP (zv : α) (next : ι → PCall P η α) (src : List (Option ι)) : PCall P ((Nat × Option ι × Option Err) × η) α :=
  fun ((i, it, err), h) => concatLoopP zv next src i it err h

/-- iter/gen.go:444-449, in `ConcatIterGen`: the initial values of the captured variables. -/
def concatInit : Nat × Option ι × Option Err := (0, none, some .eoi)

/-- iter/iter.go:200-209 `SetError`. -/
def setErrorP (err : Err) (next : PCall P η α) : PCall P (Unit × η) α := fun (_, h) =>
  match next h with
  | none => none
  | some (.val v, h') => some (.val v, ((), h'))
  | some (.err _, h') => some (.err err, ((), h'))
  | some (.panic p, h') => some (.panic p, ((), h'))

/-- iter/gen.go:111-154 `InfiniteIterGen`: the captured variables are literalValues and accumulator. -/
def infiniteP (f : Fn P η α α) : PCall P ((List α × α) × η) α := fun ((lits, acc), h) =>
  match lits with
  | v :: rest => some (.val v, ((rest, acc), h))
  | [] =>
    match f acc h with
    | (.ok u, h') => some (.val u, (([], u), h'))
    | (.error p, h') => some (.panic p, (([], acc), h'))

/-- iter/gen.go:112-125, in `InfiniteIterGen`: the initial values of the captured variables; `zv` is the zero value. -/
def infiniteInit (zv : α) (initial : List α) : List α × α := (initial.dropLast, initial.getLast?.getD zv)

/-- stream/stream.go:422-441: the loop of `ReduceIntoSlice`. The elements of the target slice are part of the world. -/
def intoLoopP (zv : α) (oor : Nat → Nat → P) (next : PCall P η α) (i : Nat) (h : η) (slc : List α) : Option (Got P (List α) × ((Bool × Nat) × (η × List α))) :=
  match next h with
  | none => none
  | some (.err e, h') =>
    if e = .eoi then some (.val slc, ((true, i), (h', slc))) else some (.err e, ((true, i), (h', slc.map fun _ => zv)))
  | some (.panic p, h') => some (.panic p, ((true, i), (h', slc)))
  | some (.val v, h') =>
    if i < slc.length then intoLoopP zv oor next (i + 1) h' (slc.set i v) else some (.panic (oor i slc.length), ((true, i), (h', slc)))
partial_fixpoint

/-- stream/stream.go:403-446 `ReduceIntoSlice`: the captured variables are done and i. -/
def reduceIntoSliceP (zv : α) (oor : Nat → Nat → P) (next : PCall P η α) : PCall P ((Bool × Nat) × (η × List α)) (List α) :=
  fun ((done, i), (h, slc)) =>
  if done then some (.err .eoi, ((true, i), (h, slc))) else intoLoopP zv oor next i h slc

/-- stream/stream.go:756-769 `Distinct`: the predicate; the world is the captured map. -/
def distinctFn [DecidableEq α] : Fn P (α → Bool) α Bool := fun v seen =>
  (.ok (!seen v), if seen v then seen else fun w => if w = v then true else seen w)

/-- stream/stream.go:776-790 `Duplicate`: the predicate; the world is the captured map. -/
def duplicateFn [DecidableEq α] : Fn P (α → Nat) α Bool := fun v vals =>
  let count := if vals v < 3 then vals v + 1 else vals v
  (.ok (decide (count = 2)), if vals v < 3 then (fun w => if w = v then count else vals w) else vals)

/-- What creating an eager transform does: it gives an iterator over these values, or one that fails at once, or panics. -/
inductive Eager (P α : Type) where
  | values (vs : List α)
  | fails (e : Err)
  | panic (p : P)

/-- stream/stream.go:794-808 `Reverse`, 866-882 `SortBy` (and SortOrdered, SortComplex, SortCmp): `arrange` is the function that puts the slice in
order, or panics (the comparison function given by the user may). -/
def eagerP (arrange : Fn P η (List α) (List α)) (next : PCall P η α) (h : η) : Option (Eager P α × η) :=
  match nextP (reduceToSliceP next) (ofIter false, h) with
  | none => none
  | some (.err e, (_, h')) => some (.fails e, h')
  | some (.panic p, (_, h')) => some (.panic p, h')
  | some (.val slc, (_, h')) =>
    match arrange slc h' with
    | (.ok vs, h'') => some (.values vs, h'')
    | (.error p, h'') => some (.panic p, h'')

end Micro.Stream.Crash
