import Verif.Iter.Model
import Verif.MathInt.Model
/-
Model of package stream. A transform takes an iterator, given by its Next function `next : Call σ α`
and its state, and returns a new iterator `iter.OfIter(fn)`, whose Next is `It.next fn`.
Loops over Next which may not end are `partial_fixpoint` definitions (`none` = does not return).
-/
namespace Micro.Stream
open Micro Micro.Iter

variable {σ α β : Type}

/-- Add a component to the state returned by a call. -/
def withState {τ : Type} (w : σ → τ) (r : Option (Except Err α × σ)) : Option (Except Err α × τ) :=
  match r with
  | none => none
  | some (x, s) => some (x, w s)

/-- stream/stream.go:44-56 `Map`. -/
def mapCall (f : α → β) (next : Call σ α) : Call σ β := fun s =>
  match next s with
  | none => none
  | some (.ok v, s') => some (.ok (f v), s')
  | some (.error e, s') => some (.error e, s')

/-- stream/stream.go:62-77 `MapError`. -/
def mapErrorCall (f : α → Except Err β) (next : Call σ α) : Call σ β := fun s =>
  match next s with
  | none => none
  | some (.ok v, s') =>
    match f v with
    | .ok u => some (.ok u, s')
    | .error e => some (.error e, s')
  | some (.error e, s') => some (.error e, s')

/-- stream/stream.go:82-104 `Filter`. The predicate may have captured state `φ` (as in Distinct and
Duplicate); a pure predicate has `φ = Unit`. -/
def filterCall {φ : Type} (p : φ → α → Bool × φ) (next : Call σ α) (st : σ × φ) :
    Option (Except Err α × (σ × φ)) :=
  match next st.1 with
  | none => none
  | some (.ok v, s') =>
    let (b, c) := p st.2 v
    if b then some (.ok v, (s', c)) else filterCall p next (s', c)
  | some (.error e, s') => some (.error e, (s', st.2))
partial_fixpoint

/-- A predicate without captured state. -/
def pure (p : α → Bool) : Unit → α → Bool × Unit := fun _ v => (p v, ())

/-- The loop shared by the reducing functions (stream/stream.go:152-164, 185-197, 238-250, 271-283,
376-390, 523-537): call Next until it fails; EOI ends the loop normally. -/
def foldLoop (next : Call σ α) (f : β → α → β) (acc : β) (s : σ) : Option (Except Err β × σ) :=
  match next s with
  | none => none
  | some (.ok v, s') => foldLoop next f (f acc v) s'
  | some (.error e, s') => if e = .eoi then some (.ok acc, s') else some (.error e, s')
partial_fixpoint

/-- stream/stream.go:122-204 `Reduce`: state = (done, source); `identity` is the first element of the
variadic argument, if any. -/
def reduceCall (f : α → α → α) (identity : Option α) (next : Call σ α) : Call (Bool × σ) α := fun (done, s) =>
  if done then some (.error .eoi, (true, s))
  else match identity with
    | none =>
      match next s with
      | none => none
      | some (.error e, s') => some (.error e, (true, s'))
      | some (.ok v, s') => withState (Prod.mk true) (foldLoop next f v s')
    | some idv =>
      match next s with
      | none => none
      | some (.error e, s') => if e = .eoi then some (.ok idv, (true, s')) else some (.error e, (true, s'))
      | some (.ok v, s') => withState (Prod.mk true) (foldLoop next f (f idv v) s')

/-- stream/stream.go:208-290 `ReduceTo`: `zv` is the zero value of U. -/
def reduceToCall (zv : β) (f : β → α → β) (identity : Option β) (next : Call σ α) : Call (Bool × σ) β :=
  fun (done, s) =>
  if done then some (.error .eoi, (true, s))
  else match identity with
    | none =>
      match next s with
      | none => none
      | some (.error e, s') => some (.error e, (true, s'))
      | some (.ok v, s') => withState (Prod.mk true) (foldLoop next f (f zv v) s')
    | some idv =>
      match next s with
      | none => none
      | some (.error e, s') => if e = .eoi then some (.ok idv, (true, s')) else some (.error e, (true, s'))
      | some (.ok v, s') => withState (Prod.mk true) (foldLoop next f (f idv v) s')

/-- stream/stream.go:331-348: the loop of `ReduceToBool`. -/
def boolLoop (next : Call σ α) (p : α → Bool) (stopVal : Bool) (result : Bool) (s : σ) :
    Option (Except Err Bool × σ) :=
  match next s with
  | none => none
  | some (.error e, s') => if e = .eoi then some (.ok result, s') else some (.error e, s')
  | some (.ok v, s') =>
    if p v = stopVal then some (.ok (p v), s') else boolLoop next p stopVal (p v) s'
partial_fixpoint

/-- stream/stream.go:295-355 `ReduceToBool`. -/
def reduceToBoolCall (p : α → Bool) (identity stopVal : Bool) (next : Call σ α) : Call (Bool × σ) Bool :=
  fun (done, s) =>
  if done then some (.error .eoi, (true, s))
  else
    match next s with
    | none => none
    | some (.error e, s') =>
      if e = .eoi then some (.ok identity, (true, s')) else some (.error e, (true, s'))
    | some (.ok v, s') =>
      if p v = stopVal then some (.ok (p v), (true, s'))
      else withState (Prod.mk true) (boolLoop next p stopVal (p v) s')

/-- stream/stream.go:726-728 `AllMatch`. -/
def allMatchCall (p : α → Bool) (next : Call σ α) := reduceToBoolCall p true false next

/-- stream/stream.go:733-735 `AnyMatch`. -/
def anyMatchCall (p : α → Bool) (next : Call σ α) := reduceToBoolCall p false true next

/-- stream/stream.go:740-742 `NoneMatch`. -/
def noneMatchCall (p : α → Bool) (next : Call σ α) := reduceToBoolCall (fun t => !p t) true false next

/-- stream/stream.go:745-747 `Count`: int counter. -/
def countCall (next : Call σ α) : Call (Bool × σ) Int :=
  reduceToCall 0 (fun c _ => Kind.int.wrap (c + 1)) (some 0) next

/-- stream/stream.go:1040-1046 `Max` (funcs/funcs.go `Ternary`), for any type with `<`. -/
def maxCall [LT α] [DecidableLT α] (next : Call σ α) : Call (Bool × σ) α := reduceCall (fun a b => if a > b then a else b) none next

/-- stream/stream.go:1059-1065 `Min`. -/
def minCall [LT α] [DecidableLT α] (next : Call σ α) : Call (Bool × σ) α := reduceCall (fun a b => if a < b then a else b) none next

/-- stream/stream.go:1050-1056 `MaxCmp`; `cmp a b` is a.Cmp(b). -/
def maxCmpCall (cmp : α → α → Int) (next : Call σ α) : Call (Bool × σ) α := reduceCall (fun a b => if cmp a b > 0 then a else b) none next

/-- stream/stream.go:1069-1075 `MinCmp`. -/
def minCmpCall (cmp : α → α → Int) (next : Call σ α) : Call (Bool × σ) α := reduceCall (fun a b => if cmp a b < 0 then a else b) none next

/-- stream/stream.go:1078-1084 `Sum` for integer types. -/
def sumCall (k : Kind) (next : Call σ Int) : Call (Bool × σ) Int := reduceCall (fun a b => k.wrap (a + b)) none next

/-- stream/stream.go:360-395 `ReduceToSlice`. -/
def reduceToSliceCall (next : Call σ α) : Call (Bool × σ) (List α) := fun (done, s) =>
  if done then some (.error .eoi, (true, s))
  else withState (Prod.mk true) (foldLoop next (fun slc v => slc ++ [v]) [] s)

/-- Outcome of filling a slice: contents with nil error, contents with an error, or a runtime panic
(index out of range). -/
inductive Into (α : Type) where
  | ok (slc : List α)
  | fail (e : Err) (slc : List α)
  | panic

/-- stream/stream.go:403-446 `ReduceIntoSlice`: the loop of the one call that does the work; `zv` is
the zero value. -/
def intoLoop (next : Call σ α) (zv : α) (slc : List α) (i : Nat) (s : σ) : Option (Into α × σ) :=
  match next s with
  | none => none
  | some (.error e, s') =>
    if e = .eoi then some (.ok slc, s') else some (.fail e (slc.map (fun _ => zv)), s')
  | some (.ok v, s') =>
    if i < slc.length then intoLoop next zv (slc.set i v) (i + 1) s' else some (.panic, s')
partial_fixpoint

/-- stream/stream.go:469-486: the inner loop of `ExpandSlices`: the next non-empty slice. A slice is
`none` if nil. -/
def nextSlice (next : Call σ (Option (List α))) (s : σ) : Option (Except Err (List α) × σ) :=
  match next s with
  | none => none
  | some (.error e, s') => some (.error e, s')
  | some (.ok (some (v :: vs)), s') => some (.ok (v :: vs), s')
  | some (.ok _, s') => nextSlice next s'
partial_fixpoint

/-- stream/stream.go:452-500 `ExpandSlices`: state = (slc, idx, source). -/
def expandSlicesCall (next : Call σ (Option (List α))) : Call (Option (List α) × Nat × σ) α :=
  fun (slc, idx, s) =>
  let fetch : Option (Except Err α × (Option (List α) × Nat × σ)) :=
    match nextSlice next s with
    | none => none
    | some (.error e, s') => some (.error e, (none, idx, s'))
    | some (.ok l, s') =>
      match l with
      | [] => some (.error .eoi, (none, idx, s'))
      | v :: _ => some (.ok v, (some l, 1, s'))
  match slc with
  | none => fetch
  | some l => if h : idx < l.length then some (.ok l[idx], (some l, idx + 1, s)) else fetch

/-- stream/stream.go:507-541 `ReduceToMap`: a map is its lookup function. -/
def reduceToMapCall {κ ν : Type} [DecidableEq κ] (next : Call σ (κ × ν)) : Call (Bool × σ) (κ → Option ν) :=
  fun (done, s) =>
  if done then some (.error .eoi, (true, s))
  else withState (Prod.mk true)
    (foldLoop next (fun m kv => fun k => if k = kv.1 then some kv.2 else m k) (fun _ => none) s)

/-- stream/stream.go:615-625: the loop of `Skip`. -/
def skipLoop (next : Call σ α) : Nat → σ → Option (Except Err α × (Nat × σ))
  | 0, s =>
    match next s with
    | none => none
    | some (r, s') => some (r, (0, s'))
  | n + 1, s =>
    match next s with
    | none => none
    | some (.ok _, s') => skipLoop next n s'
    | some (.error e, s') => some (.error e, (0, s'))

/-- stream/stream.go:603-637 `Skip`: state = (skip, source). -/
def skipCall (next : Call σ α) : Call (Nat × σ) α := fun (skip, s) => skipLoop next skip s

/-- stream/stream.go:644-672 `Limit`: state = (limit, source). -/
def limitCall (next : Call σ α) : Call (Nat × σ) α := fun (limit, s) =>
  match limit with
  | n + 1 =>
    match next s with
    | none => none
    | some (.ok v, s') => some (.ok v, (n, s'))
    | some (.error e, s') => some (.error e, (n + 1, s'))
  | 0 => some (.error .eoi, (0, s))

/-- stream/stream.go:675-692 `Peek`: the side effects of `fn` are recorded in a log. -/
def peekCall (next : Call σ α) : Call (List α × σ) α := fun (log, s) =>
  match next s with
  | none => none
  | some (.error e, s') => some (.error e, (log, s'))
  | some (.ok v, s') => some (.ok v, (log ++ [v], s'))

/-- stream/stream.go:756-769 `Distinct`: the captured map `vals` is the function `seen`.
(`Generator`, stream/stream.go:706-719, never stores the iterator, so every application starts fresh.) -/
def distinctPred [DecidableEq α] (seen : α → Bool) (v : α) : Bool × (α → Bool) :=
  (!seen v, if seen v then seen else fun w => if w = v then true else seen w)

/-- stream/stream.go:776-790 `Duplicate`. -/
def duplicatePred [DecidableEq α] (vals : α → Nat) (v : α) : Bool × (α → Nat) :=
  let count := if vals v < 3 then vals v + 1 else vals v
  (decide (count = 2), if vals v < 3 then (fun w => if w = v then count else vals w) else vals)

/-- stream/stream.go:756-769 `Distinct`: initially an empty map. -/
def distinctInit : α → Bool := fun _ => false

/-- stream/stream.go:776-790 `Duplicate`: initially an empty map. -/
def duplicateInit : α → Nat := fun _ => 0

/-- An iterator of some hidden implementation type (an `iter.Iter[T]` value). -/
structure AnyIter (α : Type) : Type 1 where
  σ : Type
  call : Call σ α
  s : σ

/-- `iter.OfSlice(slc)` (iter/iter.go:91-93 `OfSlice`). -/
def anySlice (slc : List α) : AnyIter α := ⟨_, It.next (sliceCall slc), ofIter 0⟩

/-- `iter.SetError(iter.OfEmpty[T](), err)`. -/
def anyError (err : Err) : AnyIter α :=
  ⟨_, It.next (setErrorCall (It.next noValueCall) err), ofIter (ofIter ())⟩

/-- `iter.OfEmpty[T]()`. -/
def anyEmpty : AnyIter α := ⟨_, It.next noValueCall, ofIter ()⟩

/-- funcs/funcs.go:239-249 `SliceReverse`: the swap loop from index i on. -/
def sliceReverseFrom (slc : List α) (i : Nat) : List α :=
  if h : i < slc.length / 2 then
    let j := slc.length - 1 - i
    let tmp := slc[i]'(by omega)
    let slc' := slc.set i (slc[j]'(by omega))
    sliceReverseFrom (slc'.set j tmp) (i + 1)
  else slc
termination_by slc.length / 2 - i
decreasing_by simp; omega

/-- funcs/funcs.go:239-249 `SliceReverse`. -/
def sliceReverse (slc : List α) : List α := sliceReverseFrom slc 0

/-- stream/stream.go:794-808 `Reverse`: reads the whole source when called. -/
def reverse (next : Call σ α) (s : σ) : Option (AnyIter α) :=
  match It.next (reduceToSliceCall next) (ofIter (false, s)) with
  | none => none
  | some (.error err, _) => some (anyError err)
  | some (.ok slc, _) => some (anySlice (sliceReverse slc))

/-- stream/stream.go:866-882 `SortBy` and SortOrdered, SortComplex, SortCmp (stream/stream.go:812-862):
`sort` stands for the sort.Slice call made by funcs.SliceSort*. -/
def sortWith (sort : List α → List α) (next : Call σ α) (s : σ) : Option (AnyIter α) :=
  match It.next (reduceToSliceCall next) (ofIter (false, s)) with
  | none => none
  | some (.error err, _) => some (anyError err)
  | some (.ok slc, _) => some (anySlice (sort slc))

/-- stream/stream.go:888-899 `Abs`: the mapping function. -/
def absFn (k : Kind) (v : Int) : Except Err Int :=
  if v < 0 then
    let v' := k.wrap (-v)
    if v' < 0 then .error .abs else .ok v'
  else .ok v

/-- Conversion of the error values of package math. -/
def mErr : MathInt.MErr → Err
  | .overflow => .overflow | .underflow => .underflow | .divByZero => .divByZero | .abs => .abs

/-- What AvgInt/AvgUint compute at the end of the input (stream/stream.go:936-940, 980-984):
widen, divide, narrow; the errors of conv.To and math.Div are ignored, as in the code. -/
def avgResult (k c64 : Kind) (sum count : Int) : Int :=
  let de := match Conv.toInt k c64 sum 0 with | some r => r.target | none => 0
  let q := (MathInt.div c64 de count 0).1
  match Conv.toInt c64 k q 0 with | some r => r.target | none => 0

/-- stream/stream.go:911-950 `AvgInt`: the loop; `c64` is the type of count (int64), also used as the
intermediate type of the division. -/
def avgLoop (add : Kind → Int → Int → Int × Option MathInt.MErr) (k c64 : Kind) (next : Call σ Int)
    (sum count : Int) (s : σ) : Option (Except Err Int × σ) :=
  match next s with
  | none => none
  | some (.ok val, s') =>
    match add k val sum with
    | (sum', none) => avgLoop add k c64 next sum' (c64.wrap (count + 1)) s'
    | (_, some e) => some (.error (mErr e), s')
  | some (.error e, s') =>
    if e = .eoi then
      if count = 0 then some (.error e, s')
      else some (.ok (avgResult k c64 sum count), s')
    else some (.error e, s')
partial_fixpoint

/-- stream/stream.go:911-950 `AvgInt`. -/
def avgIntCall (k : Kind) (next : Call σ Int) : Call σ Int := avgLoop MathInt.addInt k .int64 next 0 0

/-- stream/stream.go:955-994 `AvgUint`. -/
def avgUintCall (k : Kind) (next : Call σ Int) : Call σ Int := avgLoop MathInt.addUint k .uint64 next 0 0

end Micro.Stream
