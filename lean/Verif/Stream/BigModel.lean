import Verif.Stream.Model
import Verif.Conv.FloatModel
/-
Model of the stream functions on big numbers (SumBigOps, AvgBigOps, AbsBigOps), of ExpandMaps and of Generator.
-/
namespace Micro.Stream
open Micro Micro.Iter

variable {σ α β : Type}

/-- The methods of a big number type that the stream functions use, on values: `add` is z.Add(x, y) for a z made by
conv.ToBigOps(0, &z), `div` is math.DivBigOps into a nil quotient, `zero` and `one` are made by conv.ToBigOps. -/
structure BigOps (α : Type) where
  zero : α
  one : α
  add : α → α → α
  div : α → α → α

/-- *big.Int: math/math.go:304-335. -/
def intOps : BigOps Int := ⟨0, 1, (· + ·), fun a b => (MathInt.divBig a b 0).1⟩

/-- *big.Rat: math/math.go:355-370. -/
def ratOps : BigOps ℚ := ⟨0, 1, (· + ·), (· / ·)⟩

/-- *big.Float (finite values): conv/bigfloat.go:15-20 `IntToBigFloat` gives 0 the precision for one decimal digit, and the result of Add is
rounded to the precision of its receiver; math/math.go:337-353 allocates the quotient with precision 53. -/
def floatOps : BigOps ℚ :=
  ⟨0, 1, fun a b => Conv.roundSig 2 (Conv.bitsFor (Conv.integerToString .int 0).length) (a + b), fun a b => Conv.roundSig 2 53 (a / b)⟩

/-- stream/stream.go:1087-1096 `SumBigOps`. -/
def sumBigCall (o : BigOps α) (next : Call σ α) : Call (Bool × σ) α := reduceCall o.add none next

/-- stream/stream.go:999-1037 `AvgBigOps`: the loop. -/
def avgBigLoop [DecidableEq α] (o : BigOps α) (next : Call σ α) (sum count : α) (s : σ) : Option (Except Err α × σ) :=
  match next s with
  | none => none
  | some (.ok val, s') => avgBigLoop o next (o.add sum val) (o.add count o.one) s'
  | some (.error e, s') =>
    if e = .eoi then
      if count = o.zero then some (.error e, s') else some (.ok (o.div sum count), s')
    else some (.error e, s')
partial_fixpoint

/-- stream/stream.go:999-1037 `AvgBigOps`. -/
def avgBigCall [DecidableEq α] (o : BigOps α) (next : Call σ α) : Call σ α := avgBigLoop o next o.zero o.zero

/-- stream/stream.go:902-906 `AbsBigOps`: the values are pointers (addresses), and v.Abs(v) stores the absolute value in place. State = (memory,
source). -/
def absBigCall (next : Call σ Nat) : Call ((Nat → Int) × σ) Nat := fun (m, s) =>
  match next s with
  | none => none
  | some (.error e, s') => some (.error e, (m, s'))
  | some (.ok a, s') => some (.ok a, (fun b => if b = a then |m a| else m b, s'))

/-- stream/stream.go:563-583: the inner loop of `ExpandMaps`: the next non-empty map, its first entry and the others. A map is `none` if nil,
otherwise the list of its entries in the order in which this iteration over it visits them. -/
def nextMap {κ ν : Type} (next : Call σ (Option (List (κ × ν)))) (s : σ) : Option (Except Err ((κ × ν) × List (κ × ν)) × σ) :=
  match next s with
  | none => none
  | some (.error e, s') => some (.error e, s')
  | some (.ok (some (v :: vs)), s') => some (.ok (v, vs), s')
  | some (.ok _, s') => nextMap next s'
partial_fixpoint

/-- stream/stream.go:549-596 `ExpandMaps`: state = (entries of the current map not visited yet, source), `none` if there is no current map.
The result `none` is a panic, or a source that does not return. -/
def expandMapsCall {κ ν : Type} (nilK : κ → Bool) (nilV : ν → Bool) (next : Call σ (Option (List (κ × ν)))) : Call (Option (List (κ × ν)) × σ) (κ × ν) := fun (cur, s) =>
  let deliver (kv : κ × ν) (st : Option (List (κ × ν)) × σ) : Option (Except Err (κ × ν) × Option (List (κ × ν)) × σ) :=
    match assertIface nilK kv.1, assertIface nilV kv.2 with
    | some k, some v => some (.ok (k, v), st)
    | _, _ => none
  match cur with
  | some (kv :: rest) => deliver kv (some rest, s)
  | _ =>
    match nextMap next s with
    | none => none
    | some (.error e, s') => some (.error e, (none, s'))
    | some (.ok (kv, rest), s') => deliver kv (some rest, s')

/-- The captured variables of a Generator: `fn` is the number of the function made by the last call of gen (`none` before the first),
`made` the number of calls of gen so far. `currentIter` is the identity of an iterator, `none` is nil. -/
structure GenState where
  currentIter : Option Nat
  fn : Option Nat
  made : Nat

/-- stream/stream.go:706-719 `Generator`, before any use. -/
def genInit : GenState := ⟨none, none, 0⟩

/-- stream/stream.go:712-718: one use of the function made by `Generator` on the iterator `it`: the number of the function applied; a panic
(`none`) if that is nil. `currentIter` is never assigned. -/
def genUse (g : GenState) (it : Option Nat) : Option (Nat × GenState) :=
  let g' := if g.currentIter ≠ it then { g with fn := some g.made, made := g.made + 1 } else g
  match g'.fn with
  | some f => some (f, g')
  | none => none

/-- A sequence of uses. -/
def genUses : GenState → List (Option Nat) → Option (List Nat)
  | _, [] => some []
  | g, it :: its =>
    match genUse g it with
    | none => none
    | some (f, g') => (genUses g' its).map (f :: ·)

end Micro.Stream
