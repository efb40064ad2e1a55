import Verif.Stream.Model
/-
Iterators as objects. An Iter[T] is a pointer to an IterImpl: two pipelines, or two arguments of Concat, may refer to the same one. In
Verif/Iter/Model.lean and Verif/Stream/Model.lean the state of the source is part of the state of the transform and is dropped with it; here
the world `η` (the source iterators) is separate from the variables `ℓ` captured by a transform's closure, and survives it.
-/
namespace Micro.Stream
open Micro Micro.Iter

variable {σ η ℓ φ α β : Type}

/-- iter/iter.go:153-185 `IterImpl.Next` of an iterator whose iterating function has captured the variables `ℓ` and uses the world `η`. -/
def nextOn (call : Call (ℓ × η) α) (it : It ℓ α) (h : η) : Option (Except Err α × It ℓ α × η) :=
  match it.buffer.getLast? with
  | some v => some (.ok v, { it with buffer := it.buffer.dropLast }, h)
  | none =>
    match it.fn with
    | some l =>
      match call (l, h) with
      | none => none
      | some (.ok v, (l', h')) => some (.ok v, { it with fn := some l' }, h')
      | some (.error e, (_, h')) => some (.error e, { it with fn := none, lastErr := some e }, h')
    | none =>
      match it.lastErr with
      | some e => some (.error e, it, h)
      | none => none

/-- The world: the IterImpl objects by address (iter/iter.go:41-45). Calling Next of the iterator at address `a`. All have one state type
(a sum type for a mixed collection). -/
def nextAt (call : Call σ α) (a : Nat) : Call (Nat → It σ α) α := fun h =>
  match It.next call (h a) with
  | none => none
  | some (r, it) => some (r, fun b => if b = a then it else h b)

/-- iter/iter.go:188-190 `Unread` of the iterator at address `a`. -/
def unreadAt (a : Nat) (v : α) (h : Nat → It σ α) : Nat → It σ α := fun b => if b = a then (h a).unread v else h b

/-- stream/stream.go:44-56 `Map`: its closure captures nothing but the source. -/
def mapOn (f : α → β) (next : Call η α) : Call (Unit × η) β := fun (_, h) => withState (Prod.mk ()) (mapCall f next h)

/-- stream/stream.go:82-104 `Filter`: captured variables of the predicate first. -/
def filterOn (p : φ → α → Bool × φ) (next : Call η α) : Call (φ × η) α := fun (c, h) =>
  withState (fun (h', c') => (c', h')) (filterCall p next (h, c))

/-- iter/gen.go:443-477 `ConcatIterGen` over iterators given by their addresses (nil: `none`); the same address may occur more than once. -/
def concatGoAt (next : Nat → Call η α) : List (Option Nat) → Err → η → Option (Except Err α × (ConcatState Nat × η))
  | [], err, h => some (.error err, (⟨[], err⟩, h))
  | none :: rest, err, h => concatGoAt next rest err h
  | some a :: rest, _, h =>
    match next a h with
    | none => none
    | some (.ok v, h') => some (.ok v, (⟨some a :: rest, .eoi⟩, h'))
    | some (.error e, h') => if e ≠ .eoi then some (.error e, (⟨[], e⟩, h')) else concatGoAt next rest e h'

/-- iter/gen.go:451-476: the generated function. -/
def concatOn (next : Nat → Call η α) : Call (ConcatState Nat × η) α := fun (s, h) => concatGoAt next s.src s.err h

/-- Calling Next `n` times, whatever it returns: the results, the iterator and the world afterwards. -/
def callsOn (call : Call (ℓ × η) α) : Nat → It ℓ α → η → Option (List (Except Err α) × It ℓ α × η)
  | 0, it, h => some ([], it, h)
  | n + 1, it, h =>
    match nextOn call it h with
    | some (r, it', h') => (callsOn call n it' h').map (fun (rs, s) => (r :: rs, s))
    | none => none

/-- Calling Next `n` times as long as it returns values: the values, the iterator and the world afterwards. -/
def takeOn (call : Call (ℓ × η) α) : Nat → It ℓ α → η → Option (List α × It ℓ α × η)
  | 0, it, h => some ([], it, h)
  | n + 1, it, h =>
    match nextOn call it h with
    | some (.ok v, it', h') => (takeOn call n it' h').map (fun (vs, r) => (v :: vs, r))
    | _ => none

/-- Several pipelines `Map(f c)` over one source: `sched` lists which of them is asked for its next value; the results in that order. -/
def runMaps (f : Nat → α → β) (next : Call η α) : List Nat → (Nat → It Unit β) → η → Option (List (Except Err β))
  | [], _, _ => some []
  | c :: sched, its, h =>
    match nextOn (mapOn (f c) next) (its c) h with
    | none => none
    | some (r, it, h') => (runMaps f next sched (fun d => if d = c then it else its d) h').map (r :: ·)

end Micro.Stream
