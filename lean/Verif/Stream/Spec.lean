import Verif.Iter.Spec
import Verif.Stream.Model
/-
Specification vocabulary for streams.
-/
namespace Micro.Stream
open Micro Micro.Iter

variable {α β : Type}

/-- The iterator value yields `xs`, then `e` forever. -/
def AnyIter.YieldsForever (it : AnyIter α) (xs : List α) (e : Err) : Prop :=
  Iter.YieldsForever it.call it.s xs e

/-- The elements of a list that satisfy a test which may look at the elements before them. -/
def keepBy (test : List α → α → Bool) : List α → List α → List α
  | _, [] => []
  | before, x :: xs =>
    if test before x then x :: keepBy test (before ++ [x]) xs else keepBy test (before ++ [x]) xs

/-- Mapping with a partial function: the images up to the first failure, and the error. -/
def mapUntil (f : α → Except Err β) (e : Err) : List α → List β × Err
  | [] => ([], e)
  | x :: xs =>
    match f x with
    | .ok y => (y :: (mapUntil f e xs).1, (mapUntil f e xs).2)
    | .error e' => ([], e')

/-- All running sums of a list starting from `s` are values of the type; returns the first failure. -/
def sumsOk (k : Kind) : Int → List Int → Option Err
  | _, [] => none
  | s, x :: xs =>
    if k.maxV < s + x then some .overflow
    else if s + x < k.minV then some .underflow
    else sumsOk k (s + x) xs

end Micro.Stream
