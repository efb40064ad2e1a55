import Verif.Funcs.BaseModel
/-
The ordered tuple slices, SliceRemove and In for the Go comparison operators of any type of their constraint, floats with NaN included.
(Verif/Funcs/Model.lean takes a linear order, which NaN is not part of.)
-/
namespace Micro.Funcs

variable {K V : Type} [GoOrdered K]

/-- funcs/funcs.go:652-667: the binary search loop; `k > key` is `lt key k`. -/
def searchLoopGo (mp : List (K × V)) (key : K) (l r : Nat) : Option (Nat × Bool) :=
  if h : l < r then
    match mp[mid l r]? with
    | none => none
    | some e => if GoOrdered.lt key e.1 then searchLoopGo mp key l (mid l r - 1) else searchLoopGo mp key (mid l r) r
  else if l = r then
    match mp[l]? with
    | none => none
    | some e => some (l, GoOrdered.eq key e.1)
  else none
termination_by r - l
decreasing_by
  all_goals (unfold mid; split <;> omega)

/-- funcs/funcs.go:617-669 `OrderedTuple2Search`. -/
def searchGo (mp : List (K × V)) (key : K) : Option (Option Nat × Bool) :=
  if mp.length = 0 then some (none, false)
  else (searchLoopGo mp key 0 (mp.length - 1)).map (fun (i, b) => (some i, b))

/-- funcs/funcs.go:674-690 `OrderedTuple2SliceAdd`; for a match the new tuple has the key passed (0 for -0). -/
def orderedAddGo (mp : List (K × List V)) (key : K) (value : V) : Option (List (K × List V)) :=
  match searchGo mp key with
  | none => none
  | some (none, _) => some [(key, [value])]
  | some (some index, true) =>
    match mp[index]? with
    | none => none
    | some e => some (mp.set index (key, e.2 ++ [value]))
  | some (some index, false) => some (mp.take (index + 1) ++ [(key, [value])] ++ mp.drop (index + 1))

/-- funcs/funcs.go:693-697 `OrderedTuple2SliceRemoveKey`. -/
def orderedRemoveKeyGo (mp : List (K × V)) (key : K) : Option (List (K × V)) :=
  match searchGo mp key with
  | none => none
  | some (some index, true) => some (mp.take index ++ mp.drop (index + 1))
  | some _ => some mp

/-- funcs/funcs.go:177-201 `SliceRemove`. -/
def sliceRemoveGo (slc : List K) (val : K) (all : List Bool) : List K :=
  if (sliceIndex (some all) 0 [false] false) != some true then removeFirst (fun t => GoOrdered.eq t val) [] slc
  else removeAll (fun t => GoOrdered.eq t val) [] slc

/-- funcs/funcs.go:782-792 `In`. -/
def inGo (val : List K) (t : K) : Bool :=
  match val with
  | [] => false
  | v :: vs => if GoOrdered.eq t v then true else inGo vs t

end Micro.Funcs
