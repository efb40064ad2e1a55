import Verif.Funcs.Model
import Mathlib.Logic.Function.Basic
/-
Model of the map functions of package funcs (funcs/funcs.go:282-606) and of its type conversions (1150-1249).
`none` as the result of a function models a panic.

A Go map is `none` (the nil map) or a function giving the value of each key, if any. Maps are modelled by value: a map that
is stored in another map is updated there; that the caller may hold a second reference to the inner map is not modelled.
Slices stored in maps are modelled by their elements; the nil slice and the empty slice are both [].
-/
namespace Micro.Funcs
open Micro

variable {α β K K1 K2 V : Type}

/-- A Go map of type map[K]V; `none` is the nil map. -/
abbrev GoMap (K V : Type) := Option (K → Option V)

/-- The map literal map[K]V{}. -/
def GoMap.make : GoMap K V := some (fun _ => none)

/-- The Go expression `v, haveIt := m[key]`; a nil map has no keys. -/
def GoMap.get (m : GoMap K V) (k : K) : Option V :=
  match m with
  | none => none
  | some f => f k

/-- The Go statement `m[key] = value`; panics on a nil map. -/
def GoMap.write [DecidableEq K] (m : GoMap K V) (k : K) (v : V) : Option (GoMap K V) :=
  match m with
  | none => none
  | some f => some (some (Function.update f k (some v)))

/-- The Go statement `delete(m, key)`. -/
def GoMap.delete [DecidableEq K] (m : GoMap K V) (k : K) : GoMap K V :=
  match m with
  | none => none
  | some f => some (Function.update f k none)

/-- The Go test `m == nil`. -/
def GoMap.isNil (m : GoMap K V) : Bool := m.isNone

/-- A possible order in which `for k, v := range m` visits a map: every pair once, in any order. -/
def GoMap.Ranges (m : GoMap K V) (l : List (K × V)) : Prop :=
  (l.map Prod.fst).Nodup ∧ ∀ k v, (k, v) ∈ l ↔ m.get k = some v

/-! ### Single level maps -/

/-- funcs/funcs.go:322-338 `MapIndex`. -/
def mapIndex (mp : GoMap K V) (key : K) (defawlt : List V) (zv : V) : V :=
  match mp.get key with
  | some v => v
  | none => match defawlt with
    | d :: _ => d
    | [] => zv

/-- funcs/funcs.go:353-361 `MapSet`. -/
def mapSet [DecidableEq K] (mp : GoMap K V) (key : K) (value : V) : Option (GoMap K V) :=
  let mp := if mp.isNil then GoMap.make else mp
  mp.write key value

/-- funcs/funcs.go:364-370 `MapTest`. -/
def mapTest (mp : GoMap K V) (key : K) : Bool := if mp.isNil then false else (mp.get key).isSome

/-- funcs/funcs.go:373-376 `MapUnset`. -/
def mapUnset [DecidableEq K] (mp : GoMap K V) (key : K) : GoMap K V := mp.delete key

/-! ### Two level maps -/

/-- funcs/funcs.go:392-407 `Map2Set`. -/
def map2Set [DecidableEq K1] [DecidableEq K2] (mp : GoMap K1 (GoMap K2 V)) (key1 : K1) (key2 : K2) (value : V) :
    Option (GoMap K1 (GoMap K2 V)) :=
  let mp := if mp.isNil then GoMap.make else mp
  let mp2 := (mp.get key1).getD none
  if mp2.isNil then do
    let mp ← mp.write key1 GoMap.make
    let mp2 ← GoMap.make.write key2 value
    mp.write key1 mp2
  else do
    let mp2 ← mp2.write key2 value
    mp.write key1 mp2

/-- funcs/funcs.go:410-418 `Map2Test`. -/
def map2Test (mp : GoMap K1 (GoMap K2 V)) (key1 : K1) (key2 : K2) : Bool :=
  if mp.isNil then false
  else
    let m2 := (mp.get key1).getD none
    if m2.isNil then false else (m2.get key2).isSome

/-- funcs/funcs.go:427-432 `Map2Unset`; deleting from a missing (nil) inner map changes nothing. -/
def map2Unset [DecidableEq K1] [DecidableEq K2] (mp : GoMap K1 (GoMap K2 V)) (key1 : K1) (key2 : K2) :
    Option (GoMap K1 (GoMap K2 V)) :=
  if mp.isNil then some mp
  else match mp.get key1 with
    | none => some mp
    | some mp2 => mp.write key1 (mp2.delete key2)

/-! ### Maps of slices -/

/-- funcs/funcs.go:448-464 `MapSliceAdd`. -/
def mapSliceAdd [DecidableEq K] (mp : GoMap K (List V)) (key : K) (value : V) : Option (GoMap K (List V)) :=
  let mp := if mp.isNil then GoMap.make else mp
  match mp.get key with
  | none => do
    let mp ← mp.write key []
    mp.write key ([] ++ [value])
  | some slc => mp.write key (slc ++ [value])

/-- funcs/funcs.go:468-474 `MapSliceRemove` and funcs/funcs.go:477-483 `MapSliceRemoveUncomparable`; `remove` is the call of SliceRemove(Uncomparable)
with the value and the flag. -/
def mapSliceRemove [DecidableEq K] (remove : List V → List V) (mp : GoMap K (List V)) (key : K) : Option (GoMap K (List V)) :=
  if mp.isNil then some mp
  else match mp.get key with
    | none => some mp
    | some slc => mp.write key (remove slc)

/-- funcs/funcs.go:501-524 `Map2SliceAdd`. -/
def map2SliceAdd [DecidableEq K1] [DecidableEq K2] (mp : GoMap K1 (GoMap K2 (List V))) (key1 : K1) (key2 : K2) (value : V) :
    Option (GoMap K1 (GoMap K2 (List V))) := do
  let mp := if mp.isNil then GoMap.make else mp
  let mp ← if ((mp.get key1).getD none).isNil then mp.write key1 GoMap.make else some mp
  let mp2 := (mp.get key1).getD none
  let mp2 ← match mp2.get key2 with
    | none => mp2.write key2 []
    | some _ => some mp2
  let slc := (mp2.get key2).getD []
  let mp2 ← mp2.write key2 (slc ++ [value])
  mp.write key1 mp2

/-- funcs/funcs.go:528-536 `Map2SliceRemove` and funcs/funcs.go:539-547 `Map2SliceRemoveUncomparable`. -/
def map2SliceRemove [DecidableEq K1] [DecidableEq K2] (remove : List V → List V) (mp : GoMap K1 (GoMap K2 (List V)))
    (key1 : K1) (key2 : K2) : Option (GoMap K1 (GoMap K2 (List V))) :=
  if mp.isNil then some mp
  else match mp.get key1 with
    | none => some mp
    | some mp2 => match mp2.get key2 with
      | none => some mp
      | some slc => do
        let mp2 ← mp2.write key2 (remove slc)
        mp.write key1 mp2

/-! ### Collecting and sorting -/

/-- funcs/funcs.go:282-290 `SliceToMap`. -/
def sliceToMap [DecidableEq α] (slc : List α) : Option (GoMap α Bool) :=
  slc.foldlM (fun (m : GoMap α Bool) v => m.write v true) GoMap.make

/-- funcs/funcs.go:295-303 `SliceToMapBy`. -/
def sliceToMapBy [DecidableEq K] (fn : α → K) (slc : List α) : Option (GoMap K Bool) :=
  slc.foldlM (fun (m : GoMap K Bool) v => m.write (fn v) true) GoMap.make

/-- funcs/funcs.go:599-606 `MapKeysToSlice`; `l` is the order in which the map is visited. -/
def mapKeysToSlice (l : List (K × V)) : List K := l.foldl (fun slc kv => slc ++ [kv.1]) []

/-- funcs/funcs.go:307-314 `SliceUniqueValues`: the map whose keys are returned. -/
def uniqMap [DecidableEq α] (slc : List α) : Option (GoMap α Int) :=
  slc.foldlM (fun (m : GoMap α Int) v => m.write v 0) GoMap.make

/-- funcs/funcs.go:550-559 `MapSortOrdered`, funcs/funcs.go:562-571 `MapSortComplex`, funcs/funcs.go:574-583 `MapSortCmp`, funcs/funcs.go:586-595 `MapSortBy`: `l` is the order in which the map
is visited, `sort` the call of sort.Slice. -/
def mapSort (sort : List (K × V) → List (K × V)) (l : List (K × V)) : List (K × V) :=
  sort (l.foldl (fun slc kv => slc ++ [(kv.1, kv.2)]) [])

/-! ### Conversions -/

/-- The errors of ConvertToSlice, ConvertToSlice2 and ConvertToMap, without their message prefix. -/
inductive ConvErr (K : Type) where
  | notContainer
  | elem (i : Nat)
  | notContainer2 (i : Nat)
  | elem2 (i j : Nat)
  | value (k : K)
  deriving DecidableEq

/-- funcs/funcs.go:1157-1164: the loop over the elements; `tgt` holds the elements already converted. -/
def convSliceLoop (asT : α → Option β) (i : Nat) (tgt : List β) : List α → Except Nat (List β)
  | [] => .ok tgt
  | v :: vs => match asT v with
    | none => .error i
    | some t => convSliceLoop asT (i + 1) (tgt ++ [t]) vs

/-- funcs/funcs.go:1150-1174 `ConvertToSlice`; `asSlice` is the assertion to []any, `asT` the assertion to T. -/
def convertToSlice (asSlice : α → Option (List α)) (asT : α → Option β) (v : α) : Except (ConvErr Unit) (List β) :=
  match asSlice v with
  | none => .error .notContainer
  | some slc => match convSliceLoop asT 0 [] slc with
    | .error i => .error (.elem i)
    | .ok r => .ok r

/-- funcs/funcs.go:1191-1207: the loop over the outer elements. -/
def convSlice2Loop (asSlice : α → Option (List α)) (asT : α → Option β) (i : Nat) (tgt : List (List β)) :
    List α → Except (ConvErr Unit) (List (List β))
  | [] => .ok tgt
  | v :: vs => match asSlice v with
    | none => .error (.notContainer2 i)
    | some slc => match convSliceLoop asT 0 [] slc with
      | .error j => .error (.elem2 i j)
      | .ok r => convSlice2Loop asSlice asT (i + 1) (tgt ++ [r]) vs

/-- funcs/funcs.go:1183-1217 `ConvertToSlice2`. -/
def convertToSlice2 (asSlice : α → Option (List α)) (asT : α → Option β) (v : α) : Except (ConvErr Unit) (List (List β)) :=
  match asSlice v with
  | none => .error .notContainer
  | some slc => convSlice2Loop asSlice asT 0 [] slc

/-- funcs/funcs.go:1230-1238: the loop over the map, visited in the order of the list; `tgt` never is nil. -/
def convMapLoop [DecidableEq K] (asV : α → Option V) (tgt : K → Option V) : List (K × α) → Except (ConvErr K) (K → Option V)
  | [] => .ok tgt
  | (k, v) :: kvs => match asV v with
    | none => .error (.value k)
    | some t => convMapLoop asV (Function.update tgt k (some t)) kvs

/-- funcs/funcs.go:1225-1249 `ConvertToMap`; `visit` is the assertion to map[K]any followed by the order in which the map is
visited. -/
def convertToMap [DecidableEq K] (visit : Option (List (K × α))) (asV : α → Option V) : Except (ConvErr K) (GoMap K V) :=
  match visit with
  | none => .error .notContainer
  | some kvs => match convMapLoop asV (fun _ => none) kvs with
    | .error e => .error e
    | .ok r => .ok (some r)

/-- funcs/funcs.go:782-792 `In`. -/
def in_ [DecidableEq α] (val : List α) (t : α) : Bool :=
  match val with
  | [] => false
  | v :: vs => if t = v then true else in_ vs t

/-- funcs/funcs.go:836-845 `Compose`; funcs are named by the list. -/
def compose (f0 : α → α) (fns : List (α → α)) (t : α) : α := fns.foldl (fun res fn => fn res) (f0 t)

end Micro.Funcs
