import Verif.Json.ValueModel
import Mathlib.Logic.Function.Basic
/-
Model of the conversions between Values and Go values (encoding/json/value.go) with memory: which maps and slices a Value shares with its caller.
-/
namespace Micro.Json
open Micro

/-- A json.Value in memory (encoding/json/value.go:66-69): an object holds the address of its map, an array a slice (address of the array, offset, length). -/
inductive HVal where
  | invalid | null
  | bool (b : Bool)
  | num (s : List Char)
  | str (s : List Char)
  | arr (a off len : Nat)
  | obj (m : Nat)

/-- A Go value of static type any in memory; see `GoAny` (encoding/json/value.go:81-125). -/
inductive HAny where
  | nil
  | bool (b : Bool)
  | str (s : List Char)
  | numStr (s : List Char)
  | namedStr (s : List Char)
  | num (t : NumText)
  | int (k : Kind) (v : Int)
  | map (m : Nat)
  | slice (a off len : Nat)
  | mapV (m : Nat)
  | sliceV (a off len : Nat)
  | other

/-- The maps of type map[string]α and the arrays of α (encoding/json/value.go:66-69 for α = Value): contents by address, and the first unused address.
The entries of a map are in iteration order. -/
structure Objs (α : Type) where
  maps : Nat → List (List Char × α)
  arrs : Nat → List α
  next : Nat

variable {α : Type}

/-- A new map. -/
def Objs.newMap (h : Objs α) (l : List (List Char × α)) : Objs α := { h with maps := Function.update h.maps h.next l, next := h.next + 1 }

/-- A new array. -/
def Objs.newArr (h : Objs α) (l : List α) : Objs α := { h with arrs := Function.update h.arrs h.next l, next := h.next + 1 }

/-- `m[k] = v`: the entry is replaced, or a new entry is added. -/
def setKey (l : List (List Char × α)) (k : List Char) (v : α) : List (List Char × α) :=
  match l with
  | [] => [(k, v)]
  | e :: r => if e.1 = k then (k, v) :: r else e :: setKey r k v

/-- `m[k] = v` in memory. -/
def Objs.setKey (h : Objs α) (m : Nat) (k : List Char) (v : α) : Objs α := { h with maps := Function.update h.maps m (Json.setKey (h.maps m) k v) }

/-- `s[i] = v` in memory, for the array at address a and an index into it. -/
def Objs.setIdx (h : Objs α) (a i : Nat) (v : α) : Objs α := { h with arrs := Function.update h.arrs a ((h.arrs a).set i v) }

/-- The elements of a slice. -/
def Objs.elems (h : Objs α) (a off len : Nat) : List α := ((h.arrs a).drop off).take len

mutual
/-- encoding/json/value.go:81-125 `toValue`, and numberToValue (encoding/json/value.go:218-239), with memory: `none` = does not return. The maps and
slices of any are only read. -/
def toValueH (A : Objs HAny) (x : HAny) (V : Objs HVal) : Option (Except VErr (HVal × Objs HVal)) :=
  match x with
  | .map m => mapToValueH A m V
  | .slice a off len => sliceToValueH A a off len V
  | .bool b => some (.ok (.bool b, V))
  | .nil => some (.ok (.null, V))
  | .str s => some (.ok (.str s, V))
  | .numStr s => if matchNumber s = true then some (.ok (.num s, V)) else some (.error .notNumber)
  | .namedStr _ => some (.error .panic)
  | .num t => some (.ok (.num t.text, V))
  | .int k v => some (.ok (.num (Conv.integerToString k v), V))
  | .mapV _ => some (.error .invalidType)
  | .sliceV _ _ _ => some (.error .invalidType)
  | .other => some (.error .invalidType)
partial_fixpoint

/-- encoding/json/value.go:146-170 `MapToValue` for a map[string]any: a new map is filled. -/
def mapToValueH (A : Objs HAny) (m : Nat) (V : Objs HVal) : Option (Except VErr (HVal × Objs HVal)) :=
  do
  match ← convFieldsH A (A.maps m) V.next (V.newMap []) with
  | .error e => some (.error e)
  | .ok V' => some (.ok (.obj V.next, V'))
partial_fixpoint

/-- encoding/json/value.go:158-164: the loop over the map; p is the address of the new map. -/
def convFieldsH (A : Objs HAny) (l : List (List Char × HAny)) (p : Nat) (V : Objs HVal) : Option (Except VErr (Objs HVal)) :=
  match l with
  | [] => some (.ok V)
  | (k, x) :: r => do
    match ← toValueH A x V with
    | .error e => some (.error e)
    | .ok (v, V') => convFieldsH A r p (V'.setKey p k v)
partial_fixpoint

/-- encoding/json/value.go:181-205 `SliceToValue` for a []any: a new array of zero Values is filled. -/
def sliceToValueH (A : Objs HAny) (a off len : Nat) (V : Objs HVal) : Option (Except VErr (HVal × Objs HVal)) :=
  do
  match ← convElemsH A (A.elems a off len) V.next 0 (V.newArr (List.replicate (A.elems a off len).length .invalid)) with
  | .error e => some (.error e)
  | .ok V' => some (.ok (.arr V.next 0 (A.elems a off len).length, V'))
partial_fixpoint

/-- encoding/json/value.go:193-199: the loop over the slice; p is the address of the new array, i the index. -/
def convElemsH (A : Objs HAny) (l : List HAny) (p i : Nat) (V : Objs HVal) : Option (Except VErr (Objs HVal)) :=
  match l with
  | [] => some (.ok V)
  | x :: r => do
    match ← toValueH A x V with
    | .error e => some (.error e)
    | .ok (v, V') => convElemsH A r p (i + 1) (V'.setIdx p i v)
partial_fixpoint
end

/-- encoding/json/value.go:146-170 `MapToValue` for a map[string]Value: the map itself. -/
def mapVToValueH (m : Nat) : HVal := .obj m

/-- encoding/json/value.go:181-205 `SliceToValue` for a []Value: the slice itself. -/
def sliceVToValueH (a off len : Nat) : HVal := .arr a off len

/-- encoding/json/value.go:263-269 `AsMap`: the map itself; `none` = panic. -/
def asMapH : HVal → Option Nat
  | .obj m => some m
  | _ => none

/-- encoding/json/value.go:273-279 `AsSlice`: the slice itself; `none` = panic. -/
def asSliceH : HVal → Option (Nat × Nat × Nat)
  | .arr a off len => some (a, off, len)
  | _ => none

mutual
/-- encoding/json/value.go:328-343 `ToAny` with memory; `none` = does not return. The maps and slices of Values are only read. -/
def toAnyH (V : Objs HVal) (v : HVal) (A : Objs HAny) : Option (HAny × Objs HAny) :=
  match v with
  | .obj m => toMapH V m A
  | .arr a off len => toSliceH V a off len A
  | .str s => some (.str s, A)
  | .num s => some (.numStr s, A)
  | .bool b => some (.bool b, A)
  | .null => some (.nil, A)
  | .invalid => some (.nil, A)
partial_fixpoint

/-- encoding/json/value.go:347-359 `ToMap` of an object: a new map is filled. -/
def toMapH (V : Objs HVal) (m : Nat) (A : Objs HAny) : Option (HAny × Objs HAny) :=
  do
  let A' ← anyFieldsH V (V.maps m) A.next (A.newMap [])
  some (.map A.next, A')
partial_fixpoint

/-- encoding/json/value.go:354-356: the loop of ToMap; p is the address of the new map. -/
def anyFieldsH (V : Objs HVal) (l : List (List Char × HVal)) (p : Nat) (A : Objs HAny) : Option (Objs HAny) :=
  match l with
  | [] => some A
  | (k, v) :: r => do
    let (x, A') ← toAnyH V v A
    anyFieldsH V r p (A'.setKey p k x)
partial_fixpoint

/-- encoding/json/value.go:364-376 `ToSlice` of an array: the elements are appended to a new empty slice. Simplified: the array that append finally
uses is allocated at the end; the arrays it outgrows are never seen by anybody. -/
def toSliceH (V : Objs HVal) (a off len : Nat) (A : Objs HAny) : Option (HAny × Objs HAny) :=
  do
  let (xs, A') ← anyElemsH V (V.elems a off len) A
  some (.slice A'.next 0 xs.length, A'.newArr xs)
partial_fixpoint

/-- encoding/json/value.go:371-373: the loop of ToSlice. -/
def anyElemsH (V : Objs HVal) (l : List HVal) (A : Objs HAny) : Option (List HAny × Objs HAny) :=
  match l with
  | [] => some ([], A)
  | v :: r => do
    let (x, A') ← toAnyH V v A
    let (xs, A'') ← anyElemsH V r A'
    some (x :: xs, A'')
partial_fixpoint
end

end Micro.Json
