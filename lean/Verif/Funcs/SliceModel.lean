import Verif.Funcs.Model
import Mathlib.Logic.Function.Basic
/-
Model of the slice functions of package funcs with memory: slices are windows on backing arrays that other slices may share.
-/
namespace Micro.Funcs
open Micro

variable {α : Type}

/-- A Go slice: backing array, first index, length and capacity. Simplification: the nil slice is a slice of length and capacity 0. -/
structure Slc where
  arr : Nat
  off : Nat
  len : Nat
  cap : Nat

/-- Memory: the backing arrays; addresses from `next` on are free. -/
structure SMem (α : Type) where
  arrs : Nat → List α
  next : Nat

/-- The elements of a slice. -/
def SMem.elems (m : SMem α) (s : Slc) : List α := ((m.arrs s.arr).drop s.off).take s.len

/-- Overwriting part of an array. -/
def writeAt (l : List α) (i : Nat) (vs : List α) : List α := l.take i ++ vs ++ l.drop (i + vs.length)

/-- Overwriting part of an array in memory. -/
def SMem.write (m : SMem α) (a i : Nat) (vs : List α) : SMem α := { m with arrs := Function.update m.arrs a (writeAt (m.arrs a) i vs) }

/-- Go's `s[i] = v`; panics (`none`) if there is no element i. -/
def SMem.set (m : SMem α) (s : Slc) (i : Nat) (v : α) : Option (SMem α) :=
  if i < s.len then some (m.write s.arr (s.off + i) [v]) else none

/-- Go's `make([]T, len, cap)` (and a slice literal): a new array of zero values. -/
def SMem.make (zv : α) (m : SMem α) (len cap : Nat) : SMem α × Slc :=
  (⟨Function.update m.arrs m.next (List.replicate cap zv), m.next + 1⟩, ⟨m.next, 0, len, cap⟩)

/-- Go's `append(s, vs...)`: in place if the capacity suffices, otherwise into a new array, whose spare capacity is up to the runtime (`grow`). -/
def SMem.append (grow : Nat → Nat) (zv : α) (m : SMem α) (s : Slc) (vs : List α) : SMem α × Slc :=
  if s.len + vs.length ≤ s.cap then (m.write s.arr (s.off + s.len) vs, { s with len := s.len + vs.length })
  else
    let all := m.elems s ++ vs
    (⟨Function.update m.arrs m.next (all ++ List.replicate (grow all.length) zv), m.next + 1⟩,
      ⟨m.next, 0, all.length, all.length + grow all.length⟩)

/-- Go's `copy(dst, src)`. -/
def SMem.copy (m : SMem α) (dst src : Slc) : SMem α := m.write dst.arr dst.off ((m.elems src).take dst.len)

/-- Go's `s[lo:hi]`. -/
def Slc.sub (s : Slc) (lo hi : Nat) : Slc := ⟨s.arr, s.off + lo, hi - lo, s.cap - lo⟩

section
variable (grow : Nat → Nat) (zv : α)

/-- funcs/funcs.go:57-63 `SliceAdd`: the new value of the variable `*slc`. -/
def sliceAdd (m : SMem α) (slc : Slc) (value : α) : SMem α × Slc := m.append grow zv slc [value]

/-- funcs/funcs.go:167-169 `SliceOf` called with a list of values, `SliceOf(v1, v2, ...)`: the call makes the slice of the values, which is returned. -/
def sliceOf (m : SMem α) (vals : List α) : SMem α × Slc :=
  let (m1, res) := m.make zv vals.length vals.length
  (m1.write res.arr res.off vals, res)

/-- funcs/funcs.go:167-169 `SliceOf` called with the elements of a slice, `SliceOf(slc...)`: the parameter is that slice. -/
def sliceOfSpread (m : SMem α) (slc : Slc) : SMem α × Slc := (m, slc)

/-- funcs/funcs.go:67-71 `SliceCopy`. -/
def sliceCopy (m : SMem α) (slc : Slc) : SMem α × Slc :=
  let (m1, res) := m.make zv slc.len slc.len
  (m1.copy res slc, res)

/-- funcs/funcs.go:180-186: the index of the first occurrence. -/
def firstIndex (eq : α → Bool) (i : Nat) : List α → Option Nat
  | [] => none
  | t :: rest => if eq t then some i else firstIndex eq (i + 1) rest

/-- funcs/funcs.go:193-198: the loop over all occurrences. -/
def removeAllLoop (eq : α → Bool) (m : SMem α) (newSlc : Slc) : List α → SMem α × Slc
  | [] => (m, newSlc)
  | t :: rest =>
    if eq t then removeAllLoop eq m newSlc rest
    else
      let (m', newSlc') := m.append grow zv newSlc [t]
      removeAllLoop eq m' newSlc' rest

/-- funcs/funcs.go:177-201 `SliceRemove` (and 209-235 `SliceRemoveUncomparable`, with the other comparison). -/
def sliceRemoveMem (eq : α → Bool) (m : SMem α) (slc : Slc) (all : Bool) : SMem α × Slc :=
  if all = false then
    match firstIndex eq 0 (m.elems slc) with
    | none => (m, slc)
    | some i =>
      let (m1, newSlc) := m.make zv 0 (slc.len - 1)
      let (m2, newSlc) := m1.append grow zv newSlc (m1.elems (slc.sub 0 i))
      m2.append grow zv newSlc (m2.elems (slc.sub (i + 1) slc.len))
  else
    let (m1, newSlc) := m.make zv 0 0
    removeAllLoop grow zv eq m1 newSlc (m.elems slc)

end

/-- funcs/funcs.go:241-246: the loop of `SliceReverse`, with n rounds to go from index i on. -/
def reverseLoop (m : SMem α) (slc : Slc) (i : Nat) : Nat → Option (SMem α)
  | 0 => some m
  | n + 1 =>
    let j := slc.len - 1 - i
    match (m.elems slc)[i]?, (m.elems slc)[j]? with
    | some tmp, some b =>
      match m.set slc i b with
      | none => none
      | some m1 =>
        match m1.set slc j tmp with
        | none => none
        | some m2 => reverseLoop m2 slc (i + 1) n
    | _, _ => none

/-- funcs/funcs.go:239-249 `SliceReverse`. -/
def sliceReverse (m : SMem α) (slc : Slc) : Option (SMem α × Slc) := (reverseLoop m slc 0 (slc.len / 2)).map (·, slc)

/-- funcs/funcs.go:253-256 `SliceSortOrdered`, 260-263 `SliceSortComplex`, 267-270 `SliceSortCmp` and 274-277 `SliceSortBy`: sort.Slice
exchanges elements in place; `sort` is the rearrangement it arrives at. -/
def sliceSort (sort : List α → List α) (m : SMem α) (slc : Slc) : SMem α × Slc := (m.write slc.arr slc.off (sort (m.elems slc)), slc)

end Micro.Funcs
