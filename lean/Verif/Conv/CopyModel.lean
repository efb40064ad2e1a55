import Verif.Go
import Mathlib.Logic.Function.Basic
/-
Model of the copy of *big.Int values by conv.To (and ToBigOps, AnyTo), with the memory of package math/big: a big.Int is a sign and a
slice of words, and slices share their backing arrays.
-/
namespace Micro.Conv

/-- A big.Int struct: sign, backing array of its words (little endian) and length of the slice; the capacity of the slice is the
length of the array. -/
structure BigObj where
  neg : Bool
  arr : Nat
  len : Nat

/-- Memory: the big.Int structs and the backing arrays; addresses from `nextObj`/`nextArr` on are free. -/
structure Heap where
  objs : Nat → BigObj
  arrs : Nat → List Nat
  nextObj : Nat
  nextArr : Nat

/-- conv/conv.go:1018-1061 `To` for two *big.Int (conv/conv.go:1117-1151 `ToBigOps` is the same): `i` is the pointer converted, `o` the
pointer in the target variable (`none` = nil); the result is memory and the new pointer in the target variable. The
assignment of line 1048 copies the struct. *big.Float and *big.Rat are copied by the same lines. -/
def toCopy (h : Heap) (i o : Option Nat) : Heap × Option Nat :=
  match i with
  | none => (h, none)
  | some a =>
    match o with
    | none => ({ h with objs := Function.update h.objs h.nextObj (h.objs a), nextObj := h.nextObj + 1 }, some h.nextObj)
    | some b =>
      if b = a then
        ({ h with objs := Function.update h.objs h.nextObj (h.objs a), nextObj := h.nextObj + 1 }, some h.nextObj)
      else ({ h with objs := Function.update h.objs b (h.objs a) }, some b)

/-- The method SetInt64 of big.Int (Go standard library): reuses the backing array if there is one. -/
def setInt64 (h : Heap) (z : Nat) (x : Int) : Heap :=
  let o := h.objs z
  if x = 0 then { h with objs := Function.update h.objs z ⟨false, o.arr, 0⟩ }
  else
    match h.arrs o.arr with
    | [] => { h with objs := Function.update h.objs z ⟨x < 0, h.nextArr, 1⟩,
                     arrs := Function.update h.arrs h.nextArr [x.natAbs], nextArr := h.nextArr + 1 }
    | _ :: ws => { h with objs := Function.update h.objs z ⟨x < 0, o.arr, 1⟩,
                          arrs := Function.update h.arrs o.arr (x.natAbs :: ws) }

/-- The method Neg of big.Int applied to itself (Go standard library): flips the sign of a non-zero number. -/
def negInPlace (h : Heap) (z : Nat) : Heap :=
  let o := h.objs z
  { h with objs := Function.update h.objs z { o with neg := o.len > 0 ∧ ¬ o.neg } }

end Micro.Conv
