import Verif.Conv.CopyModel
/-
Model of the conversions between *big.Rat and *big.Int with the memory of package math/big: a big.Rat contains a big.Int struct for its
numerator, and Num returns a pointer to that struct.
-/
namespace Micro.Conv

/-- A big.Rat struct: the addresses of the big.Int structs it contains, numerator and denominator. A denominator of length 0 stands for 1
(standard library). -/
structure RatObj where
  num : Nat
  den : Nat

/-- Memory with big.Rat structs; addresses from `nextRat` on are free. -/
structure RHeap extends Heap where
  rats : Nat → RatObj
  nextRat : Nat

/-- The method IsInt of big.Rat (Go standard library). -/
def RHeap.isInt (h : RHeap) (r : Nat) : Bool :=
  let d := h.objs (h.rats r).den
  d.len = 0 ∨ (h.arrs d.arr).take d.len = [1]

/-- conv/bigint.go:79-86 `BigRatToBigInt`: the pointer put in the target variable, or an error (`none`), which leaves it unchanged. No
memory changes. -/
def bigRatToBigIntRef (h : RHeap) (r : Nat) : Option Nat := if h.isInt r = true then some (h.rats r).num else none

/-- conv/bigrat.go:42-44 `BigIntToBigRat`: SetFrac copies the words of the numerator into an array of its own and sets the denominator to 1.
Simplification: that array has no spare words. The result is memory and the pointer put in the target variable. -/
def bigIntToBigRatRef (h : RHeap) (i : Nat) : RHeap × Nat :=
  let o := h.objs i
  let objs := Function.update (Function.update h.objs h.nextObj ⟨o.neg && decide (o.len > 0), h.nextArr, o.len⟩) (h.nextObj + 1) ⟨false, h.nextArr + 1, 1⟩
  let arrs := Function.update (Function.update h.arrs h.nextArr ((h.arrs o.arr).take o.len)) (h.nextArr + 1) [1]
  ({ objs, arrs, nextObj := h.nextObj + 2, nextArr := h.nextArr + 2,
     rats := Function.update h.rats h.nextRat ⟨h.nextObj, h.nextObj + 1⟩, nextRat := h.nextRat + 1 }, h.nextRat)

end Micro.Conv
