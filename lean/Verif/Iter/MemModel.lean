import Verif.Funcs.SliceModel
/-
Model of iterators and writers over slices with memory: SliceIterGen holds the slice header of its argument, so the iterator reads the backing
array at the time of each call, and SliceWriterGen appends to the caller's variable.
-/
namespace Micro.Iter
open Micro Micro.Funcs

variable {α : Type}

/-- iter/gen.go:29-31 the variables of the function `SliceIterGen` returns: the slice header passed, and the index. -/
structure SliceIt where
  slc : Slc
  idx : Nat

/-- iter/gen.go:29-44 `SliceIterGen` (used by iter/iter.go:69-71 `Of` and iter/iter.go:91-93 `OfSlice`). -/
def sliceIt (slc : Slc) : SliceIt := ⟨slc, 0⟩

/-- iter/gen.go:33-43 one call; `none` is EOI. -/
def SliceIt.next (m : SMem α) (it : SliceIt) : Option α × SliceIt :=
  if it.idx < it.slc.len then ((m.arrs it.slc.arr)[it.slc.off + it.idx]?, ⟨it.slc, it.idx + 1⟩) else (none, it)

/-- Calls of the iterator, each with the memory at the time of the call. -/
def SliceIt.nexts : List (SMem α) → SliceIt → List (Option α)
  | [], _ => []
  | m :: ms, it => (it.next m).1 :: SliceIt.nexts ms (it.next m).2

/-- io/writer/gen.go:25-30 the function `SliceWriterGen` returns, on the variable holding `slc`: the memory and the variable afterwards. -/
def sliceWrite (grow : Nat → Nat) (zv : α) (m : SMem α) (slc : Slc) (val : α) : SMem α × Slc := m.append grow zv slc [val]

/-- io/writer/writer.go:80-88 `Write` of several values with such a function, which never fails. -/
def sliceWrites (grow : Nat → Nat) (zv : α) : List α → SMem α → Slc → SMem α × Slc
  | [], m, slc => (m, slc)
  | v :: vs, m, slc => let r := sliceWrite grow zv m slc v; sliceWrites grow zv vs r.1 r.2

/-- The loop of a caller: read a value from the iterator, write the values f makes of it, until EOI (or until `fuel` calls were made). -/
def pump (grow : Nat → Nat) (zv : α) (f : α → List α) : Nat → SMem α → SliceIt → Slc → SMem α × Slc
  | 0, m, _, dst => (m, dst)
  | fuel + 1, m, it, dst =>
    match it.next m with
    | (none, _) => (m, dst)
    | (some v, it') => let r := sliceWrites grow zv (f v) m dst; pump grow zv f fuel r.1 it' r.2

end Micro.Iter
