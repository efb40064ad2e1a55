import Verif.Stream.ParModel
import Verif.Stream.Spec
/-
Specification vocabulary for Parallel.
-/
namespace Micro.Stream
open Micro Micro.Iter

/-- `Chain a ranges c`: the ranges are non-empty and contiguous, the first begins at `a` and the last
ends (exclusively) at `c`. -/
inductive Chain : Nat → List (Nat × Nat) → Nat → Prop where
  | nil {a} : Chain a [] a
  | cons {a b c rs} : a < b → Chain b rs c → Chain a ((a, b) :: rs) c

/-- The elements lo..hi-1 of a slice. -/
def slice {α : Type} (xs : List α) (r : Nat × Nat) : List α := (xs.drop r.1).take (r.2 - r.1)

/-- Sequential meaning of a transform: started in state `t`, with the elements `xs` still to be read,
it produces `outs` and ends with `e`. `inplace` adds the condition under which reading and writing the
same array is harmless: at any time at least as many elements have been read as written (`d` is the
number of elements read but not yet written). -/
inductive SeqRun {τ α β : Type} (act : τ → Act τ α β) (inplace : Bool) :
    τ → Nat → List α → List β → Err → Prop where
  | stop {t d xs e} : act t = .stop e → SeqRun act inplace t d xs [] e
  | emit {t d xs b t' outs e} : act t = .emit b t' → (inplace = true → 0 < d) →
      SeqRun act inplace t' (d - 1) xs outs e → SeqRun act inplace t d xs (b :: outs) e
  | read {t d k x xs outs e} : act t = .read k → SeqRun act inplace (k (some x)) (d + 1) xs outs e →
      SeqRun act inplace t d (x :: xs) outs e
  | readEnd {t d k outs e} : act t = .read k → SeqRun act inplace (k none) d [] outs e →
      SeqRun act inplace t d [] outs e

/-- What a memory must satisfy: reads and writes of different elements are independent, a write is
seen by a later look at the output, and the effect of a write on its own element depends only on the
previous contents of that element. If `inplace` is false a write does not affect the input at all. -/
structure Lawful {μ α β : Type} (M : Mem μ α β) (inplace : Bool) : Prop where
  rd_other : ∀ m i b j, j ≠ i → M.rd (M.wr m i b) j = M.rd m j
  rd_sep : inplace = false → ∀ m i b j, M.rd (M.wr m i b) j = M.rd m j
  rd_congr : ∀ m m' i b, M.rd m i = M.rd m' i → M.rd (M.wr m i b) i = M.rd (M.wr m' i b) i
  out_wr : ∀ m i b, M.out (M.wr m i b) = (M.out m).set i b

end Micro.Stream
