import Verif.Stream.Model
import Verif.Funcs.BaseModel
/-
The stream functions that use Go's operators < and ==, for every type that has these operators, floats with NaN included.
-/
namespace Micro.Stream
open Micro Micro.Iter Micro.Funcs

variable {σ α : Type}

/-- stream/stream.go:1040-1046 `Max`, with Go's operator > (a > b is b < a). -/
def maxGoCall [GoOrdered α] (next : Call σ α) : Call (Bool × σ) α := reduceCall (fun a b => if GoOrdered.lt b a then a else b) none next

/-- stream/stream.go:1059-1065 `Min`, with Go's operator <. -/
def minGoCall [GoOrdered α] (next : Call σ α) : Call (Bool × σ) α := reduceCall (fun a b => if GoOrdered.lt a b then a else b) none next

/-- Go's operator == on a comparable type: symmetric and transitive, but NaN is not equal to itself. -/
class GoComparable (α : Type) where
  eq : α → α → Bool
  symm : ∀ a b, eq a b = true → eq b a = true
  trans : ∀ a b c, eq a b = true → eq b c = true → eq a c = true

/-- stream/stream.go:756-769 `Distinct`: the captured map, as the function that tells which keys are found in it. Go's map compares keys with ==: after
`vals[val] = true` the keys equal to val are found, so that a NaN is never found. -/
def distinctGoPred [GoComparable α] (seen : α → Bool) (v : α) : Bool × (α → Bool) :=
  (!seen v, if seen v then seen else fun w => if GoComparable.eq w v then true else seen w)

/-- stream/stream.go:776-790 `Duplicate`: the captured map, as the count found for a key. -/
def duplicateGoPred [GoComparable α] (vals : α → Nat) (v : α) : Bool × (α → Nat) :=
  let count := if vals v < 3 then vals v + 1 else vals v
  (decide (count = 2), if vals v < 3 then (fun w => if GoComparable.eq w v then count else vals w) else vals)

end Micro.Stream
