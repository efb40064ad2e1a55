import Verif.Funcs.BaseModel
/-
Model of math/range.go, for any element type with Go's comparison operators.
-/
namespace Micro.MathInt
open Micro Micro.Funcs

/-- math/range.go:29-35 `Range`, modes: `true` = Closed (math/range.go:14-19). -/
structure Range (α : Type) where
  min : α
  minClosed : Bool
  max : α
  maxClosed : Bool
  val : α
  deriving DecidableEq

variable {α : Type} [GoOrdered α]

/-- math/range.go:42-57 `OfRange`: panics if min >= max (the initial value is not examined). -/
def ofRange (min : α) (minClosed : Bool) (max : α) (maxClosed : Bool) (initial : α) : Out Unit (Range α) :=
  if GoOrdered.le max min || GoOrdered.le max min then .panic else .ok ⟨min, minClosed, max, maxClosed, initial⟩

/-- math/range.go:60-62 `GetMin`. -/
def Range.getMin (r : Range α) : α × Bool := (r.min, r.minClosed)
/-- math/range.go:65-67 `GetMax`. -/
def Range.getMax (r : Range α) : α × Bool := (r.max, r.maxClosed)
/-- math/range.go:70-72 `GetValue`. -/
def Range.getValue (r : Range α) : α := r.val

/-- math/range.go:77-96 `SetValue`: new state and whether an error was returned. -/
def Range.setValue (r : Range α) (v : α) : Range α × Bool :=
  if ((!r.minClosed && GoOrdered.lt r.min v) || (r.minClosed && GoOrdered.le r.min v)) &&
     ((!r.maxClosed && GoOrdered.lt v r.max) || (r.maxClosed && GoOrdered.le v r.max)) then
    ({ r with val := v }, false)
  else (r, true)

end Micro.MathInt
