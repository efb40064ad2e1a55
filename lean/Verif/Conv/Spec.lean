import Verif.Conv.Model
/-
Specification vocabulary for conv, independent of the parser model.
-/
namespace Micro.Conv
open Micro

/-- Specification: the string spells the integer `v` in decimal, with an optional sign when the
target type is signed. -/
def Spells (signed : Bool) (cs : List Char) (v : Int) : Prop :=
  ∃ ds : List Char, ds ≠ [] ∧ (∀ c ∈ ds, isDigit c = true) ∧
    ((cs = ds ∧ v = digitsVal ds) ∨
     (signed = true ∧ cs = '+' :: ds ∧ v = digitsVal ds) ∨
     (signed = true ∧ cs = '-' :: ds ∧ v = -(digitsVal ds : Int)))

end Micro.Conv
