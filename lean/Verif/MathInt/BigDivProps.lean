import Verif.MathInt.BigDivModel
import Verif.MathInt.Props
/-
C98: division of big numbers in place.
-/
namespace Micro.MathInt

/-- C98, partial: if the quotient is stored anywhere but in the divisor (in particular also into the dividend), it is the dividend divided
by the divisor, rounded half away from zero, outside the inputs on which C18 fails; nothing else changes. -/
theorem c98_int_partial (m : BigMem) (de dv q : Nat) (h0 : m dv ≠ 0) (hq : q ≠ dv) (hw : ¬ WrongSide (m de) (m dv)) :
    ∃ m' v, divBigMem m de dv q = (m', none) ∧ m' q = v ∧ RoundsTo (m de) (m dv) v ∧ ∀ a, a ≠ q → m' a = m a := by
  obtain ⟨v, hv, hr⟩ := c18_divBig_partial (m de) (m dv) 0 h0 hw
  unfold divBig at hv
  rw [if_neg h0] at hv
  simp only at hv
  unfold divBigMem
  rw [if_neg h0]
  have hdv : Function.update m q ((m de).tdiv (m dv)) dv = m dv := Function.update_of_ne (Ne.symm hq) _ _
  simp only [hdv, Function.update_self]
  have hfr : ∀ x a, a ≠ q → Function.update (Function.update m q ((m de).tdiv (m dv))) q x a = m a := by
    intro x a ha; rw [Function.update_of_ne ha, Function.update_of_ne ha]
  split at hv
  · rename_i hc
    rw [if_pos hc]
    split at hv
    · rename_i hs
      rw [if_pos hs]
      cases hv
      exact ⟨_, _, rfl, by simp, hr, hfr _⟩
    · rename_i hs
      rw [if_neg hs]
      cases hv
      exact ⟨_, _, rfl, by simp, hr, hfr _⟩
  · rename_i hc
    rw [if_neg hc]
    cases hv
    exact ⟨_, _, rfl, by simp, hr, fun a ha => Function.update_of_ne ha _ _⟩

/-- Memory with 7 at address 0 and 2 at address 1. -/
def sevenTwo : BigMem := fun a => if a = 0 then 7 else 2

example : ∃ m' v, divBigMem sevenTwo 0 1 0 = (m', none) ∧ m' 0 = v ∧ RoundsTo 7 2 v ∧ ∀ a, a ≠ 0 → m' a = sevenTwo a :=
  c98_int_partial sevenTwo 0 1 0 (by decide) (by decide) (by unfold WrongSide; decide)

/-- C98 fails when the quotient is stored in the divisor: 7/2 becomes 3, while it is 4 (3.5 rounded) when stored elsewhere. -/
theorem c98_inplace_refuted : (divBigMem sevenTwo 0 1 1).2 = none ∧ (divBigMem sevenTwo 0 1 1).1 1 = 3 ∧ ¬ RoundsTo 7 2 3 ∧
    (divBigMem sevenTwo 0 1 5).1 5 = 4 ∧ RoundsTo 7 2 4 := by
  refine ⟨by decide, by decide, ?_, by decide, ?_⟩ <;> unfold RoundsTo <;> decide

/-- C98: a zero divisor is an error that changes nothing, for *big.Int and *big.Rat. -/
theorem c98_zero (m : BigMem) (r : Nat → ℚ) (de dv q : Nat) :
    (m dv = 0 → divBigMem m de dv q = (m, some .divByZero)) ∧ (r dv = 0 → divRatMem r de dv q = (r, some .divByZero)) := by
  constructor <;> intro h
  · unfold divBigMem; rw [if_pos h]
  · unfold divRatMem; rw [if_pos h]

/-- C98: *big.Rat division is exact, wherever the quotient is stored. -/
theorem c98_rat (m : Nat → ℚ) (de dv q : Nat) (h : m dv ≠ 0) :
    ∃ m', divRatMem m de dv q = (m', none) ∧ m' q * m dv = m de ∧ ∀ a, a ≠ q → m' a = m a := by
  unfold divRatMem
  rw [if_neg h]
  exact ⟨_, rfl, by rw [Function.update_self, div_mul_cancel₀ _ h], fun a ha => Function.update_of_ne ha _ _⟩

example : (fun _ : Nat => (2 : ℚ)) 1 ≠ 0 := by decide

end Micro.MathInt
