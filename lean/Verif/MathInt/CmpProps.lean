import Verif.MathInt.Model
import Mathlib.Order.MinMax
/-
C82: comparison, minimum and maximum.
-/
namespace Micro.MathInt

/-- C82, partial: for the values of a linearly ordered type (integers, strings, floats without NaN) CmpOrdered is -1, 0 or 1 exactly as
the first value is less than, equal to or greater than the second, and MinOrdered/MaxOrdered are minimum and maximum. -/
theorem c82_ordered_partial {α : Type} [LinearOrder α] (a b : α) :
    (cmpOrdered a b = -1 ↔ a < b) ∧ (cmpOrdered a b = 0 ↔ a = b) ∧ (cmpOrdered a b = 1 ↔ b < a) ∧
    minOrdered a b = min a b ∧ maxOrdered a b = max a b := by
  rcases lt_trichotomy a b with h | rfl | h
  · simp [cmpOrdered, minOrdered, maxOrdered, h, h.ne, h.le, not_lt.2 h.le]
  · simp [cmpOrdered, minOrdered, maxOrdered]
  · simp [cmpOrdered, minOrdered, maxOrdered, h, h.ne', h.le, not_lt.2 h.le]

example : cmpOrdered (-3 : Int) 4 = -1 ∧ minOrdered (-3 : Int) 4 = -3 ∧ maxOrdered (-3 : Int) 4 = 4 := by decide

/-- Floats: NaN or an integer number (enough for the witness); NaN is not less than anything nor anything less than it. -/
inductive NF where
  | nan
  | num (i : Int)
  deriving DecidableEq

instance : LT NF where
  lt
    | .num a, .num b => a < b
    | _, _ => False

instance : DecidableLT NF := fun a b => by
  match a, b with
  | .num a, .num b => exact inferInstanceAs (Decidable (a < b))
  | .nan, _ => exact isFalse id
  | .num _, .nan => exact isFalse id

/-- C82 fails for NaN: CmpOrdered(NaN, 1) is 0 although they differ, and MinOrdered depends on the order of its arguments. -/
theorem c82_nan_refuted : cmpOrdered NF.nan (.num 1) = 0 ∧ NF.nan ≠ .num 1 ∧
    minOrdered NF.nan (.num 1) = .nan ∧ minOrdered (.num 1) NF.nan = .num 1 := by decide

/-- C82: CmpComplex compares absolute values; MinComplex/MaxComplex give the argument with the smaller/larger one, the first if
these are equal. -/
theorem c82_complex {α γ : Type} [LinearOrder α] (abs : γ → α) (a b : γ) :
    (cmpComplex abs a b = -1 ↔ abs a < abs b) ∧ (cmpComplex abs a b = 0 ↔ abs a = abs b) ∧
    (cmpComplex abs a b = 1 ↔ abs b < abs a) ∧
    (abs b < abs a → minComplex abs a b = b) ∧ (abs a ≤ abs b → minComplex abs a b = a) ∧
    (abs a < abs b → maxComplex abs a b = b) ∧ (abs b ≤ abs a → maxComplex abs a b = a) := by
  rcases lt_trichotomy (abs a) (abs b) with h | h | h
  · simp [cmpComplex, minComplex, maxComplex, h, h.ne, h.le, not_lt.2 h.le, not_le.2 h]
  · simp [cmpComplex, minComplex, maxComplex, h]
  · simp [cmpComplex, minComplex, maxComplex, h, h.ne', h.le, not_lt.2 h.le, not_le.2 h]

/-- C82: if Cmp orders its type by some rank (which may be equal for distinct values), MinCmp and MaxCmp give an argument of least
and greatest rank, the first one if the ranks are equal. -/
theorem c82_cmp {α γ : Type} [LinearOrder α] (rank : γ → α) (cmp : γ → γ → Int)
    (hc : ∀ a b, (cmp a b < 0 ↔ rank a < rank b) ∧ (0 < cmp a b ↔ rank b < rank a)) (a b : γ) :
    (rank (minCmp cmp a b) = min (rank a) (rank b)) ∧ (rank (maxCmp cmp a b) = max (rank a) (rank b)) ∧
    (rank a = rank b → minCmp cmp a b = a ∧ maxCmp cmp a b = a) := by
  obtain ⟨h1, h2⟩ := hc a b
  unfold minCmp maxCmp
  rcases lt_trichotomy (rank a) (rank b) with h | h | h
  · simp [gt_iff_lt, h1, h2, h, not_lt.2 h.le, h.le, h.ne]
  · simp [gt_iff_lt, h1, h2, h]
  · simp [gt_iff_lt, h1, h2, h, not_lt.2 h.le, h.le, h.ne']

example : ∀ a b : Int, (a - b < 0 ↔ a < b) ∧ (0 < a - b ↔ b < a) := by intro a b; omega

end Micro.MathInt
