import Mathlib.Data.Rat.Defs
import Mathlib.Algebra.Order.Field.Rat
import Mathlib.Algebra.Order.Ring.Abs
/-
Specification of floating point numbers, independent of the model.
-/
namespace Micro.Conv

/-- A binary floating point format: precision in bits, smallest and largest exponent of the integer significand. -/
structure Fmt where
  prec : Nat
  emin : Int
  emax : Int

/-- IEEE 754 binary32. -/
def float32 : Fmt := ⟨24, -149, 104⟩
/-- IEEE 754 binary64. -/
def float64 : Fmt := ⟨53, -1074, 971⟩

/-- `q` is a finite number of the format: an integer of at most `prec` bits times a power of two. -/
def Fmt.Has (f : Fmt) (q : ℚ) : Prop :=
  ∃ m e : ℤ, q = m * (2 : ℚ) ^ e ∧ |m| < 2 ^ f.prec ∧ f.emin ≤ e ∧ e ≤ f.emax

/-- The largest finite number of the format. -/
def Fmt.max (f : Fmt) : ℚ := (2 ^ f.prec - 1) * (2 : ℚ) ^ f.emax

/-- The smallest positive number of the format. -/
def Fmt.smallest (f : Fmt) : ℚ := (2 : ℚ) ^ f.emin

/-- `r` is a number of the format, and no other one is closer to `q`. -/
def Fmt.Nearest (f : Fmt) (q r : ℚ) : Prop := f.Has r ∧ ∀ r', f.Has r' → |r - q| ≤ |r' - q|

/-- `q` can be written with `n` significant decimal digits. -/
def SigDigits (n : Nat) (q : ℚ) : Prop := ∃ m e : ℤ, q = m * (10 : ℚ) ^ e ∧ |m| < 10 ^ n

/-- `q` can be written with `n` significant bits. -/
def SigBits (n : Nat) (q : ℚ) : Prop := ∃ m e : ℤ, q = m * (2 : ℚ) ^ e ∧ |m| < 2 ^ n

/-- A binary fraction. -/
def Dyadic (q : ℚ) : Prop := ∃ m e : ℤ, q = m * (2 : ℚ) ^ e

end Micro.Conv
