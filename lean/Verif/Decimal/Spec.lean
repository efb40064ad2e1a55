import Verif.Decimal.Model
import Mathlib.Data.Rat.Defs
import Mathlib.Algebra.Order.Field.Rat
import Mathlib.Algebra.Order.Field.Basic
import Mathlib.Tactic.Positivity
import Mathlib.Tactic.FieldSimp
import Mathlib.Tactic.Ring
import Mathlib.Tactic.Linarith
import Mathlib.Tactic.NormNum
/-
Specification vocabulary for Decimal: the rational number a Decimal denotes.
-/
namespace Micro.Dec
open Micro

/-- The number denoted by a Decimal: value / 10^scale. -/
def Decimal.num (d : Decimal) : ℚ := (d.value : ℚ) / 10 ^ d.scale

/-- At most 18 significant digits. -/
def Fits (v : Int) : Prop := -999999999999999999 ≤ v ∧ v ≤ 999999999999999999

/-- A Decimal as documented: at most 18 digits and at most 18 of them after the point. -/
def Decimal.Valid (d : Decimal) : Prop := Fits d.value ∧ d.scale ≤ 18

/-- Canonical form: no superfluous zeros at the end of the fraction. -/
def Decimal.Canonical (d : Decimal) : Prop := d.scale = 0 ∨ ¬ (10 : Int) ∣ d.value

/-- One unit in the last place of a number with `s` digits after the point. -/
def ulp (s : Nat) : ℚ := 1 / 10 ^ s

/-- Rounding half away from zero of v / 10^k to an integer. -/
def roundHalfAway (v : Int) (k : Nat) : Int :=
  if v < 0 then -((2 * v.natAbs + 10 ^ k) / (2 * 10 ^ k) : Nat) else ((2 * v.natAbs + 10 ^ k) / (2 * 10 ^ k) : Nat)

/-- A well formed decimal string: optional minus, digits, optionally a point and more digits, with at
least one digit. -/
structure DecString (s : List Char) (neg : Bool) (int frac : List Char) : Prop where
  eq : ∃ dot : List Char, (dot = ['.'] ∨ (dot = [] ∧ frac = [])) ∧
    s = (if neg then ['-'] else []) ++ int ++ dot ++ frac
  intDigits : ∀ c ∈ int, isDigit c = true
  fracDigits : ∀ c ∈ frac, isDigit c = true
  some : int ++ frac ≠ []

instance (v : Int) : Decidable (Fits v) := by unfold Fits; infer_instance
instance (d : Decimal) : Decidable d.Valid := by unfold Decimal.Valid; infer_instance
instance (d : Decimal) : Decidable d.Canonical := by unfold Decimal.Canonical; infer_instance

/-- Number of decimal digits of |v| ("0" has one). -/
def numDigits (v : Int) : Nat := (natChars v.natAbs).length

/-- The operand with fewer fractional digits has room, within 18 digits, for the zeros needed to bring
it to the scale of the other one. -/
def Room (d o : Decimal) : Prop :=
  numDigits (if d.scale ≤ o.scale then d.value else o.value) + (max d.scale o.scale - min d.scale o.scale) ≤ 18

/-- The value of d written with m fractional digits. -/
def Decimal.at (d : Decimal) (m : Nat) : Int := d.value * 10 ^ (m - d.scale)

/-- x can be written with m digits after the point and at most 18 digits in all. -/
def FitsAt (x : ℚ) (m : Nat) : Prop := ∃ v : Int, Fits v ∧ x = v / 10 ^ m

/-- r is x rounded to the nearest integer, halves away from zero. -/
def IsRoundHalfAway (x : ℚ) (r : Int) : Prop :=
  |x - r| ≤ 1 / 2 ∧ (|x - r| = 1 / 2 → |x| < |(r : ℚ)|)

end Micro.Dec
