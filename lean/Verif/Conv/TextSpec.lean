import Verif.Conv.FloatSpec
import Verif.Conv.Spec
import Verif.Digits
import Mathlib.Data.Rat.Defs
/-
Specification vocabulary: what numbers texts denote.
-/
namespace Micro.Conv
open Micro

/-- `s` is the decimal number `q`: optional sign, digits, optionally a point and more digits, at least one digit. -/
def Decimal (s : List Char) (q : ℚ) : Prop :=
  ∃ sign ip fp : List Char, (∀ c ∈ ip ++ fp, isDigit c = true) ∧ ip ++ fp ≠ [] ∧ (sign = [] ∨ sign = ['+'] ∨ sign = ['-']) ∧
    (s = sign ++ ip ++ '.' :: fp ∨ (fp = [] ∧ s = sign ++ ip)) ∧
    q = (if sign = ['-'] then -1 else 1) * (digitsVal (ip ++ fp) : ℚ) / 10 ^ fp.length

/-- `s` is the exponent `e` of a number: nothing, or the letter e or E and an integer. -/
def Exponent (s : List Char) (e : Int) : Prop :=
  (s = [] ∧ e = 0) ∨ ∃ c r, (c = 'e' ∨ c = 'E') ∧ s = c :: r ∧ Spells true r e

/-- `s` is the number m·10^(e-n): optional sign, digits, optionally a point and `n` more digits, at least one digit, and optionally an
exponent `e`. -/
def Scientific (s : List Char) (m e : Int) (n : Nat) : Prop :=
  ∃ sign ip fp ex : List Char, (∀ c ∈ ip ++ fp, isDigit c = true) ∧ ip ++ fp ≠ [] ∧ (sign = [] ∨ sign = ['+'] ∨ sign = ['-']) ∧
    (s = sign ++ ip ++ '.' :: fp ++ ex ∨ (fp = [] ∧ s = sign ++ ip ++ ex)) ∧ Exponent ex e ∧ fp.length = n ∧
    m = (if sign = ['-'] then -1 else 1) * (digitsVal (ip ++ fp) : Int)

/-- `s` is the number `q`: a decimal number, or one with an exponent whose power of ten lies between 10^-50 and 10^50. -/
def Number (s : List Char) (q : ℚ) : Prop :=
  Decimal s q ∨ ∃ (m e : Int) (n : Nat), Scientific s m e n ∧ Kind.int64.InRange e ∧ (e - n).natAbs ≤ 50 ∧ q = (m : ℚ) * 10 ^ (e - n)

end Micro.Conv
