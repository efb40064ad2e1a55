import Verif.Conv.NilModel
import Verif.Conv.ToSpec
import Verif.Conv.TextProps
import Verif.Json.Props
set_option linter.unusedSimpArgs false
/-
C122: converting a nil *big.Int, *big.Float or *big.Rat.
-/
namespace Micro.Conv
open Micro

/-- The text "<nil>" is not a number. -/
theorem parse_nil (lib : TextLib) : parseFloatText lib "<nil>".toList = none := by
  have h : scanSci "<nil>".toList = none := by decide
  unfold parseFloatText
  rw [if_neg (by decide), if_neg (by decide), h]
  simp only
  rw [if_neg (by decide)]

theorem bigIntToBigFloatPtr_nil (lib : TextLib) : bigIntToBigFloatPtr lib none = none := by
  simp only [bigIntToBigFloatPtr, intString, stringToBigFloat, parse_nil]
  unfold besideError
  exact if_pos (by decide)

/-- C122, exactly: To of a nil big pointer into a variable of a numeric type either returns without an error and the variable is nil, which
happens for the pointer's own type and from *big.Int to *big.Float, or panics, which happens for all other types. It never makes up a
number. -/
theorem c122_numeric (lib : TextLib) (s : BigTy) (t : NTy) (c : Cell) :
    nilTo lib s t c = if t = s.ty ∨ (s = .int ∧ t = .bigFloat) then some ⟨none, false⟩ else none := by
  cases s <;> cases t <;> simp [nilTo, BigTy.ty, bigIntToFloatPtr, bigIntToBigFloatPtr_nil]

theorem formatInt_decimal (v : Int) : Decimal (formatInt v) v := by
  by_cases hv : v < 0
  · refine ⟨['-'], natChars v.natAbs, [], by simpa using natChars_digits v.natAbs, by simpa using natChars_ne_nil _, by simp, Or.inr ⟨rfl, by simp [formatInt, hv]⟩, ?_⟩
    have : (v.natAbs : ℤ) = -v := by omega
    simp only [List.append_nil, digitsVal_natChars, if_true, List.length_nil, pow_zero, div_one]
    have h2 : ((v.natAbs : ℕ) : ℚ) = -(v : ℚ) := by rw [← Int.cast_natCast, this]; push_cast; rfl
    rw [h2]; ring
  · refine ⟨[], natChars v.natAbs, [], by simpa using natChars_digits v.natAbs, by simpa using natChars_ne_nil _, by simp, Or.inr ⟨rfl, by simp [formatInt, hv]⟩, ?_⟩
    have : (v.natAbs : ℤ) = v := by omega
    have h2 : ((v.natAbs : ℕ) : ℚ) = (v : ℚ) := by rw [← Int.cast_natCast, this]
    simp [digitsVal_natChars, h2]

/-- C122: for pointers that are not nil the same code gives the number, and exactly what C81 says; for nil the conversion to a *big.Float gives nil and those to the float types panic. -/
theorem c122_pointer (lib : TextLib) (f : Fmt) (v : Int) :
    bigIntToBigFloatPtr lib (some v) = some (.fin v) ∧ bigIntToFloatPtr lib f (some v) = some (bigIntToFloat f v) ∧
    bigIntToBigFloatPtr lib none = none ∧ bigIntToFloatPtr lib f none = none := by
  have h0 : bigIntToBigFloatPtr lib (some v) = some (.fin (bigIntToBigFloat v)) := by
    simp only [bigIntToBigFloatPtr, intString, stringToBigFloat, parseFloatText_decimal lib (formatInt_decimal v)]; rfl
  refine ⟨by rw [h0, c79_bigInt], ?_, bigIntToBigFloatPtr_nil lib, by simp [bigIntToFloatPtr, bigIntToBigFloatPtr_nil]⟩
  rw [bigIntToFloatPtr, h0]; rfl

/-- C122 for numeric targets: if To of a nil big pointer returns, the target is a big type, and its variable is nil. Missing: string targets,
see `c122_refuted`; and that it returns, see `c122_numeric`. -/
theorem c122_numeric_partial (lib : TextLib) (s : BigTy) (t : NTy) (c : Cell) (r : Res Cell) (hc : t.Cell c) (h : nilTo lib s t c = some r) :
    r.target = none ∧ r.failed = false ∧ t.Cell r.target := by
  rw [c122_numeric] at h
  split at h
  · rename_i ht
    cases h
    refine ⟨rfl, rfl, Or.inr ⟨rfl, ?_⟩⟩
    rcases ht with rfl | ⟨-, rfl⟩
    · cases s <;> simp [BigTy.ty]
    · simp
  · cases h

example (lib : TextLib) : nilTo lib .int .bigFloat (some (.bigFloat (.fin 3))) = some ⟨none, false⟩ := by
  rw [c122_numeric]; rfl

/-- C122 is false for strings: a nil *big.Int becomes the text "<nil>" without an error, which is not a number any of the conversions from
text accepts. -/
theorem c122_refuted : nilToText .int = some "<nil>".toList ∧
    (∀ lib c, (stringToBigFloat lib "<nil>".toList c).failed = true) ∧ (∀ c, (stringToBigInt "<nil>".toList c).failed = true) ∧
    (∀ lib c, (stringToBigRat lib "<nil>".toList c).failed = true) := by
  refine ⟨rfl, fun lib c => ?_, fun c => by rw [stringToBigInt, show scanInt "<nil>".toList = none from by decide], fun lib c => ?_⟩
  · simp only [stringToBigFloat, parse_nil]
  · have h : scanSci "<nil>".toList = none := by decide
    have h2 : parseRatText lib "<nil>".toList = none := by
      unfold parseRatText
      rw [show ("<nil>".toList.dropWhile (· ≠ '/')) = [] from by decide]
      simp only
      rw [if_neg (by decide), h]
    simp only [stringToBigRat, h2]

/-- C122: To of a nil *big.Float or *big.Rat into a string panics. -/
theorem c122_text (s : BigTy) : nilToText s = if s = .int then some "<nil>".toList else none := by
  cases s <;> rfl

end Micro.Conv

namespace Micro.Json
open Micro Micro.Conv

/-- C122 is false for JSON: NumberToValue of a nil *big.Int is a number without an error; Write writes it as `<nil>`, and a document that holds it is refused by
the parser. ToValue of the same pointer is null. -/
theorem c122_json_refuted (fin : Iter.Err) :
    nilNumberToValue .int = some (.num "<nil>".toList) ∧ written (.arr [.num "<nil>".toList]) = "[<nil>]".toList ∧
    (∃ e, parse fin (written (.arr [.num "<nil>".toList])) = some (.error e)) ∧ toValue .nil = .ok .null := by
  have hw : written (.arr [.num "<nil>".toList]) = "[<nil>]".toList := by
    simp [written, writeChunks, writeElems]
  refine ⟨rfl, hw, ?_, by rw [toValue]⟩
  rw [hw]
  unfold parse
  rw [show lex fin "[<nil>]".toList = .ok (.oBracket, "<nil>]".toList) from rfl]
  simp only [reduceCtorEq, or_true, if_true]
  rw [parseValue, parseArrFirst]
  rw [show lex fin "<nil>]".toList = .error eInvalidChar from rfl]
  exact ⟨_, rfl⟩

end Micro.Json
