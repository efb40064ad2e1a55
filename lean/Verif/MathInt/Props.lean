import Verif.MathInt.Lemmas
import Verif.Conv.Props
/-
Property theorems for math/math.go and math/range.go (C15 - C20).
-/
namespace Micro.MathInt
open Micro

/-! ### C15 -/

/-- C15. AddInt: nil exactly when the sum is a value of the type, which is then stored; the error
names the side on which the sum left the type. -/
theorem c15_addInt (k : Kind) (a b : Int) (hk : k.signed = true) (ha : k.InRange a)
    (hb : k.InRange b) :
    addInt k a b =
      if k.maxV < a + b then (k.wrap (a + b), some .overflow)
      else if a + b < k.minV then (k.wrap (a + b), some .underflow)
      else (a + b, none) := by
  cases k <;> simp [Kind.signed] at hk <;>
    simp [addInt, Kind.InRange, Kind.minV, Kind.maxV, Kind.wrap, Kind.signed, Kind.bits] at ha hb ⊢ <;>
    grind

example : addInt .int8 100 28 = (-128, some .overflow) ∧ addInt .int8 100 27 = (127, none) ∧
    addInt .int8 (-100) (-29) = (127, some .underflow) := by decide

/-- C15. AddUint. -/
theorem c15_addUint (k : Kind) (a b : Int) (hk : k.signed = false) (ha : k.InRange a)
    (hb : k.InRange b) :
    addUint k a b =
      if k.maxV < a + b then (k.wrap (a + b), some .overflow) else (a + b, none) := by
  cases k <;> simp [Kind.signed] at hk <;>
    simp [addUint, Kind.InRange, Kind.minV, Kind.maxV, Kind.wrap, Kind.signed, Kind.bits] at ha hb ⊢ <;>
    grind

example : addUint .uint8 200 56 = (0, some .overflow) ∧ addUint .uint8 200 55 = (255, none) := by decide

/-- C15. SubUint. -/
theorem c15_subUint (k : Kind) (a b : Int) (hk : k.signed = false) (ha : k.InRange a)
    (hb : k.InRange b) :
    subUint k a b = if a < b then (k.wrap (a - b), some .underflow) else (a - b, none) := by
  cases k <;> simp [Kind.signed] at hk <;>
    simp [subUint, Kind.InRange, Kind.minV, Kind.maxV, Kind.wrap, Kind.signed, Kind.bits] at ha hb ⊢ <;>
    grind

example : subUint .uint8 3 5 = (254, some .underflow) ∧ subUint .uint8 5 3 = (2, none) := by decide

/-! ### C16 -/

/-- C16 is false of the code: with `*sed` the minimum of the type, SubInt reports success with a
wrong result for a non-negative minuend, and an underflow for a representable difference. -/
theorem c16_subInt_refuted :
    (∃ me sed : Int, Kind.int8.InRange me ∧ Kind.int8.InRange sed ∧ ¬ Kind.int8.InRange (me - sed) ∧
      (subInt .int8 me sed).2 = none) ∧
    (∃ me sed : Int, Kind.int8.InRange me ∧ Kind.int8.InRange sed ∧ Kind.int8.InRange (me - sed) ∧
      (subInt .int8 me sed).2 = some .underflow) :=
  ⟨⟨0, -128, by decide⟩, ⟨-1, -128, by decide⟩⟩

/-- C16 (partial): SubInt is exact for every subtrahend except the minimum of the type. Missing:
`sed = min`, where the code is wrong. -/
theorem c16_subInt_partial (k : Kind) (a b : Int) (hk : k.signed = true) (ha : k.InRange a)
    (hb : k.InRange b) (hmin : b ≠ k.minV) :
    subInt k a b =
      if k.maxV < a - b then (k.wrap (a - b), some .overflow)
      else if a - b < k.minV then (k.wrap (a - b), some .underflow)
      else (a - b, none) := by
  cases k <;> simp [Kind.signed] at hk <;>
    simp [subInt, addInt, Kind.InRange, Kind.minV, Kind.maxV, Kind.wrap, Kind.signed, Kind.bits]
      at ha hb hmin ⊢ <;>
    grind

example : Kind.int8.InRange (-127) ∧ (-127 : Int) ≠ Kind.int8.minV ∧
    subInt .int8 100 (-28) = (-128, some .overflow) ∧ subInt .int8 100 (-27) = (127, none) := by decide

/-- C16: the exact behaviour at the excluded point. -/
theorem c16_subInt_at_min (k : Kind) (a : Int) (hk : k.signed = true) (ha : k.InRange a) :
    subInt k a k.minV =
      if a < 0 then (a - k.minV, some .underflow) else (a + k.minV, none) := by
  cases k <;> simp [Kind.signed] at hk <;>
    simp [subInt, addInt, Kind.InRange, Kind.minV, Kind.maxV, Kind.wrap, Kind.signed, Kind.bits]
      at ha ⊢ <;>
    grind

example := c16_subInt_at_min .int8 (-3) rfl (by decide)

/-! ### C17 -/

/-- C17. Mul: nil exactly when the product is a value of the type, which is then stored; otherwise
the target is unchanged and the error tells the sign of the product. -/
theorem c17_mul (k : Kind) (a b : Int) (ha : k.InRange a) (hb : k.InRange b) :
    mul k a b =
      if k.InRange (a * b) then (a * b, none)
      else (b, some (if 0 ≤ a * b then .overflow else .underflow)) := by
  unfold mul
  rw [Conv.c21_to_bigInt k a ha, Conv.c21_to_bigInt k b hb]
  simp only [Conv.c21_bigInt_exact]
  by_cases h : k.InRange (a * b) <;> simp [h]

example := c17_mul .int8 (-3) 50 (by decide) (by decide)

/-- C17. The error agrees with the side on which the product left the type. -/
theorem c17_mul_side (k : Kind) (a b : Int) (ha : k.InRange a) (hb : k.InRange b) :
    ((mul k a b).2 = some .overflow ↔ k.maxV < a * b) ∧
    ((mul k a b).2 = some .underflow ↔ a * b < k.minV) := by
  rw [c17_mul k a b ha hb]
  have h0 : k.minV ≤ 0 ∧ 0 ≤ k.maxV := by cases k <;> decide
  by_cases h : k.InRange (a * b)
  · simp only [h, if_true]
    unfold Kind.InRange at h
    constructor <;> constructor <;> intro h' <;> first | (simp at h') | omega
  · simp only [h, if_false]
    unfold Kind.InRange at h
    generalize a * b = p at *
    by_cases hp : 0 ≤ p <;> simp [hp] <;> omega

example : Kind.int8.InRange 16 ∧ Kind.int8.InRange (-8) ∧ mul .int8 16 (-8) = (-128, none) ∧
    mul .int8 16 8 = (8, some .overflow) ∧ mul .uint64 (2 ^ 32) (2 ^ 32) = (2 ^ 32, some .overflow) := by
  decide

/-! ### C18 -/

/-- C18. Division by zero is an error and leaves the quotient alone, for every integer type. -/
theorem c18_div_by_zero (k : Kind) (n cur : Int) :
    div k n 0 cur = (cur, some .divByZero) ∧ divBig n 0 cur = (cur, some .divByZero) := by
  simp [div, divBig]

/-- C18. Unsigned division is correctly rounded. -/
theorem c18_div_unsigned (k : Kind) (n d cur : Int) (hk : k.signed = false) (hn : k.InRange n)
    (hd : k.InRange d) (h0 : d ≠ 0) :
    ∃ q, div k n d cur = (q, none) ∧ RoundsTo n d q := by
  have hn64 : Kind.uint64.InRange n := by cases k <;> simp [Kind.signed] at hk <;> kind_norm <;> omega
  have hd64 : Kind.uint64.InRange d := by cases k <;> simp [Kind.signed] at hk <;> kind_norm <;> omega
  refine ⟨roundCore n d, ?_, roundCore_ok n d h0 ?_⟩
  · unfold div
    rw [if_neg h0, hk, Kind.wrap_of_inRange hn64, Kind.wrap_of_inRange hd64,
      divUInt_core n d hn64 hd64 h0]
    simp only [Bool.false_eq_true, if_false, Prod.mk.injEq, and_true]
    apply Kind.wrap_of_inRange
    obtain ⟨s1, s2, s3, s4, s5⟩ := tdiv_size n d
    have hb : k.minV = 0 ∧ 1 ≤ k.maxV := by cases k <;> simp [Kind.signed] at hk <;> decide
    unfold Kind.InRange at hn hd
    have hq0 : 0 ≤ n.tdiv d := Int.tdiv_nonneg (by omega) (by omega)
    unfold roundCore Kind.InRange
    generalize n.tmod d = r at *
    generalize n.tdiv d = q at *
    simp only [if_pos hq0]
    by_cases hc : d.natAbs = 1
    · have := s5 hc
      rw [if_neg (by omega)]; omega
    · have := s2 hc h0
      split <;> omega
  · unfold Kind.InRange at *
    have hb : k.minV = 0 := by cases k <;> simp [Kind.signed] at hk <;> decide
    omega

example : ∃ n d : Int, Kind.uint8.InRange n ∧ Kind.uint8.InRange d ∧ d ≠ 0 ∧
    div .uint8 n d 0 = (3, none) ∧ n = 5 ∧ d = 2 := ⟨5, 2, by decide⟩

/-- C18 is false of the code for signed types: a negative quotient that rounds to -1 from a
truncated quotient of zero is stored as +1. -/
theorem c18_div_signed_refuted :
    ∃ n d q : Int, Kind.int8.InRange n ∧ Kind.int8.InRange d ∧ d ≠ 0 ∧
      div .int8 n d 0 = (q, none) ∧ ¬ RoundsTo n d q :=
  ⟨-1, 2, 1, by decide, by decide, by decide, by decide, by unfold RoundsTo; decide⟩

/-- C18 is also violated by the one overflowing quotient: min / -1 is stored as min without error. -/
theorem c18_div_overflow_refuted (k : Kind) (hk : k.signed = true) (cur : Int) :
    div k k.minV (-1) cur = (k.minV, none) := by
  cases k <;> simp [Kind.signed] at hk <;> rfl

/-- The inputs on which signed integer division goes wrong: the quotient is strictly between -1 and
0, at or beyond the midpoint. -/
def WrongSide (n d : Int) : Prop :=
  ((n < 0 ∧ 0 < d) ∨ (0 < n ∧ d < 0)) ∧ n.natAbs < d.natAbs ∧ d.natAbs ≤ 2 * n.natAbs

/-- C18 (partial): signed division is correctly rounded except on `WrongSide` inputs and for
min / -1. Missing: those two cases, where the code is wrong (`c18_div_signed_wrong`). -/
theorem c18_div_signed_partial (k : Kind) (n d cur : Int) (hk : k.signed = true) (hn : k.InRange n)
    (hd : k.InRange d) (h0 : d ≠ 0) (hw : ¬ WrongSide n d) (ho : ¬ (n = k.minV ∧ d = -1)) :
    ∃ q, div k n d cur = (q, none) ∧ RoundsTo n d q := by
  have hn64 : Kind.int64.InRange n := by cases k <;> simp [Kind.signed] at hk <;> kind_norm <;> omega
  have hd64 : Kind.int64.InRange d := by cases k <;> simp [Kind.signed] at hk <;> kind_norm <;> omega
  have ho64 : ¬ (n = -9223372036854775808 ∧ d = -1) := by
    rintro ⟨rfl, rfl⟩
    apply ho
    revert hn; cases k <;> simp [Kind.signed] at hk <;> decide
  have hz : n.tdiv d = 0 → n.natAbs < d.natAbs := by
    intro h
    have := congrArg Int.natAbs h
    rw [Int.natAbs_tdiv] at this
    have hdp : 0 < d.natAbs := by omega
    exact (Nat.div_eq_zero_iff_lt hdp).mp this
  refine ⟨roundCore n d, ?_, roundCore_ok n d h0 ?_⟩
  · unfold div
    rw [if_neg h0, hk, Kind.wrap_of_inRange hn64, Kind.wrap_of_inRange hd64,
      divSInt_core n d hn64 hd64 h0 ho64]
    simp only [if_true, Prod.mk.injEq, and_true]
    apply Kind.wrap_of_inRange
    obtain ⟨s1, s2, s3, s4, s5⟩ := tdiv_size n d
    have hb : k.minV = -k.maxV - 1 ∧ 2 ≤ k.maxV := by cases k <;> simp [Kind.signed] at hk <;> decide
    unfold Kind.InRange at hn hd
    unfold roundCore Kind.InRange
    generalize n.tmod d = r at *
    generalize n.tdiv d = q at *
    by_cases hc : d.natAbs = 1
    · have := s5 hc
      simp only []
      rw [if_neg (by omega)]
      have : d = 1 ∨ d = -1 := by omega
      rcases this with rfl | rfl
      · rw [s3 rfl]; omega
      · rw [s4 rfl]; omega
    · have := s2 hc h0
      clear s2 s3 s4 s5 hz ho ho64 hw
      simp only []
      split
      · split <;> omega
      · omega
  · rintro ⟨a, b, c⟩
    exact hw ⟨b, hz a, c⟩

example : Kind.int32.InRange (-18) ∧ Kind.int32.InRange 4 ∧ ¬ WrongSide (-18) 4 ∧
    div .int32 (-18) 4 0 = (-5, none) := by
  refine ⟨by decide, by decide, by unfold WrongSide; decide, by decide⟩

/-- C18: on every `WrongSide` input the code stores +1 although the correctly rounded quotient is -1. -/
theorem c18_div_signed_wrong (k : Kind) (n d cur : Int) (hk : k.signed = true) (hn : k.InRange n)
    (hd : k.InRange d) (hw : WrongSide n d) :
    div k n d cur = (1, none) ∧ RoundsTo n d (-1) ∧ ¬ RoundsTo n d 1 := by
  have h0 : d ≠ 0 := by unfold WrongSide at hw; omega
  have hn64 : Kind.int64.InRange n := by cases k <;> simp [Kind.signed] at hk <;> kind_norm <;> omega
  have hd64 : Kind.int64.InRange d := by cases k <;> simp [Kind.signed] at hk <;> kind_norm <;> omega
  obtain ⟨hw1, hw2, hw3⟩ := hw
  have hz : n.tdiv d = 0 := by
    have : (n.tdiv d).natAbs = 0 := by rw [Int.natAbs_tdiv]; exact Nat.div_eq_of_lt hw2
    omega
  have hb := roundCore_bad n d h0 ⟨hz, hw1, hw3⟩
  refine ⟨?_, hb.2, fun h => ?_⟩
  · unfold div
    rw [if_neg h0, hk, Kind.wrap_of_inRange hn64, Kind.wrap_of_inRange hd64,
      divSInt_core n d hn64 hd64 h0 (by omega), hb.1]
    cases k <;> simp [Kind.signed] at hk <;> rfl
  · have := h.unique h0 hb.2; omega

example : WrongSide (-2) 3 ∧ WrongSide 3 (-6) := by unfold WrongSide; decide

/-- C18 for *big.Int (partial): same rounding, same exception, no overflow. -/
theorem c18_divBig_partial (n d cur : Int) (h0 : d ≠ 0) (hw : ¬ WrongSide n d) :
    ∃ q, divBig n d cur = (q, none) ∧ RoundsTo n d q := by
  have hz : n.tdiv d = 0 → n.natAbs < d.natAbs := by
    intro h
    have := congrArg Int.natAbs h
    rw [Int.natAbs_tdiv] at this
    have hdp : 0 < d.natAbs := by omega
    exact (Nat.div_eq_zero_iff_lt hdp).mp this
  refine ⟨roundCore n d, ?_, roundCore_ok n d h0 (fun ⟨a, b, c⟩ => hw ⟨b, hz a, c⟩)⟩
  unfold divBig roundCore
  rw [if_neg h0]
  simp only
  by_cases hc : (d % 2 = 0 ∧ (n.tmod d).natAbs ≥ d.natAbs / 2) ∨ (d % 2 = 1 ∧ (n.tmod d).natAbs > d.natAbs / 2)
  · rw [if_pos hc, if_pos (by omega)]; split <;> rfl
  · rw [if_neg hc, if_neg (by omega)]

example : ¬ WrongSide (10 ^ 30 + 5) (10 ^ 29) ∧ divBig (10 ^ 30 + 5) (10 ^ 29) 0 = (10, none) := by
  unfold WrongSide; decide

/-- C18 for *big.Int: on every `WrongSide` input the code stores +1 although the correctly rounded quotient is -1. -/
theorem c18_divBig_wrong (n d cur : Int) (hw : WrongSide n d) :
    divBig n d cur = (1, none) ∧ RoundsTo n d (-1) ∧ ¬ RoundsTo n d 1 := by
  have h0 : d ≠ 0 := by unfold WrongSide at hw; omega
  obtain ⟨hw1, hw2, hw3⟩ := hw
  have hz : n.tdiv d = 0 := by
    have : (n.tdiv d).natAbs = 0 := by rw [Int.natAbs_tdiv]; exact Nat.div_eq_of_lt hw2
    omega
  have hm : (n.tmod d).natAbs = n.natAbs := by
    rw [Int.natAbs_tmod]; exact Nat.mod_eq_of_lt hw2
  have hb := roundCore_bad n d h0 ⟨hz, hw1, hw3⟩
  refine ⟨?_, hb.2, fun h => ?_⟩
  · unfold divBig
    rw [if_neg h0]
    simp only [hz, hm]
    rw [if_pos (by omega), if_pos (by omega)]
    rfl
  · have := h.unique h0 hb.2; omega

example : WrongSide (-(10 ^ 29)) (10 ^ 29 + 1) := by unfold WrongSide; decide

/-! ### C19 -/

/-- C19. Abs stores |v| and returns nil, except for the minimum of a signed type (an error, value
unchanged); unsigned values never change. -/
theorem c19_abs (k : Kind) (v : Int) (h : k.InRange v) :
    abs k v = if k.signed = true ∧ v = k.minV then (v, some .abs) else ((v.natAbs : Int), none) := by
  cases k <;>
    simp [abs, Kind.InRange, Kind.minV, Kind.maxV, Kind.wrap, Kind.signed, Kind.bits] at h ⊢ <;> grind

example : abs .int8 (-128) = (-128, some .abs) ∧ abs .int8 (-127) = (127, none) := by decide

end Micro.MathInt
