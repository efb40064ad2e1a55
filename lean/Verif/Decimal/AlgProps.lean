import Verif.Decimal.MulProps
import Verif.Decimal.AddProps
import Mathlib.Algebra.BigOperators.Group.List.Basic
set_option linter.unusedSimpArgs false
/-
C123: the algebraic laws of Mul. C124: sums of more than two terms.
-/
namespace Micro.Dec
open Micro

/-! ### Specification -/

/-- The outcome of an operation seen from outside: the number returned, or the error. -/
def outNum : Out DErr Decimal → Out DErr ℚ
  | .ok r => .ok r.num
  | .err e => .err e
  | .panic => .panic

/-- The outcome mirrored at zero: the negated number, or the other one of the errors overflow and underflow. -/
def mirror : Out DErr ℚ → Out DErr ℚ
  | .ok x => .ok (-x)
  | .err .overflow => .err .underflow
  | .err .underflow => .err .overflow
  | .err e => .err e
  | .panic => .panic

/-! ### Mul -/

/-- The absolute value of the result of Mul. -/
def mulQ (a b rs : Nat) : Option ℚ :=
  (mulC a b rs).map (fun x => (mulScaleDown (x.2 - 18) x.1 : ℚ) / 10 ^ (min x.2 18))

theorem outNum_mul (d o : Decimal) (hd : d.Valid) (ho : o.Valid) :
    (mulQ d.value.natAbs o.value.natAbs (d.scale + o.scale) = none ∧ d.mul o = .err (mulErr d o)) ∨
    ∃ q, mulQ d.value.natAbs o.value.natAbs (d.scale + o.scale) = some q ∧ 0 ≤ q ∧ outNum (d.mul o) = .ok (mulSgn d o * q) := by
  obtain ⟨c, hc, hm, he⟩ := mul_core' d o hd ho
  cases c with
  | none =>
    left
    refine ⟨?_, by rw [he]; rfl⟩
    unfold mulQ
    rw [← hm]; rfl
  | some x =>
    right
    obtain ⟨n, s⟩ := x
    have hn := core_le hc
    obtain ⟨m, m1, m2, -⟩ := mulScaleDown_spec (s - 18) n (by omega)
    refine ⟨(m : ℚ) / 10 ^ (min s 18), ?_, by positivity, ?_⟩
    · unfold mulQ
      rw [← hm]
      simp only [Option.map_some, m1, Int.cast_natCast]
    · rw [he]
      simp only [mulFinish, outNum]
      rw [m1, w_id (x := -(m : Int)) (by omega) (by omega)]
      congr 1
      unfold mulSgn
      split
      · rw [applyNormalization_num _ (by simp only; omega) (by simp only; omega)]
        unfold Decimal.num; simp
      · rw [applyNormalization_num _ (by simp only; omega) (by simp only; omega)]
        unfold Decimal.num; simp; ring

theorem mulC_zero_left (b rs : Nat) : mulC 0 b rs = some (0, rs) := by
  unfold mulC mulR
  have : w (((0 : Nat) : Int) * (b : Int)) = 0 := by rw [w_id] <;> simp
  rw [if_neg (c := ((0 : Nat) : Int) ≠ 0) (fun h => h rfl), this]
  simp [mulRound19]

theorem mulC_comm (a b rs : Nat) (ha : a ≤ 999999999999999999) (hb : b ≤ 999999999999999999) : mulC a b rs = mulC b a rs := by
  have zr : ∀ a, mulC a 0 rs = some (0, rs) := by
    intro a
    by_cases h : a = 0
    · rw [h]; exact mulC_zero_left 0 rs
    · unfold mulC mulR
      have : w ((a : Int) * ((0 : Nat) : Int)) = 0 := by rw [w_id] <;> simp
      rw [if_pos (by omega), this]
      simp [mulRound19, maxValue]
  by_cases h0 : a = 0
  · rw [h0, mulC_zero_left, zr]
  by_cases h1 : b = 0
  · rw [h1, mulC_zero_left, zr]
  have i1 := mul_overflow_iff a b (by omega) ha hb
  have i2 := mul_overflow_iff b a (by omega) hb ha
  unfold mulC mulR
  rw [if_pos (show (a : Int) ≠ 0 by omega), if_pos (show (b : Int) ≠ 0 by omega), mul_comm (b : Int) a]
  rw [mul_comm (b : Int) a, Nat.mul_comm b a, ← i1] at i2
  have hbig : mulBig (b : Int) a rs = mulBig a b rs := by unfold mulBig; rw [mul_comm (b : Int) a]
  rw [hbig]
  by_cases h : (w ((a : Int) * b)).tdiv a = b
  · rw [if_pos h, if_pos (i2.mpr h)]
  · rw [if_neg h, if_neg (fun h' => h (i2.mp h'))]

/-- C123. Mul is commutative: both orders return the same number, or the same error. -/
theorem c123_comm (d o : Decimal) (hd : d.Valid) (ho : o.Valid) : outNum (d.mul o) = outNum (o.mul d) := by
  have ha : d.value.natAbs ≤ 999999999999999999 := by have := hd.1; unfold Fits at this; omega
  have hb : o.value.natAbs ≤ 999999999999999999 := by have := ho.1; unfold Fits at this; omega
  have hq : mulQ d.value.natAbs o.value.natAbs (d.scale + o.scale) = mulQ o.value.natAbs d.value.natAbs (o.scale + d.scale) := by
    unfold mulQ; rw [mulC_comm _ _ _ ha hb, Nat.add_comm]
  have hs : mulSgn d o = mulSgn o d := by unfold mulSgn; simp only [eq_comm]
  have he : mulErr d o = mulErr o d := by unfold mulErr; simp only [eq_comm]
  rcases outNum_mul d o hd ho with ⟨h1, h2⟩ | ⟨q, h1, -, h2⟩ <;> rcases outNum_mul o d ho hd with ⟨g1, g2⟩ | ⟨q', g1, -, g2⟩
  · rw [h2, g2, he]
  · rw [hq, g1] at h1; cases h1
  · rw [hq, g1] at h1; cases h1
  · rw [hq, g1] at h1; cases h1; rw [h2, g2, hs]

example := c123_comm ⟨15, 1, false⟩ ⟨-999999999999999999, 3, false⟩ (by decide) (by decide)

theorem mulErr_cases (d o : Decimal) : mulErr d o = .overflow ∨ mulErr d o = .underflow := by
  unfold mulErr; split <;> simp

theorem mulQ_zero_left (b rs : Nat) : mulQ 0 b rs = some 0 := by
  unfold mulQ; rw [mulC_zero_left]
  simp only [Option.map_some]
  have : ∀ k, mulScaleDown k 0 = 0 := by
    intro k
    induction k with
    | zero => rfl
    | succ k ih => rw [mulScaleDown]; simpa using ih
  rw [this]; simp

theorem num_zero_iff (d : Decimal) : d.num = 0 ↔ d.value = 0 := by
  unfold Decimal.num
  rw [div_eq_zero_iff]
  constructor
  · rintro (h | h)
    · exact_mod_cast h
    · exact absurd h (by positivity)
  · intro h; left; exact_mod_cast h

/-- C123. A product with zero, at whatever scales, is zero. -/
theorem c123_zero (d o : Decimal) (hd : d.Valid) (ho : o.Valid) (h : d.num = 0 ∨ o.num = 0) : outNum (d.mul o) = .ok 0 := by
  have key : ∀ d o : Decimal, d.Valid → o.Valid → d.num = 0 → outNum (d.mul o) = .ok 0 := by
    intro d o hd ho h
    rw [num_zero_iff] at h
    have hq := mulQ_zero_left o.value.natAbs (d.scale + o.scale)
    rcases outNum_mul d o hd ho with ⟨h1, h2⟩ | ⟨q, h1, -, h2⟩
    · rw [h, Int.natAbs_zero, hq] at h1; cases h1
    · rw [h, Int.natAbs_zero, hq] at h1; cases h1; rw [h2]; simp
  rcases h with h | h
  · exact key d o hd ho h
  · rw [c123_comm d o hd ho]; exact key o d ho hd h

example := c123_zero ⟨0, 7, true⟩ ⟨-999999999999999999, 3, false⟩ (by decide) (by decide) (.inl (by unfold Decimal.num; norm_num))

/-- C123. A product with a negated operand is the mirrored product, and a sum with both operands negated is the product. -/
theorem c123_negate (d o : Decimal) (hd : d.Valid) (ho : o.Valid) :
    outNum (d.negate.mul o) = mirror (outNum (d.mul o)) ∧ outNum (d.mul o.negate) = mirror (outNum (d.mul o)) := by
  have key : ∀ d o : Decimal, d.Valid → o.Valid → outNum (d.negate.mul o) = mirror (outNum (d.mul o)) := by
    intro d o hd ho
    have hnv : d.negate.value = -d.value := by unfold Decimal.negate; exact w_neg hd.1.le63.1 hd.1.le63.2
    have hns : d.negate.scale = d.scale := rfl
    have hval : d.negate.Valid := by
      refine ⟨?_, hd.2⟩
      rw [hnv]; have := hd.1; unfold Fits at *; omega
    have hzero : d.num = 0 ∨ o.num = 0 → outNum (d.negate.mul o) = mirror (outNum (d.mul o)) := by
      intro h
      rw [c123_zero d o hd ho h, c123_zero d.negate o hval ho (by
        rcases h with h | h
        · left; rw [num_zero_iff] at h ⊢; rw [hnv, h]; rfl
        · right; exact h)]
      simp [mirror]
    by_cases h0 : d.num = 0 ∨ o.num = 0
    · exact hzero h0
    · rw [num_zero_iff, num_zero_iff, not_or] at h0
      obtain ⟨hd0, ho0⟩ := h0
      have hs : mulSgn d.negate o = -mulSgn d o := by
        unfold mulSgn
        rw [hnv]
        have e : decide (-d.value ≥ 0) = !decide (d.value ≥ 0) := by
          by_cases h1 : 0 ≤ d.value
          · have h3 : ¬ 0 ≤ -d.value := by omega
            simp [h1, h3]; omega
          · have h3 : 0 ≤ -d.value := by omega
            simp only [ge_iff_le, h1, h3, decide_true, decide_false, Bool.not_false]
        rw [e]
        cases decide (d.value ≥ 0) <;> cases decide (o.value ≥ 0) <;> simp
      have he : (mulErr d.negate o = .overflow ∧ mulErr d o = .underflow) ∨ (mulErr d.negate o = .underflow ∧ mulErr d o = .overflow) := by
        unfold mulErr Decimal.sign
        rw [hnv]
        rcases lt_or_gt_of_ne hd0 with h1 | h1 <;> rcases lt_or_gt_of_ne ho0 with h2 | h2
        · have : ¬ d.value > 0 := by omega
          have : ¬ o.value > 0 := by omega
          have : ¬ -d.value < 0 := by omega
          have : -d.value > 0 := by omega
          simp [*]
        · have : ¬ d.value > 0 := by omega
          have : ¬ o.value < 0 := by omega
          have : ¬ -d.value < 0 := by omega
          have : -d.value > 0 := by omega
          simp [*]
        · have : ¬ d.value < 0 := by omega
          have : ¬ o.value > 0 := by omega
          have : ¬ -d.value > 0 := by omega
          have : -d.value < 0 := by omega
          simp [*]
        · have : ¬ d.value < 0 := by omega
          have : ¬ o.value < 0 := by omega
          have : ¬ -d.value > 0 := by omega
          have : -d.value < 0 := by omega
          simp [*]
      have hnn : d.negate.value.natAbs = d.value.natAbs := by rw [hnv, Int.natAbs_neg]
      rcases outNum_mul d o hd ho with ⟨h1, h2⟩ | ⟨q, h1, -, h2⟩ <;>
        rcases outNum_mul d.negate o hval ho with ⟨g1, g2⟩ | ⟨q', g1, -, g2⟩ <;> rw [hnn, hns, h1] at g1
      · rw [h2, g2]
        rcases he with ⟨e1, e2⟩ | ⟨e1, e2⟩ <;> rw [e1, e2] <;> rfl
      · cases g1
      · cases g1
      · cases g1
        rw [h2, g2, hs]
        simp [mirror]
  refine ⟨key d o hd ho, ?_⟩
  rw [c123_comm d o.negate hd (c14_negate o ho).2.1, key o d ho hd, c123_comm d o hd ho]

example := c123_negate ⟨15, 1, false⟩ ⟨-999999999999999999, 3, false⟩ (by decide) (by decide)

/-- C123. The sign rule: the result is not on the other side of zero than the product. -/
theorem c123_sign (d o r : Decimal) (hd : d.Valid) (ho : o.Valid) (h : d.mul o = .ok r) : 0 ≤ r.num * (d.num * o.num) := by
  obtain ⟨n, s, m, -, -, -, -, hr, -⟩ := mul_ok d o r hd ho h
  rw [prod_num, hr]
  have h1 := mulSgn_sq d o
  have : mulSgn d o * ((m : ℚ) / 10 ^ (min s 18)) * (mulSgn d o * (((d.value.natAbs * o.value.natAbs : Nat) : ℚ) / 10 ^ (d.scale + o.scale))) =
      (mulSgn d o * mulSgn d o) * (((m : ℚ) / 10 ^ (min s 18)) * (((d.value.natAbs * o.value.natAbs : Nat) : ℚ) / 10 ^ (d.scale + o.scale))) := by ring
  rw [this, h1, one_mul]
  positivity

example := c123_sign ⟨15, 1, false⟩ ⟨-2, 1, false⟩ ⟨-3, 1, false⟩ (by decide) (by decide) (by decide)

/-- C123, one, for the 1 without fractional digits. Missing: other representations, see `c123_one_refuted`. -/
theorem c123_one_partial (d : Decimal) (hd : d.Valid) (b : Bool) :
    outNum (d.mul ⟨1, 0, b⟩) = .ok d.num ∧ outNum ((⟨1, 0, b⟩ : Decimal).mul d) = .ok d.num := by
  have h1 : (⟨1, 0, b⟩ : Decimal).Valid := ⟨by unfold Fits; simp, by simp⟩
  obtain ⟨r, hr, hn, -⟩ := c09_exact d ⟨1, 0, b⟩ hd h1 (by
    have := hd.1; unfold Fits at this
    simp only [mul_one]
    rw [abs_lt]; omega) (by simpa using hd.2)
  have : outNum (d.mul ⟨1, 0, b⟩) = .ok d.num := by
    rw [hr]
    simp only [outNum, hn]
    unfold Decimal.num; simp
  exact ⟨this, by rw [c123_comm _ d h1 hd]; exact this⟩

example := c123_one_partial ⟨-999999999999999999, 3, false⟩ (by decide) true

/-- C123, one, is false for 1.0: 500000000000000000 times 1.0 is 50000000000000000, a tenth. -/
theorem c123_one_refuted : (⟨500000000000000000, 0, false⟩ : Decimal).Valid ∧ (⟨10, 1, true⟩ : Decimal).Valid ∧ (⟨10, 1, true⟩ : Decimal).num = 1 ∧
    ofDecimal 10 1 [false] = .ok ⟨10, 1, true⟩ ∧
    (⟨500000000000000000, 0, false⟩ : Decimal).mul ⟨10, 1, true⟩ = .ok ⟨50000000000000000, 0, false⟩ := by
  refine ⟨by decide, by decide, by unfold Decimal.num; norm_num, by decide, by decide⟩

/-- C123, monotonicity, where the products are exact. Missing: products with more digits, see `c123_mono_refuted`. -/
theorem c123_mono_partial (a b c r s : Decimal) (ha : a.Valid) (hb : b.Valid) (hc : c.Valid) (hac : |a.value * c.value| < 1000000000000000000)
    (hbc : |b.value * c.value| < 1000000000000000000) (hsa : a.scale + c.scale ≤ 18) (hsb : b.scale + c.scale ≤ 18)
    (hab : a.num ≤ b.num) (h0 : 0 ≤ c.num) (hr : a.mul c = .ok r) (hs : b.mul c = .ok s) : r.num ≤ s.num := by
  obtain ⟨r', h1, h2, -⟩ := c09_exact a c ha hc hac hsa
  obtain ⟨s', g1, g2, -⟩ := c09_exact b c hb hc hbc hsb
  rw [h1] at hr; cases hr
  rw [g1] at hs; cases hs
  rw [h2, g2]
  exact mul_le_mul_of_nonneg_right hab h0

example : (⟨15, 1, false⟩ : Decimal).mul ⟨2, 1, false⟩ = .ok ⟨3, 1, false⟩ ∧ (⟨16, 1, false⟩ : Decimal).mul ⟨2, 1, false⟩ = .ok ⟨32, 2, false⟩ := by decide

/-- C123, monotonicity, is false: 499999999999999999 is less than 500000000000000000, but multiplied by 0.2 it is
99999999999999999.8, and the other 10000000000000000. -/
theorem c123_mono_refuted :
    (⟨499999999999999999, 0, false⟩ : Decimal).mul ⟨2, 1, false⟩ = .ok ⟨999999999999999998, 1, false⟩ ∧
    (⟨500000000000000000, 0, false⟩ : Decimal).mul ⟨2, 1, false⟩ = .ok ⟨10000000000000000, 0, false⟩ ∧
    (⟨499999999999999999, 0, false⟩ : Decimal).num < (⟨500000000000000000, 0, false⟩ : Decimal).num ∧
    (⟨10000000000000000, 0, false⟩ : Decimal).num < (⟨999999999999999998, 1, false⟩ : Decimal).num := by
  refine ⟨by decide, by decide, ?_, ?_⟩ <;> (unfold Decimal.num; norm_num)

/-! ### Sums -/

/-- Adding up a list, from left to right, stopping at the first error: what a caller's loop does with Add. -/
def addAll (z : Decimal) : List Decimal → Out DErr Decimal
  | [] => .ok z
  | x :: xs => match z.add x with
    | .ok r => addAll r xs
    | .err e => .err e
    | .panic => .panic

/-- The sum of two numbers with at most m ≤ 17 fractional digits, whose absolute values together have at most 18 - m digits before the point. -/
theorem add_within (m : Nat) (hm : m ≤ 17) (d o : Decimal) (hd : d.Valid) (ho : o.Valid) (hds : d.scale ≤ m) (hos : o.scale ≤ m)
    (h : (|d.num| + |o.num|) * 10 ^ m < 10 ^ 18) : ∃ r, d.add o = .ok r ∧ r.num = d.num + o.num ∧ r.Valid ∧ r.scale ≤ m := by
  have habs : ∀ x : Decimal, x.scale ≤ m → |x.num| * 10 ^ m < 10 ^ 18 → ∀ k, k ≤ m → x.scale ≤ k → x.value.natAbs * 10 ^ (k - x.scale) < 10 ^ 18 := by
    intro x hx hlt k hk hxk
    have e : |x.num| * 10 ^ m = ((x.value.natAbs * 10 ^ (m - x.scale) : Nat) : ℚ) := by
      unfold Decimal.num
      rw [abs_div, abs_of_pos (show (0 : ℚ) < 10 ^ x.scale by positivity), show m = x.scale + (m - x.scale) by omega, pow_add]
      push_cast
      rw [show x.scale + (m - x.scale) - x.scale = m - x.scale by omega, Nat.cast_natAbs, Int.cast_abs]
      field_simp
    rw [e] at hlt
    have : x.value.natAbs * 10 ^ (m - x.scale) < 10 ^ 18 := by exact_mod_cast hlt
    refine lt_of_le_of_lt (Nat.mul_le_mul_left _ (Nat.pow_le_pow_right (by norm_num) (by omega))) this
  have hp : (0 : ℚ) < 10 ^ m := by positivity
  have hd' := habs d hds (by nlinarith [abs_nonneg o.num, abs_nonneg d.num])
  have ho' := habs o hos (by nlinarith [abs_nonneg o.num, abs_nonneg d.num])
  have hdig : ∀ v : Int, ∀ k, k ≤ 17 → v.natAbs * 10 ^ k < 10 ^ 18 → numDigits v + k ≤ 18 := by
    intro v k hk hv
    have : numDigits v ≤ 18 - k := by
      apply numDigits_le_of _ _ (by omega)
      by_contra hc
      have : 10 ^ (18 - k) * 10 ^ k ≤ v.natAbs * 10 ^ k := Nat.mul_le_mul_right _ (by omega)
      rw [← pow_add, show 18 - k + k = 18 by omega] at this
      omega
    omega
  have hroom : Room d o := by
    unfold Room
    split
    · rename_i hle
      rw [Nat.max_eq_right hle, Nat.min_eq_left hle]
      exact hdig _ _ (by omega) (hd' _ hos hle)
    · rename_i hle
      have hle : o.scale ≤ d.scale := by omega
      rw [Nat.max_eq_left hle, Nat.min_eq_right hle]
      exact hdig _ _ (by omega) (ho' _ hds hle)
  have hf := room_fits_at d o hd ho hroom
  have hadd := add_eq d o _ _ (room_adjust d o hd ho hroom) hf.1 hf.2
  simp only at hadd
  have hfit : FitsAt (d.num + o.num) (max d.scale o.scale) := by
    have e : d.num + o.num = ((d.at (max d.scale o.scale) + o.at (max d.scale o.scale) : Int) : ℚ) / 10 ^ (max d.scale o.scale) := by
      have e1 := num_extend d (max d.scale o.scale) (by omega) false
      have e2 := num_extend o (max d.scale o.scale) (by omega) false
      unfold Decimal.num at e1 e2 ⊢
      simp only at e1 e2
      unfold Decimal.at
      rw [← e1, ← e2]
      push_cast; ring
    refine ⟨_, ?_, e⟩
    have hM : (10 : ℚ) ^ (max d.scale o.scale) ≤ 10 ^ m := pow_le_pow_right₀ (by norm_num) (by omega)
    have hlt : |d.num + o.num| * 10 ^ (max d.scale o.scale) < 10 ^ 18 := by
      refine lt_of_le_of_lt ?_ h
      exact mul_le_mul (abs_add_le _ _) hM (by positivity) (by positivity)
    rw [e, abs_div, abs_of_pos (show (0 : ℚ) < 10 ^ (max d.scale o.scale) by positivity), div_mul_cancel₀ _ (by positivity)] at hlt
    have : |d.at (max d.scale o.scale) + o.at (max d.scale o.scale)| < 10 ^ 18 := by exact_mod_cast hlt
    rw [abs_lt] at this
    unfold Fits
    omega
  obtain ⟨r, h1, h2, h3⟩ := (c07_add d o hd ho hroom).1 hfit
  refine ⟨r, h1, h2, h3, ?_⟩
  rw [h1] at hadd
  split at hadd
  · cases hadd
  · split at hadd
    · cases hadd
    · cases hadd
      refine le_trans (applyNormalization_valid _ ?_).2 (by simp only; omega)
      unfold Fits; simp only; omega

/-- C124. Adding up numbers with at most m ≤ 17 fractional digits, whose absolute values together are less than 10^(18 - m), is exact. Missing:
sums with more digits, where the result depends on the order, see `c124_refuted`. -/
theorem c124_sum_partial (m : Nat) (hm : m ≤ 17) (z : Decimal) (xs : List Decimal) (hz : z.Valid) (hzs : z.scale ≤ m)
    (hxs : ∀ x ∈ xs, x.Valid ∧ x.scale ≤ m) (h : (|z.num| + (xs.map fun x => |x.num|).sum) * 10 ^ m < 10 ^ 18) :
    ∃ r, addAll z xs = .ok r ∧ r.num = z.num + (xs.map Decimal.num).sum ∧ r.Valid ∧ r.scale ≤ m := by
  induction xs generalizing z with
  | nil => exact ⟨z, rfl, by simp, hz, hzs⟩
  | cons x xs ih =>
    have hx := hxs x (by simp)
    have hp : (0 : ℚ) < 10 ^ m := by positivity
    have hnn : 0 ≤ (xs.map fun x => |x.num|).sum := List.sum_nonneg (by
      intro y hy
      obtain ⟨x, -, rfl⟩ := List.mem_map.mp hy
      exact abs_nonneg _)
    simp only [List.map_cons, List.sum_cons] at h ⊢
    obtain ⟨r, h1, h2, h3, h4⟩ := add_within m hm z x hz hx.1 hzs hx.2 (lt_of_le_of_lt (mul_le_mul_of_nonneg_right (by linarith) hp.le) h)
    obtain ⟨r', g1, g2, g3, g4⟩ := ih r h3 h4 (fun y hy => hxs y (by simp [hy])) (by
      refine lt_of_le_of_lt (mul_le_mul_of_nonneg_right ?_ hp.le) h
      rw [h2]
      have := abs_add_le z.num x.num
      linarith)
    refine ⟨r', by rw [addAll, h1]; exact g1, ?_, g3, g4⟩
    rw [g2, h2]; ring

/-- 0.1 + 0.25 - 12345678901234. -/
example := c124_sum_partial 2 (by decide) ⟨1, 1, false⟩ [⟨25, 2, false⟩, ⟨-12345678901234, 0, false⟩] (by decide) (by decide) (by decide)
  (by simp only [List.map_cons, List.map_nil, List.sum_cons, List.sum_nil]; unfold Decimal.num; norm_num)

/-- C124. Then the order does not matter. -/
theorem c124_order_partial (m : Nat) (hm : m ≤ 17) (z : Decimal) (xs ys : List Decimal) (hp : xs.Perm ys) (hz : z.Valid) (hzs : z.scale ≤ m)
    (hxs : ∀ x ∈ xs, x.Valid ∧ x.scale ≤ m) (h : (|z.num| + (xs.map fun x => |x.num|).sum) * 10 ^ m < 10 ^ 18) :
    outNum (addAll z xs) = outNum (addAll z ys) := by
  obtain ⟨r, h1, h2, -⟩ := c124_sum_partial m hm z xs hz hzs hxs h
  obtain ⟨s, g1, g2, -⟩ := c124_sum_partial m hm z ys hz hzs (fun y hy => hxs y (hp.mem_iff.mpr hy)) (by rw [← (hp.map _).sum_eq]; exact h)
  rw [h1, g1]
  simp only [outNum, h2, g2, (hp.map Decimal.num).sum_eq]

example := c124_order_partial 2 (by decide) ⟨1, 1, false⟩ [⟨25, 2, false⟩, ⟨-12345678901234, 0, false⟩] [⟨-12345678901234, 0, false⟩, ⟨25, 2, false⟩]
  (List.Perm.swap _ _ _) (by decide) (by decide) (by decide)
  (by simp only [List.map_cons, List.map_nil, List.sum_cons, List.sum_nil]; unfold Decimal.num; norm_num)

/-- C124. Then Add is associative. -/
theorem c124_assoc_partial (m : Nat) (hm : m ≤ 17) (a b c : Decimal) (ha : a.Valid) (hb : b.Valid) (hc : c.Valid) (hsa : a.scale ≤ m)
    (hsb : b.scale ≤ m) (hsc : c.scale ≤ m) (h : (|a.num| + |b.num| + |c.num|) * 10 ^ m < 10 ^ 18) :
    ∃ ab bc r s, a.add b = .ok ab ∧ ab.add c = .ok r ∧ b.add c = .ok bc ∧ a.add bc = .ok s ∧ r.num = s.num ∧ r.num = a.num + b.num + c.num := by
  have hp : (0 : ℚ) < 10 ^ m := by positivity
  have le : ∀ x y : ℚ, x ≤ y → y * 10 ^ m < 10 ^ 18 → x * 10 ^ m < 10 ^ 18 :=
    fun x y hxy hy => lt_of_le_of_lt (mul_le_mul_of_nonneg_right hxy hp.le) hy
  have na := abs_nonneg a.num
  have nb := abs_nonneg b.num
  have nc := abs_nonneg c.num
  obtain ⟨ab, h1, h2, h3, h4⟩ := add_within m hm a b ha hb hsa hsb (le _ _ (by linarith) h)
  obtain ⟨bc, g1, g2, g3, g4⟩ := add_within m hm b c hb hc hsb hsc (le _ _ (by linarith) h)
  obtain ⟨r, k1, k2, -⟩ := add_within m hm ab c h3 hc h4 hsc (le _ _ (by rw [h2]; have := abs_add_le a.num b.num; linarith) h)
  obtain ⟨s, l1, l2, -⟩ := add_within m hm a bc ha g3 hsa g4 (le _ _ (by rw [g2]; have := abs_add_le b.num c.num; linarith) h)
  refine ⟨ab, bc, r, s, h1, k1, g1, l1, ?_, ?_⟩ <;> simp only [k2, l2, h2, g2] <;> ring

example := c124_assoc_partial 2 (by decide) ⟨1, 1, false⟩ ⟨25, 2, false⟩ ⟨-12345678901234, 0, false⟩ (by decide) (by decide) (by decide) (by decide)
  (by decide) (by decide) (by unfold Decimal.num; norm_num)

/-- C124. Then Add is monotone. -/
theorem c124_mono_partial (m : Nat) (hm : m ≤ 17) (a b c : Decimal) (ha : a.Valid) (hb : b.Valid) (hc : c.Valid) (hsa : a.scale ≤ m)
    (hsb : b.scale ≤ m) (hsc : c.scale ≤ m) (h : (|a.num| + |c.num|) * 10 ^ m < 10 ^ 18) (h' : (|b.num| + |c.num|) * 10 ^ m < 10 ^ 18) :
    ∃ r s, a.add c = .ok r ∧ b.add c = .ok s ∧ (r.num ≤ s.num ↔ a.num ≤ b.num) := by
  obtain ⟨r, h1, h2, -⟩ := add_within m hm a c ha hc hsa hsc h
  obtain ⟨s, g1, g2, -⟩ := add_within m hm b c hb hc hsb hsc h'
  exact ⟨r, s, h1, g1, by rw [h2, g2]; constructor <;> intro <;> linarith⟩

example := c124_mono_partial 2 (by decide) ⟨1, 1, false⟩ ⟨25, 2, false⟩ ⟨-12345678901234, 0, false⟩ (by decide) (by decide) (by decide) (by decide)
  (by decide) (by decide) (by unfold Decimal.num; norm_num) (by unfold Decimal.num; norm_num)

theorem digits_17 : numDigits 100000000000000000 = 18 ∧ numDigits (-100000000000000000) = 18 := by
  have : ∀ v : Int, v.natAbs = 100000000000000000 → numDigits v = 18 := by
    intro v hv
    apply le_antisymm (numDigits_le_of _ _ (by omega) (by rw [hv]; norm_num))
    by_contra hc
    have h17 : numDigits v ≤ 17 := by omega
    have := (natChars_length_le _ _ (by omega)).mp h17
    rw [hv] at this
    norm_num at this
  exact ⟨this _ rfl, this _ rfl⟩

theorem digits_5 : numDigits 5 = 1 ∧ numDigits (-5) = 1 := by
  constructor <;> (unfold numDigits; first | (rw [show (5 : Int).natAbs = 5 from rfl, natChars]; rfl) | (rw [show (-5 : Int).natAbs = 5 from rfl, natChars]; rfl))

/-- C124 is false in general: adding 10^17, -10^17 and 0.5 in this order is 0.5, adding -10^17 and 0.5 first gives 1; and -0.5 turns around the order
of 99999999999999999.9 and 100000000000000000. -/
theorem c124_refuted :
    (∃ r s, addAll ⟨0, 0, false⟩ [⟨100000000000000000, 0, false⟩, ⟨-100000000000000000, 0, false⟩, ⟨5, 1, false⟩] = .ok r ∧
      addAll ⟨0, 0, false⟩ [⟨-100000000000000000, 0, false⟩, ⟨5, 1, false⟩, ⟨100000000000000000, 0, false⟩] = .ok s ∧ r.num = 1 / 2 ∧ s.num = 1) ∧
    (∃ a b c r s : Decimal, a.Valid ∧ b.Valid ∧ c.Valid ∧ a.num < b.num ∧ a.add c = .ok r ∧ b.add c = .ok s ∧ s.num < r.num) := by
  have h5 : (⟨-100000000000000000, 0, false⟩ : Decimal).add ⟨5, 1, false⟩ = .ok ⟨-99999999999999999, 0, false⟩ := by
    have hadj : adjustDecimalScale ⟨-100000000000000000, 0, false⟩ ⟨5, 1, false⟩ =
        some (none, ⟨-100000000000000000, 0, false⟩, ⟨1, 0, false⟩) := by
      unfold adjustDecimalScale
      rw [if_neg (by decide), if_pos (by decide), adjustLarger_spec _ _ (by decide) (by decide) (by decide)]
      simp [digits_17, digits_5, roundHalfAway]
    rw [add_eq _ _ _ _ hadj (by decide) (by decide)]
    decide
  have h6 : (⟨100000000000000000, 0, false⟩ : Decimal).add ⟨-5, 1, false⟩ = .ok ⟨99999999999999999, 0, false⟩ := by
    have hadj : adjustDecimalScale ⟨100000000000000000, 0, false⟩ ⟨-5, 1, false⟩ =
        some (none, ⟨100000000000000000, 0, false⟩, ⟨-1, 0, false⟩) := by
      unfold adjustDecimalScale
      rw [if_neg (by decide), if_pos (by decide), adjustLarger_spec _ _ (by decide) (by decide) (by decide)]
      simp [digits_17, digits_5, roundHalfAway]
    rw [add_eq _ _ _ _ hadj (by decide) (by decide)]
    decide
  have h0 : (⟨0, 0, false⟩ : Decimal).add ⟨5, 1, false⟩ = .ok ⟨5, 1, false⟩ := by
    have hadj : adjustDecimalScale ⟨0, 0, false⟩ ⟨5, 1, false⟩ = some (none, ⟨0, 1, false⟩, ⟨5, 1, false⟩) := by
      have h0 : numDigits 0 = 1 := by unfold numDigits; rw [Int.natAbs_zero, natChars_zero]; rfl
      unfold adjustDecimalScale
      rw [if_neg (by decide), if_pos (by decide), adjustLarger_spec _ _ (by decide) (by decide) (by decide)]
      simp [h0]
    rw [add_eq _ _ _ _ hadj (by decide) (by decide)]
    decide
  constructor
  · refine ⟨⟨5, 1, false⟩, ⟨1, 0, false⟩, ?_, ?_, by unfold Decimal.num; norm_num, by unfold Decimal.num; norm_num⟩
    · simp only [addAll]
      rw [show (⟨0, 0, false⟩ : Decimal).add ⟨100000000000000000, 0, false⟩ = .ok ⟨100000000000000000, 0, false⟩ from by decide]
      simp only
      rw [show (⟨100000000000000000, 0, false⟩ : Decimal).add ⟨-100000000000000000, 0, false⟩ = .ok ⟨0, 0, false⟩ from by decide]
      simp only
      rw [h0]
    · simp only [addAll]
      rw [show (⟨0, 0, false⟩ : Decimal).add ⟨-100000000000000000, 0, false⟩ = .ok ⟨-100000000000000000, 0, false⟩ from by decide]
      simp only
      rw [h5]
      simp only
      rw [show (⟨-99999999999999999, 0, false⟩ : Decimal).add ⟨100000000000000000, 0, false⟩ = .ok ⟨1, 0, false⟩ from by decide]
  · refine ⟨⟨999999999999999999, 1, false⟩, ⟨100000000000000000, 0, false⟩, ⟨-5, 1, false⟩, ⟨999999999999999994, 1, false⟩, ⟨99999999999999999, 0, false⟩,
      by decide, by decide, by decide, ?_, by decide, h6, ?_⟩ <;> (unfold Decimal.num; norm_num)

/-- Non-vacuity: 0.1 + 0.2 + 12345678901234567 within m = 1. -/
example : (|(⟨1, 1, false⟩ : Decimal).num| + |(⟨2, 1, false⟩ : Decimal).num| + |(⟨12345678901234567, 0, false⟩ : Decimal).num|) * 10 ^ 1 < 10 ^ 18 := by
  unfold Decimal.num; norm_num

end Micro.Dec
