import Verif.Decimal.MulExactLemmas
set_option linter.unusedSimpArgs false
/-
C09: exactly what Mul returns, and exactly when that is right.
-/
namespace Micro.Dec
open Micro

/-- The number n/10^s with the digits after the 18th fractional one rounded off one at a time. -/
def to18 (n s : Nat) : ℚ := (roundOff n (s - 18) : ℚ) / 10 ^ (min s 18)

theorem to18_mul (n s i : Nat) : to18 (n * 10 ^ i) (s + i) = to18 n s := by
  unfold to18
  rcases Nat.le_total 18 s with h | h
  · rw [show s + i - 18 = i + (s - 18) by omega, roundOff_mul, Nat.min_eq_right (by omega), Nat.min_eq_right h]
  · rw [Nat.min_eq_left h, show s - 18 = 0 by omega, roundOff_zero]
    have a := pow10_pos s
    rcases Nat.le_total (s + i) 18 with h' | h'
    · rw [show s + i - 18 = 0 by omega, roundOff_zero, Nat.min_eq_left h', pow_add]
      have b := pow10_pos i
      push_cast; field_simp
    · obtain ⟨m, hm⟩ : ∃ m, i = (s + i - 18) + m := ⟨18 - s, by omega⟩
      rw [Nat.min_eq_right h']
      have e : roundOff (n * 10 ^ i) (s + i - 18) = n * 10 ^ m := by
        have : n * 10 ^ i = (n * 10 ^ m) * 10 ^ (s + i - 18) := by
          conv_lhs => rw [hm, pow_add]
          ring
        rw [this]
        exact (roundOff_mul (n * 10 ^ m) (s + i - 18) 0).trans (roundOff_zero _)
      rw [e, show (18 : Nat) = s + m by omega, pow_add]
      have b := pow10_pos m
      push_cast; field_simp

/-- The end of Mul for an absolute value that fits. -/
theorem mulFinish_ok (d o : Decimal) (n s : Nat) (hn : n ≤ 999999999999999999) :
    ∃ r, mulFinish d o (some (n, s)) = .ok r ∧ r.Valid ∧ r.num = mulSgn d o * to18 n s := by
  have m1 := mulScaleDown_roundOff (s - 18) n (by omega)
  obtain ⟨m, m1', m2, _⟩ := mulScaleDown_spec (s - 18) n (by omega)
  have hm : roundOff n (s - 18) = m := by rw [m1] at m1'; exact_mod_cast m1'
  unfold to18
  rw [hm]
  refine ⟨_, rfl, ?_, ?_⟩
  · rw [m1', w_id (x := -(m : Int)) (by omega) (by omega)]
    have hv := applyNormalization_valid ⟨if decide (d.value ≥ 0) = decide (o.value ≥ 0) then (m : Int) else -m, min s 18, d.denormalized⟩
      (by unfold Fits; simp only; split <;> omega)
    exact ⟨hv.1, le_trans hv.2 (by simp)⟩
  · rw [m1', w_id (x := -(m : Int)) (by omega) (by omega)]
    unfold mulSgn
    split
    · rw [applyNormalization_num _ (by simp only; omega) (by simp only; omega)]
      unfold Decimal.num; simp
    · rw [applyNormalization_num _ (by simp only; omega) (by simp only; omega)]
      unfold Decimal.num; simp; ring

/-- Mul for a product that does not fit in an int64. -/
theorem mul_big (d o : Decimal) (hd : d.Valid) (ho : o.Valid)
    (hp : 9223372036854775808 ≤ d.value.natAbs * o.value.natAbs) :
    d.mul o = mulEnd d.denormalized (decide (decide (d.value ≥ 0) = decide (o.value ≥ 0))) (mulErr d o)
      (mulBig d.value.natAbs o.value.natAbs (d.scale + o.scale)) := by
  have hda := hd.1.le63
  have hoa := ho.1.le63
  have ed : (if decide (d.value ≥ 0) = true then d.value else w (-d.value)) = (d.value.natAbs : Int) := by
    split
    · rename_i h; simp at h; omega
    · rename_i h; simp at h; rw [w_neg hda.1 hda.2]; omega
  have eo : (if decide (o.value ≥ 0) = true then o.value else w (-o.value)) = (o.value.natAbs : Int) := by
    split
    · rename_i h; simp at h; omega
    · rename_i h; simp at h; rw [w_neg hoa.1 hoa.2]; omega
  have ha : d.value.natAbs ≤ 999999999999999999 := by have := hd.1; unfold Fits at this; omega
  have hb : o.value.natAbs ≤ 999999999999999999 := by have := ho.1; unfold Fits at this; omega
  have h0 : d.value.natAbs ≠ 0 := by intro h; rw [h] at hp; omega
  unfold Decimal.mul
  simp only [ed, eo]
  have hiff := mul_overflow_iff d.value.natAbs o.value.natAbs (by omega) ha hb
  rw [if_pos (c := ((d.value.natAbs : Int) ≠ 0)) (by omega), if_neg (fun h => absurd (hiff.mp h) (by omega))]
  rfl

/-- C09. What Mul returns when the product of the unscaled values does not fit in an int64, for numbers that
are not both whole. Write the product as t followed by E more digits, where t has 18 digits.
 - If more than 18 digits are before the point (`scales < E`) the error of an overflow or underflow.
 - Otherwise the E digits are rounded off one at a time, but the carry is added to t only if the last digit of t is at
   least 5, and what is left is rounded off to 18 fractional digits, again one at a time.
 - If t is 999999999999999999 and the carry is added, an error if no fractional digit is left and a tenth of the
   right number otherwise. -/
theorem c09_value (d o : Decimal) (hd : d.Valid) (ho : o.Valid) (hs : 0 < d.scale + o.scale)
    (hp : 9223372036854775808 ≤ d.value.natAbs * o.value.natAbs) (E t : Nat)
    (ht : t = d.value.natAbs * o.value.natAbs / 10 ^ E) (h1 : 100000000000000000 ≤ t) (h2 : t < 1000000000000000000) :
    let up := roundOff (d.value.natAbs * o.value.natAbs) E = t + 1 ∧ 5 ≤ t % 10
    (d.scale + o.scale < E → d.mul o = .err (mulErr d o)) ∧
    (∀ s, d.scale + o.scale = E + s →
      (¬ up → ∃ r, d.mul o = .ok r ∧ r.Valid ∧ r.num = mulSgn d o * to18 t s) ∧
      (up → t < 999999999999999999 → ∃ r, d.mul o = .ok r ∧ r.Valid ∧ r.num = mulSgn d o * to18 (t + 1) s) ∧
      (up → t = 999999999999999999 → s = 0 → d.mul o = .err (mulErr d o)) ∧
      (up → t = 999999999999999999 → 0 < s →
        ∃ r, d.mul o = .ok r ∧ r.Valid ∧ r.num = mulSgn d o * to18 100000000000000000 s)) := by
  intro up
  obtain ⟨k1, k2, k3⟩ := mulBig_exact d.value.natAbs o.value.natAbs (d.scale + o.scale) E t hs ht h1 h2
  rw [mul_big d o hd ho hp]
  have fin : ∀ (v : Int) (s n : Nat) (r19 : Bool), n ≤ 999999999999999999 → mulRound19 r19 v s = some (n : Int) →
      ∃ r, mulEnd d.denormalized (decide (decide (d.value ≥ 0) = decide (o.value ≥ 0))) (mulErr d o) (some (v, s, r19)) = .ok r ∧
        r.Valid ∧ r.num = mulSgn d o * to18 n s := by
    intro v s n r19 hn hr
    obtain ⟨r, r1, r2⟩ := mulFinish_ok d o n s hn
    refine ⟨r, ?_, r2⟩
    rw [← r1]
    simp [mulEnd, hr, mulFinish]
  refine ⟨fun h => by rw [k1 h]; rfl, fun s hE => ⟨fun hu => ?_, fun hu h3 => ?_, fun hu h3 h0 => ?_, fun hu h3 h0 => ?_⟩⟩
  · obtain ⟨i, n, i1, i2, i3⟩ := k3 (by omega) hu
    rw [i3]
    have hnt : n ≤ t := by rw [← i2]; exact Nat.le_mul_of_pos_right _ (by positivity)
    obtain ⟨r, r1, r2, r3⟩ := fin n (d.scale + o.scale - E - i) n false (by clear ht; omega) (round19_le _ _ _ (by clear ht; omega))
    refine ⟨r, r1, r2, ?_⟩
    rw [r3, ← to18_mul n (d.scale + o.scale - E - i) i, i2]
    congr 2
    omega
  · rw [k2 (by omega) hu]
    obtain ⟨r, r1, r2, r3⟩ := fin ((t : Int) + 1) (d.scale + o.scale - E) (t + 1) true h3 (round19_le _ _ _ (by clear ht; omega))
    refine ⟨r, r1, r2, ?_⟩
    rw [r3]; congr 2; omega
  · rw [k2 (by omega) hu, h3]
    have := round19_nines (d.scale + o.scale - E)
    rw [if_pos (by omega)] at this
    change mulRound19 true (((999999999999999999 : Nat) : Int) + 1) _ = none at this
    simp only [mulEnd, this]
  · rw [k2 (by omega) hu, h3]
    have := round19_nines (d.scale + o.scale - E)
    rw [if_neg (by omega)] at this
    obtain ⟨r, r1, r2, r3⟩ := fin (((999999999999999999 : Nat) : Int) + 1) (d.scale + o.scale - E) 100000000000000000 true (by norm_num) this
    refine ⟨r, r1, r2, ?_⟩
    rw [r3]; congr 2; omega

/-- 1.2 * 833333333333333309 = 999999999999999970.8: t is 999999999999999970 and one digit follows. -/
example := c09_value ⟨12, 1, false⟩ ⟨833333333333333309, 0, false⟩ (by decide) (by decide) (by decide) (by decide) 1 999999999999999970
  (by decide) (by decide) (by decide)

/-- How far the roundings are from the exact product. -/
theorem round_error_lt (p rs n s : Nat) (hle : s ≤ rs) (hex : n * 10 ^ (rs - s) = p ∨
      (100000000000000000 * 10 ^ (rs - s) ≤ p ∧ n * 10 ^ (rs - s) < p + 10 ^ (rs - s) ∧ p < (n + 1) * 10 ^ (rs - s))) :
    |to18 n s - (p : ℚ) / 10 ^ rs| < max (1 / 10 ^ 18) ((p : ℚ) / 10 ^ rs / 10 ^ 17) := by
  unfold to18
  obtain ⟨e, rfl⟩ : ∃ e, rs = s + e := ⟨rs - s, by omega⟩
  rw [Nat.add_sub_cancel_left] at hex
  have hps := pow10_pos s
  have hpe := pow10_pos e
  have hpos : 0 < max (1 / (10 : ℚ) ^ 18) ((p : ℚ) / 10 ^ (s + e) / 10 ^ 17) := lt_of_lt_of_le (by norm_num) (le_max_left _ _)
  have herr : |(n : ℚ) / 10 ^ s - (p : ℚ) / 10 ^ (s + e)| < 1 / 10 ^ s ∧
      ((n : ℚ) / 10 ^ s = (p : ℚ) / 10 ^ (s + e) ∨ 1 / 10 ^ s ≤ (p : ℚ) / 10 ^ (s + e) / 10 ^ 17) := by
    have hx : (p : ℚ) / 10 ^ (s + e) = (p : ℚ) / 10 ^ e / 10 ^ s := by rw [pow_add]; field_simp
    rw [hx]
    rcases hex with hx | ⟨x1, x2, x3⟩
    · have : (p : ℚ) / 10 ^ e = n := by rw [← hx]; push_cast; field_simp
      rw [this]
      exact ⟨by rw [sub_self, abs_zero]; positivity, .inl rfl⟩
    · have x1' : (100000000000000000 : ℚ) ≤ (p : ℚ) / 10 ^ e := by
        rw [le_div_iff₀ hpe]; exact_mod_cast x1
      have x2' : (n : ℚ) < (p : ℚ) / 10 ^ e + 1 := by
        have : (n : ℚ) * 10 ^ e < (p : ℚ) + 10 ^ e := by exact_mod_cast x2
        have h : (p : ℚ) / 10 ^ e + 1 = (p + 10 ^ e) / 10 ^ e := by field_simp
        rw [h, lt_div_iff₀ hpe]; exact this
      have x3' : (p : ℚ) / 10 ^ e < n + 1 := by
        rw [div_lt_iff₀ hpe]; exact_mod_cast x3
      constructor
      · rw [← sub_div, abs_div, abs_of_pos hps]
        apply div_lt_div_of_pos_right _ hps
        rw [abs_lt]; constructor <;> linarith
      · right
        rw [div_right_comm]
        apply div_le_div_of_nonneg_right _ hps.le
        rw [le_div_iff₀ (by norm_num)]; linarith
  by_cases hs : s ≤ 18
  · rw [show s - 18 = 0 by omega, roundOff_zero, Nat.min_eq_left hs]
    rcases herr.2 with h | h
    · rw [h, sub_self, abs_zero]; exact hpos
    · exact lt_of_lt_of_le herr.1 (le_trans h (le_max_right _ _))
  · obtain ⟨k, rfl⟩ : ∃ k, s = 18 + (k + 1) := ⟨s - 19, by omega⟩
    rw [Nat.add_sub_cancel_left, Nat.min_eq_right (by omega)]
    apply lt_of_lt_of_le _ (le_max_left _ _)
    have hk1 : 0 < 10 ^ (k + 1) := by positivity
    have hf := fives_eq (k + 1)
    have hfl := fives_lt (k + 1)
    obtain ⟨g2, g3⟩ : 10 ^ (k + 1) * roundOff n (k + 1) ≤ n + fives (k + 1) ∧ n + fives (k + 1) < 10 ^ (k + 1) * roundOff n (k + 1) + 10 ^ (k + 1) := by
      unfold roundOff
      have a := Nat.div_add_mod (n + fives (k + 1)) (10 ^ (k + 1))
      have b := Nat.mod_lt (n + fives (k + 1)) hk1
      generalize 10 ^ (k + 1) * ((n + fives (k + 1)) / 10 ^ (k + 1)) = z at *
      omega
    generalize roundOff n (k + 1) = m at *
    have g2' : (9 : ℚ) * (10 ^ (k + 1) * m) ≤ 9 * n + 5 * 10 ^ (k + 1) := by
      have : 9 * (10 ^ (k + 1) * m) ≤ 9 * n + 5 * 10 ^ (k + 1) := by
        generalize 10 ^ (k + 1) * m = z at *; omega
      exact_mod_cast this
    have g3' : (9 : ℚ) * n ≤ 9 * (10 ^ (k + 1) * m) + 5 * 10 ^ (k + 1) := by
      have : 9 * n ≤ 9 * (10 ^ (k + 1) * m) + 5 * 10 ^ (k + 1) := by
        generalize 10 ^ (k + 1) * m = z at *; omega
      exact_mod_cast this
    have hd : |(m : ℚ) / 10 ^ 18 - (n : ℚ) / 10 ^ (18 + (k + 1))| ≤ 5 / 9 / 10 ^ 18 := by
      have hpk1 := pow10_pos (k + 1)
      have e : (m : ℚ) / 10 ^ 18 - (n : ℚ) / 10 ^ (18 + (k + 1)) = (m - (n : ℚ) / 10 ^ (k + 1)) / 10 ^ 18 := by
        rw [pow_add]; field_simp
      rw [e, abs_div, abs_of_pos (by norm_num : (0 : ℚ) < 10 ^ 18)]
      apply div_le_div_of_nonneg_right _ (by norm_num)
      have y : (n : ℚ) = (n : ℚ) / 10 ^ (k + 1) * 10 ^ (k + 1) := by field_simp
      set z := (n : ℚ) / 10 ^ (k + 1) with hz
      rw [y] at g2' g3'
      rw [abs_le]
      constructor
      · by_contra hc; push Not at hc; nlinarith
      · by_contra hc; push Not at hc; nlinarith
    have hsmall : (1 : ℚ) / 10 ^ (18 + (k + 1)) ≤ 1 / 10 / 10 ^ 18 := by
      rw [div_div, ← pow_succ']
      apply div_le_div_of_nonneg_left (by norm_num) (by positivity)
      exact pow_le_pow_right₀ (by norm_num) (by omega)
    calc |(m : ℚ) / 10 ^ 18 - (p : ℚ) / 10 ^ (18 + (k + 1) + e)|
        ≤ |(m : ℚ) / 10 ^ 18 - (n : ℚ) / 10 ^ (18 + (k + 1))| + |(n : ℚ) / 10 ^ (18 + (k + 1)) - (p : ℚ) / 10 ^ (18 + (k + 1) + e)| := abs_sub_le _ _ _
      _ ≤ 5 / 9 / 10 ^ 18 + 1 / 10 / 10 ^ 18 := add_le_add hd (le_trans herr.1.le hsmall)
      _ < 1 / 10 ^ 18 := by norm_num

/-- What C09 asks of one multiplication: an error that tells the direction if the product has more than 18
digits before the point, and otherwise a valid number less than one unit in the last place away from the product, where
the place is that of 18 fractional digits or 18 digits altogether. -/
def MulRight (d o : Decimal) : Prop :=
  (10 ^ 18 ≤ |d.num * o.num| → d.mul o = .err (if 0 < d.num * o.num then .overflow else .underflow)) ∧
  (|d.num * o.num| < 10 ^ 18 → ∃ r, d.mul o = .ok r ∧ r.Valid ∧
    |r.num - d.num * o.num| < max (1 / 10 ^ 18) (|d.num * o.num| / 10 ^ 17))

/-- The operands Mul gets wrong: not both whole, and either a product of the unscaled values from 10^18 up
to 2^63, or a larger one that fits, starts with eighteen nines and has a carry into them when its other digits are
rounded off one at a time. -/
def MulWrong (d o : Decimal) : Prop :=
  0 < d.scale + o.scale ∧
  ((1000000000000000000 ≤ d.value.natAbs * o.value.natAbs ∧ d.value.natAbs * o.value.natAbs < 9223372036854775808) ∨
   (9223372036854775808 ≤ d.value.natAbs * o.value.natAbs ∧ ∃ E ≤ d.scale + o.scale,
      d.value.natAbs * o.value.natAbs / 10 ^ E = 999999999999999999 ∧
      roundOff (d.value.natAbs * o.value.natAbs) E = 1000000000000000000))

theorem prod_big_iff (d o : Decimal) :
    10 ^ 18 ≤ |d.num * o.num| ↔ 1000000000000000000 * 10 ^ (d.scale + o.scale) ≤ d.value.natAbs * o.value.natAbs := by
  rw [prod_abs, le_div_iff₀ (pow10_pos _)]
  generalize d.value.natAbs * o.value.natAbs = p
  have e : (10 : ℚ) ^ 18 = ((1000000000000000000 : Nat) : ℚ) := by norm_num
  rw [e]
  norm_cast

theorem mulErr_sign (d o : Decimal) (h : 10 ^ 18 ≤ |d.num * o.num|) :
    mulErr d o = (if 0 < d.num * o.num then DErr.overflow else .underflow) := by
  have hne : d.num * o.num ≠ 0 := by intro h0; rw [h0] at h; norm_num at h
  obtain ⟨a1, a2, a3⟩ := num_sign d
  obtain ⟨b1, b2, b3⟩ := num_sign o
  have hd0 : d.value ≠ 0 := fun h0 => hne (by rw [a3.mpr h0, zero_mul])
  have ho0 : o.value ≠ 0 := fun h0 => hne (by rw [b3.mpr h0, mul_zero])
  unfold mulErr Decimal.sign
  rcases lt_or_gt_of_ne hd0 with x | x <;> rcases lt_or_gt_of_ne ho0 with y | y
  · have := mul_pos_of_neg_of_neg (a2.mpr x) (b2.mpr y)
    rw [if_pos this]
    simp [x, y, not_lt_of_gt x, not_lt_of_gt y]
  · have := mul_neg_of_neg_of_pos (a2.mpr x) (b1.mpr y)
    rw [if_neg (not_lt_of_gt this)]
    simp [x, y, not_lt_of_gt x, not_lt_of_gt y]
  · have := mul_neg_of_pos_of_neg (a1.mpr x) (b2.mpr y)
    rw [if_neg (not_lt_of_gt this)]
    simp [x, y, not_lt_of_gt x, not_lt_of_gt y]
  · have := mul_pos (a1.mpr x) (b1.mpr y)
    rw [if_pos this]
    simp [x, y, not_lt_of_gt x, not_lt_of_gt y]

/-- Every number from 2^63 on has eighteen first digits. -/
theorem split18 (p : Nat) (hp : 9223372036854775808 ≤ p) :
    ∃ E, 100000000000000000 ≤ p / 10 ^ E ∧ p / 10 ^ E < 1000000000000000000 := by
  have h1 := natChars_pow_le p (by omega)
  have h2 := natChars_lt_pow p
  generalize (natChars p).length = L at *
  have hL : 18 ≤ L := by
    by_contra hc
    have : 10 ^ L ≤ 10 ^ 18 := Nat.pow_le_pow_right (by norm_num) (by omega)
    have : (10 : Nat) ^ 18 = 1000000000000000000 := by norm_num
    omega
  refine ⟨L - 18, ?_, ?_⟩
  · rw [Nat.le_div_iff_mul_le (by positivity), show (100000000000000000 : Nat) = 10 ^ 17 by norm_num, ← pow_add]
    rwa [show 17 + (L - 18) = L - 1 by omega]
  · rw [Nat.div_lt_iff_lt_mul (by positivity), show (1000000000000000000 : Nat) = 10 ^ 18 by norm_num, ← pow_add]
    rwa [show 18 + (L - 18) = L by omega]

theorem to18_eq (n s : Nat) : to18 n s = ((10 ^ (s - 18) * roundOff n (s - 18) : Nat) : ℚ) / 10 ^ s := by
  unfold to18
  have hss : (10 : ℚ) ^ s = 10 ^ (min s 18) * 10 ^ (s - 18) := by
    rw [← pow_add]; congr 1; omega
  have a := pow10_pos (min s 18)
  have b := pow10_pos (s - 18)
  rw [hss]; push_cast; field_simp

theorem far_of (P z : ℚ) (s : Nat) (h1 : (10 : ℚ) ^ (s - 18) ≤ P - z) (h2 : P ≤ 10 ^ 17 * (P - z)) :
    max (1 / 10 ^ 18) (P / 10 ^ s / 10 ^ 17) ≤ P / 10 ^ s - z / 10 ^ s := by
  have a := pow10_pos s
  rw [← sub_div]
  apply max_le
  · rw [div_le_div_iff₀ (by norm_num) a]
    have : (10 : ℚ) ^ s ≤ 10 ^ 18 * 10 ^ (s - 18) := by
      rw [← pow_add]; exact pow_le_pow_right₀ (by norm_num) (by omega)
    nlinarith
  · rw [div_right_comm]
    apply div_le_div_of_nonneg_right _ a.le
    rw [div_le_iff₀ (by norm_num)]; linarith

theorem roundOff_le (n k : Nat) : 10 ^ k * roundOff n k ≤ n + fives k := Nat.mul_div_le _ _

theorem pow_cases (k : Nat) (h : k ≤ 18) : 10 ^ k ≤ 100000000000000000 ∨ 10 ^ k = 1000000000000000000 := by
  rcases Nat.lt_or_ge k 18 with h' | h'
  · left
    calc 10 ^ k ≤ 10 ^ 17 := Nat.pow_le_pow_right (by norm_num) (by omega)
      _ = 100000000000000000 := by norm_num
  · right
    have : k = 18 := by omega
    subst this; norm_num

theorem tenfold_far (p rs : Nat) (h1 : 1000000000000000000 ≤ p) (h2 : p < 9223372036854775808) (hrs : rs ≤ 36) :
    max (1 / 10 ^ 18) ((p : ℚ) / 10 ^ rs / 10 ^ 17) ≤ (p : ℚ) / 10 ^ rs - to18 ((p + 5) / 10) rs := by
  rw [to18_eq]
  have hr := roundOff_le ((p + 5) / 10) (rs - 18)
  have hf := fives_eq (rs - 18)
  have hc := pow_cases (rs - 18) (by omega)
  have hz : 10 ^ (rs - 18) * roundOff ((p + 5) / 10) (rs - 18) = 0 ∨
      10 ^ (rs - 18) ≤ 10 ^ (rs - 18) * roundOff ((p + 5) / 10) (rs - 18) := by
    rcases Nat.eq_zero_or_pos (roundOff ((p + 5) / 10) (rs - 18)) with h | h
    · left; rw [h, Nat.mul_zero]
    · right; exact Nat.le_mul_of_pos_right _ h
  have hp1 : 1 ≤ 10 ^ (rs - 18) := Nat.one_le_pow _ _ (by norm_num)
  have key : 10 ^ (rs - 18) * roundOff ((p + 5) / 10) (rs - 18) + 10 ^ (rs - 18) ≤ p ∧
      2 * (10 ^ (rs - 18) * roundOff ((p + 5) / 10) (rs - 18)) ≤ p := by
    generalize 10 ^ (rs - 18) * roundOff ((p + 5) / 10) (rs - 18) = z at *
    generalize 10 ^ (rs - 18) = P at *
    generalize fives (rs - 18) = F at *
    omega
  have k1 : ((10 ^ (rs - 18) * roundOff ((p + 5) / 10) (rs - 18) : Nat) : ℚ) + 10 ^ (rs - 18) ≤ p := by exact_mod_cast key.1
  have k2 : 2 * ((10 ^ (rs - 18) * roundOff ((p + 5) / 10) (rs - 18) : Nat) : ℚ) ≤ p := by exact_mod_cast key.2
  have hp0 : (0 : ℚ) ≤ p := by positivity
  generalize ((10 ^ (rs - 18) * roundOff ((p + 5) / 10) (rs - 18) : Nat) : ℚ) = z at *
  exact far_of p z rs (by linarith) (by nlinarith)

theorem nines_far (P : ℚ) (s : Nat) (h1 : 999999999999999999 ≤ P) (hs : s ≤ 35) :
    max (1 / 10 ^ 18) (P / 10 ^ s / 10 ^ 17) ≤ P / 10 ^ s - to18 100000000000000000 s := by
  rw [to18_eq]
  have hr := roundOff_le 100000000000000000 (s - 18)
  have hf := fives_eq (s - 18)
  have hc : 10 ^ (s - 18) ≤ 100000000000000000 :=
    calc 10 ^ (s - 18) ≤ 10 ^ 17 := Nat.pow_le_pow_right (by norm_num) (by omega)
      _ = 100000000000000000 := by norm_num
  have key : 10 ^ (s - 18) * roundOff 100000000000000000 (s - 18) + 10 ^ (s - 18) ≤ 300000000000000000 := by
    generalize 10 ^ (s - 18) * roundOff 100000000000000000 (s - 18) = z at *
    generalize 10 ^ (s - 18) = P at *
    generalize fives (s - 18) = F at *
    omega
  have k1 : ((10 ^ (s - 18) * roundOff 100000000000000000 (s - 18) : Nat) : ℚ) + 10 ^ (s - 18) ≤ 300000000000000000 := by exact_mod_cast key
  have hp0 := pow10_pos (s - 18)
  generalize ((10 ^ (s - 18) * roundOff 100000000000000000 (s - 18) : Nat) : ℚ) = z at *
  exact far_of P z s (by linarith) (by linarith)

theorem mul_core_small (d o : Decimal) (hd : d.Valid) (ho : o.Valid)
    (hp : d.value.natAbs * o.value.natAbs < 1000000000000000000) :
    d.mul o = mulFinish d o (some (d.value.natAbs * o.value.natAbs, d.scale + o.scale)) := by
  obtain ⟨c, hc, hm⟩ := mul_core d o hd ho
  rw [hm]
  clear hm
  generalize d.value.natAbs * o.value.natAbs = p at *
  cases hc with
  | small h => rfl
  | int h1 h2 => omega
  | tenfold h1 h2 h3 => omega
  | tooBig h1 h2 => omega
  | big e t n h1 => omega
  | nines e _ h0 h1 => omega

theorem mul_core_whole (d o : Decimal) (hd : d.Valid) (ho : o.Valid) (hs : d.scale + o.scale = 0)
    (hp : 1000000000000000000 ≤ d.value.natAbs * o.value.natAbs) : d.mul o = .err (mulErr d o) := by
  obtain ⟨c, hc, hm⟩ := mul_core d o hd ho
  rw [hm]
  clear hm
  rw [hs] at hc
  generalize d.value.natAbs * o.value.natAbs = p at *
  cases hc with
  | small h => omega
  | int h1 h2 => rfl
  | tenfold h1 h2 h3 => omega
  | tooBig h1 h2 => rfl
  | big e t n h1 h2 => simp at h2; omega
  | nines e _ h0 h1 => omega

theorem mul_core_tenfold (d o : Decimal) (hd : d.Valid) (ho : o.Valid) (hs : 0 < d.scale + o.scale)
    (h1 : 1000000000000000000 ≤ d.value.natAbs * o.value.natAbs) (h2 : d.value.natAbs * o.value.natAbs < 9223372036854775808) :
    d.mul o = mulFinish d o (some ((d.value.natAbs * o.value.natAbs + 5) / 10, d.scale + o.scale)) := by
  obtain ⟨c, hc, hm⟩ := mul_core d o hd ho
  rw [hm]
  clear hm
  generalize d.value.natAbs * o.value.natAbs = p at *
  cases hc with
  | small h => omega
  | int h1 h2 => omega
  | tenfold h1 h2 h3 => rfl
  | tooBig h1 h2 => omega
  | big e t n h1 => omega
  | nines e _ h0 h1 => omega

/-- The distance between a result of Mul and the product. -/
theorem mul_dist (d o r : Decimal) (x : ℚ) (h : r.num = mulSgn d o * x) :
    |r.num - d.num * o.num| = |x - ((d.value.natAbs * o.value.natAbs : Nat) : ℚ) / 10 ^ (d.scale + o.scale)| := by
  rw [h, prod_num, ← mul_sub, abs_mul, mulSgn_abs, one_mul]

/-- C09, exactly: Mul is right for all valid operands but the ones of `MulWrong`, and wrong for each of
those. -/
theorem c09_iff (d o : Decimal) (hd : d.Valid) (ho : o.Valid) : MulRight d o ↔ ¬ MulWrong d o := by
  have hsc : d.scale + o.scale ≤ 36 := by have := hd.2; have := ho.2; omega
  have hpow : 0 < 10 ^ (d.scale + o.scale) := by positivity
  constructor
  · rintro ⟨_, hr⟩ ⟨hs, hw⟩
    have hnot : ¬ 10 ^ 18 ≤ |d.num * o.num| := by
      rw [prod_big_iff, not_le]
      rcases hw with ⟨w1, w2⟩ | ⟨w1, E, hE, w2, w3⟩
      · calc d.value.natAbs * o.value.natAbs < 1000000000000000000 * 10 ^ 1 := lt_trans w2 (by norm_num)
          _ ≤ 1000000000000000000 * 10 ^ (d.scale + o.scale) := Nat.mul_le_mul_left _ (Nat.pow_le_pow_right (by norm_num) hs)
      · have : d.value.natAbs * o.value.natAbs < 1000000000000000000 * 10 ^ E := by
          rw [← Nat.div_lt_iff_lt_mul (by positivity), w2]; norm_num
        exact lt_of_lt_of_le this (Nat.mul_le_mul_left _ (Nat.pow_le_pow_right (by norm_num) hE))
    obtain ⟨r, r1, _, r3⟩ := hr (not_le.mp hnot)
    rw [prod_abs] at r3
    rcases hw with ⟨w1, w2⟩ | ⟨w1, E, hE, w2, w3⟩
    · obtain ⟨r', q1, _, q3⟩ := mulFinish_ok d o ((d.value.natAbs * o.value.natAbs + 5) / 10) (d.scale + o.scale) (by omega)
      rw [mul_core_tenfold d o hd ho hs w1 w2, q1] at r1
      cases r1
      rw [mul_dist d o r _ q3, abs_sub_comm] at r3
      have far := tenfold_far _ _ w1 w2 hsc
      exact absurd (lt_of_lt_of_le r3 (le_trans far (le_abs_self _))) (lt_irrefl _)
    · obtain ⟨v1, v2⟩ := c09_value d o hd ho hs w1 E 999999999999999999 w2.symm (by norm_num) (by norm_num)
      obtain ⟨_, _, v3, v4⟩ := v2 (d.scale + o.scale - E) (by omega)
      have hup : roundOff (d.value.natAbs * o.value.natAbs) E = 999999999999999999 + 1 ∧ 5 ≤ 999999999999999999 % 10 := ⟨w3, by norm_num⟩
      rcases Nat.eq_zero_or_pos (d.scale + o.scale - E) with h0 | h0
      · rw [v3 hup rfl h0] at r1; cases r1
      · obtain ⟨r', q1, _, q3⟩ := v4 hup rfl h0
        rw [q1] at r1
        cases r1
        rw [mul_dist d o r _ q3, abs_sub_comm] at r3
        have hE0 : 0 < E := by
          rcases Nat.eq_zero_or_pos E with h | h
          · subst h; simp at w2; omega
          · exact h
        have hpe := pow10_pos E
        have h9 : 999999999999999999 ≤ ((d.value.natAbs * o.value.natAbs : Nat) : ℚ) / 10 ^ E := by
          rw [le_div_iff₀ hpe]
          have := Nat.div_mul_le_self (d.value.natAbs * o.value.natAbs) (10 ^ E)
          rw [w2] at this
          exact_mod_cast this
        have far := nines_far _ (d.scale + o.scale - E) h9 (by omega)
        have hx : ((d.value.natAbs * o.value.natAbs : Nat) : ℚ) / 10 ^ E / 10 ^ (d.scale + o.scale - E) =
            ((d.value.natAbs * o.value.natAbs : Nat) : ℚ) / 10 ^ (d.scale + o.scale) := by
          rw [div_div, ← pow_add]; congr 2; omega
        rw [hx] at far
        exact absurd (lt_of_lt_of_le r3 (le_trans far (le_abs_self _))) (lt_irrefl _)
  · intro hw
    rcases Nat.lt_or_ge (d.value.natAbs * o.value.natAbs) 1000000000000000000 with hlt | hge
    · constructor
      · intro h
        rw [prod_big_iff] at h
        have : 1000000000000000000 * 1 ≤ 1000000000000000000 * 10 ^ (d.scale + o.scale) := Nat.mul_le_mul_left _ hpow
        omega
      · intro _
        rw [mul_core_small d o hd ho hlt]
        obtain ⟨r, r1, r2, r3⟩ := mulFinish_ok d o (d.value.natAbs * o.value.natAbs) (d.scale + o.scale) (by omega)
        refine ⟨r, r1, r2, ?_⟩
        rw [mul_dist d o r _ r3, prod_abs]
        exact round_error_lt _ _ _ _ (le_refl _) (.inl (by simp))
    · rcases Nat.eq_zero_or_pos (d.scale + o.scale) with hs | hs
      · have hbig : 10 ^ 18 ≤ |d.num * o.num| := by rw [prod_big_iff, hs]; simpa using hge
        exact ⟨fun h => by rw [mul_core_whole d o hd ho hs hge, mulErr_sign d o h], fun h => absurd hbig (not_le.mpr h)⟩
      · have hp : 9223372036854775808 ≤ d.value.natAbs * o.value.natAbs := by
          by_contra hc
          exact hw ⟨hs, .inl ⟨hge, not_le.mp hc⟩⟩
        obtain ⟨E, e1, e2⟩ := split18 _ hp
        have hpE : 0 < 10 ^ E := by positivity
        obtain ⟨v1, v2⟩ := c09_value d o hd ho hs hp E _ rfl e1 e2
        have d1 := Nat.div_mul_le_self (d.value.natAbs * o.value.natAbs) (10 ^ E)
        have d2 : d.value.natAbs * o.value.natAbs < (d.value.natAbs * o.value.natAbs / 10 ^ E + 1) * 10 ^ E := by
          rw [← Nat.div_lt_iff_lt_mul hpE]; omega
        have hcnine : E ≤ d.scale + o.scale → roundOff (d.value.natAbs * o.value.natAbs) E = d.value.natAbs * o.value.natAbs / 10 ^ E + 1 →
            d.value.natAbs * o.value.natAbs / 10 ^ E ≠ 999999999999999999 := by
          intro hE h1 h2
          exact hw ⟨hs, .inr ⟨hp, E, hE, h2, by rw [h1, h2]⟩⟩
        have hstrict : roundOff (d.value.natAbs * o.value.natAbs) E = d.value.natAbs * o.value.natAbs / 10 ^ E + 1 →
            d.value.natAbs * o.value.natAbs / 10 ^ E * 10 ^ E < d.value.natAbs * o.value.natAbs := by
          intro h
          apply lt_of_le_of_ne d1
          intro heq
          have := (roundOff_mul (d.value.natAbs * o.value.natAbs / 10 ^ E) E 0).trans (roundOff_zero _)
          rw [heq, Nat.add_zero] at this
          omega
        by_cases hE : d.scale + o.scale < E
        · have hbig : 10 ^ 18 ≤ |d.num * o.num| := by
            rw [prod_big_iff]
            calc 1000000000000000000 * 10 ^ (d.scale + o.scale) = 100000000000000000 * 10 ^ (d.scale + o.scale + 1) := by rw [pow_succ]; ring
              _ ≤ 100000000000000000 * 10 ^ E := Nat.mul_le_mul_left _ (Nat.pow_le_pow_right (by norm_num) hE)
              _ ≤ _ := Nat.mul_le_mul_right _ e1
              _ ≤ _ := d1
          exact ⟨fun h => by rw [v1 hE, mulErr_sign d o h], fun h => absurd hbig (not_le.mpr h)⟩
        · obtain ⟨x1, x2, _, _⟩ := v2 (d.scale + o.scale - E) (by omega)
          have hEle : E ≤ d.scale + o.scale := by omega
          have hsub : d.scale + o.scale - (d.scale + o.scale - E) = E := by omega
          have hnot : ¬ 10 ^ 18 ≤ |d.num * o.num| := by
            rw [prod_big_iff, not_le]
            have : d.value.natAbs * o.value.natAbs < 1000000000000000000 * 10 ^ E := (Nat.div_lt_iff_lt_mul hpE).mp e2
            exact lt_of_lt_of_le this (Nat.mul_le_mul_left _ (Nat.pow_le_pow_right (by norm_num) hEle))
          refine ⟨fun h => absurd h hnot, fun _ => ?_⟩
          have b1 := Nat.mul_le_mul_right (10 ^ E) e1
          by_cases hup : roundOff (d.value.natAbs * o.value.natAbs) E = d.value.natAbs * o.value.natAbs / 10 ^ E + 1 ∧
              5 ≤ d.value.natAbs * o.value.natAbs / 10 ^ E % 10
          · have hn := hcnine hEle hup.1
            obtain ⟨r, r1, r2, r3⟩ := x2 hup (by clear d1 d2 b1; omega)
            refine ⟨r, r1, r2, ?_⟩
            rw [mul_dist d o r _ r3, prod_abs]
            apply round_error_lt _ _ _ _ (by omega) (.inr ?_)
            rw [hsub]
            have hst := hstrict hup.1
            clear x1 x2 v1 v2 r3 hup hstrict hcnine hn
            generalize d.value.natAbs * o.value.natAbs = p at *
            have a1 : (p / 10 ^ E + 1) * 10 ^ E = p / 10 ^ E * 10 ^ E + 10 ^ E := by ring
            have a2 : (p / 10 ^ E + 1 + 1) * 10 ^ E = p / 10 ^ E * 10 ^ E + 10 ^ E + 10 ^ E := by ring
            rw [a1] at d2
            rw [a2, a1]
            generalize p / 10 ^ E * 10 ^ E = z at *
            refine ⟨le_trans b1 d1, by omega, by omega⟩
          · obtain ⟨r, r1, r2, r3⟩ := x1 hup
            refine ⟨r, r1, r2, ?_⟩
            rw [mul_dist d o r _ r3, prod_abs]
            apply round_error_lt _ _ _ _ (by omega) (.inr ?_)
            rw [hsub]
            exact ⟨le_trans b1 d1, lt_of_le_of_lt d1 (by omega), d2⟩

/-- Non-vacuity: 1.5 * 2.5 is right, and so is 1.2 * 833333333333333309 (unscaled product above 2^63); the
square of 303700049.9 and 0.12 * 833333333333333333 are not. -/
example : ¬ MulWrong ⟨15, 1, false⟩ ⟨25, 1, false⟩ ∧ ¬ MulWrong ⟨833333333333333309, 0, false⟩ ⟨12, 1, false⟩ ∧
    MulWrong ⟨3037000499, 1, false⟩ ⟨3037000499, 1, false⟩ ∧ MulWrong ⟨12, 2, false⟩ ⟨833333333333333333, 0, false⟩ := by
  refine ⟨?_, ?_, ⟨by decide, .inl (by decide)⟩, ⟨by decide, .inr ⟨by decide, 1, by decide, by decide, by decide⟩⟩⟩
  · rintro ⟨_, ⟨h, _⟩ | ⟨h, _⟩⟩ <;> revert h <;> decide
  · rintro ⟨_, ⟨_, h⟩ | ⟨_, E, h0, h, _⟩⟩
    · revert h; decide
    · simp only at h0
      have : E = 0 ∨ E = 1 := by omega
      rcases this with rfl | rfl <;> revert h <;> decide

/-- C09, the rounding. Mul does not round to the nearest number, nor does it round half up: whenever the last of
the 18 digits that are kept is below 5, what follows is cut off, so that a number one unit larger would have been closer
to the product. -/
theorem c09_truncated_refuted (d o : Decimal) (hd : d.Valid) (ho : o.Valid) (hs : 0 < d.scale + o.scale)
    (hp : 9223372036854775808 ≤ d.value.natAbs * o.value.natAbs) (E t s : Nat)
    (ht : t = d.value.natAbs * o.value.natAbs / 10 ^ E) (h1 : 100000000000000000 ≤ t) (h2 : t < 1000000000000000000)
    (hE : d.scale + o.scale = E + s) (hs18 : s ≤ 18) (h5 : t % 10 < 5)
    (hhalf : 10 ^ E < 2 * (d.value.natAbs * o.value.natAbs % 10 ^ E)) :
    ∃ r better : Decimal, d.mul o = .ok r ∧ better.Valid ∧ |better.num - d.num * o.num| < |r.num - d.num * o.num| := by
  obtain ⟨_, v2⟩ := c09_value d o hd ho hs hp E t ht h1 h2
  obtain ⟨r, r1, r2, r3⟩ := (v2 s hE).1 (fun h => by omega)
  refine ⟨r, ⟨if decide (d.value ≥ 0) = decide (o.value ≥ 0) then ((t + 1 : Nat) : Int) else -((t + 1 : Nat) : Int), s, false⟩, r1, ?_, ?_⟩
  · refine ⟨?_, hs18⟩
    unfold Fits; simp only
    clear ht; split <;> omega
  · have hb : (⟨if decide (d.value ≥ 0) = decide (o.value ≥ 0) then ((t + 1 : Nat) : Int) else -((t + 1 : Nat) : Int), s, false⟩ : Decimal).num
        = mulSgn d o * (((t + 1 : Nat) : ℚ) / 10 ^ s) := by
      unfold Decimal.num mulSgn
      simp only
      split <;> push_cast <;> ring
    rw [mul_dist d o _ _ hb, mul_dist d o _ _ r3, hE]
    unfold to18
    rw [show s - 18 = 0 by omega, roundOff_zero, Nat.min_eq_left hs18]
    have hm := Nat.div_add_mod (d.value.natAbs * o.value.natAbs) (10 ^ E)
    have hml := Nat.mod_lt (d.value.natAbs * o.value.natAbs) (show 0 < 10 ^ E by positivity)
    rw [← ht] at hm
    generalize d.value.natAbs * o.value.natAbs = p at *
    generalize p % 10 ^ E = q at *
    have a := pow10_pos s
    have b := pow10_pos E
    have hx : (p : ℚ) / 10 ^ (E + s) = (t + (q : ℚ) / 10 ^ E) / 10 ^ s := by
      rw [← hm, pow_add]; push_cast; field_simp
    have q1 : (1 : ℚ) / 2 < (q : ℚ) / 10 ^ E := by
      rw [div_lt_div_iff₀ (by norm_num) b]
      have : (10 : ℚ) ^ E < 2 * q := by exact_mod_cast hhalf
      linarith
    have q2 : (q : ℚ) / 10 ^ E < 1 := by
      rw [div_lt_one b]; exact_mod_cast hml
    rw [hx]
    generalize (q : ℚ) / 10 ^ E = y at *
    rw [← sub_div, ← sub_div, abs_div, abs_div, abs_of_pos a]
    apply div_lt_div_of_pos_right _ a
    push_cast
    rw [abs_of_nonneg (by linarith), abs_of_nonpos (by linarith)]
    linarith

/-- Non-vacuity: 1.2 * 833333333333333309 is 999999999999999970.8; Mul returns 999999999999999970. -/
example : ∃ E t s, 0 < (⟨12, 1, false⟩ : Decimal).scale + (⟨833333333333333309, 0, false⟩ : Decimal).scale ∧
    9223372036854775808 ≤ (12 : Int).natAbs * (833333333333333309 : Int).natAbs ∧
    t = (12 : Int).natAbs * (833333333333333309 : Int).natAbs / 10 ^ E ∧ 100000000000000000 ≤ t ∧ t < 1000000000000000000 ∧
    1 + 0 = E + s ∧ s ≤ 18 ∧ t % 10 < 5 ∧ 10 ^ E < 2 * ((12 : Int).natAbs * (833333333333333309 : Int).natAbs % 10 ^ E) :=
  ⟨1, 999999999999999970, 0, by decide⟩

end Micro.Dec
