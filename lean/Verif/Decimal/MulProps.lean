import Verif.Decimal.MulLemmas
set_option linter.unusedSimpArgs false
/-
C09: Mul.
-/
namespace Micro.Dec
open Micro

/-- The sign Mul gives its result. -/
def mulSgn (d o : Decimal) : ℚ := if decide (d.value ≥ 0) = decide (o.value ≥ 0) then 1 else -1

theorem mulSgn_abs (d o : Decimal) : |mulSgn d o| = 1 := by unfold mulSgn; split <;> simp

theorem mulSgn_sq (d o : Decimal) : mulSgn d o * mulSgn d o = 1 := by unfold mulSgn; split <;> simp

theorem cast_natAbs_sgn (v : Int) : (v : ℚ) = (if decide (v ≥ 0) = true then 1 else -1) * (v.natAbs : ℚ) := by
  rw [Nat.cast_natAbs, Int.cast_abs]
  split
  · rename_i h
    rw [abs_of_nonneg (by exact_mod_cast of_decide_eq_true h), one_mul]
  · rename_i h
    have : v < 0 := by simpa using h
    rw [abs_of_neg (by exact_mod_cast this)]; ring

theorem prod_num (d o : Decimal) :
    d.num * o.num = mulSgn d o * (((d.value.natAbs * o.value.natAbs : Nat) : ℚ) / 10 ^ (d.scale + o.scale)) := by
  unfold Decimal.num mulSgn
  rw [cast_natAbs_sgn d.value, cast_natAbs_sgn o.value, pow_add]
  push_cast
  have h1 := pow10_pos d.scale
  have h2 := pow10_pos o.scale
  by_cases h3 : 0 ≤ d.value <;> by_cases h4 : 0 ≤ o.value <;> simp [h3, h4] <;> field_simp

theorem prod_abs (d o : Decimal) :
    |d.num * o.num| = ((d.value.natAbs * o.value.natAbs : Nat) : ℚ) / 10 ^ (d.scale + o.scale) := by
  rw [prod_num, abs_mul, mulSgn_abs, one_mul, abs_of_nonneg (by positivity)]

theorem core_le {p rs n s : Nat} (h : Core p rs (some (n, s))) : n ≤ 999999999999999999 := by
  cases h with
  | small h => exact h
  | tenfold h1 h2 h3 => omega
  | big e t n hp h1 h2 h3 h4 h5 => exact h4
  | nines e _ h0 hp h1 h2 => exact h2 n s rfl

/-- A successful Mul, seen from outside. -/
theorem mul_ok (d o r : Decimal) (hd : d.Valid) (ho : o.Valid) (h : d.mul o = .ok r) :
    ∃ n s m, Core (d.value.natAbs * o.value.natAbs) (d.scale + o.scale) (some (n, s)) ∧ m ≤ n ∧
      9 * (10 ^ (s - 18) * m) ≤ 9 * n + 5 * (10 ^ (s - 18) - 1) ∧ 9 * n ≤ 9 * (10 ^ (s - 18) * m) + 5 * (10 ^ (s - 18) - 1) ∧
      r.num = mulSgn d o * ((m : ℚ) / 10 ^ (min s 18)) ∧ r.Valid := by
  obtain ⟨c, hc, hm⟩ := mul_core d o hd ho
  rw [hm] at h
  cases c with
  | none => simp [mulFinish] at h
  | some x =>
    obtain ⟨n, s⟩ := x
    have hn := core_le hc
    obtain ⟨m, m1, m2, m3, m4, _⟩ := mulScaleDown_spec (s - 18) n (by omega)
    simp only [mulFinish, Out.ok.injEq] at h
    rw [m1, w_id (x := -(m : Int)) (by omega) (by omega)] at h
    refine ⟨n, s, m, hc, m2, m3, m4, ?_, ?_⟩
    · rw [← h]
      unfold mulSgn
      split
      · rw [applyNormalization_num _ (by simp only; omega) (by simp only; omega)]
        unfold Decimal.num; simp
      · rw [applyNormalization_num _ (by simp only; omega) (by simp only; omega)]
        unfold Decimal.num; simp; ring
    · have hv := applyNormalization_valid ⟨if decide (d.value ≥ 0) = decide (o.value ≥ 0) then (m : Int) else -m, min s 18, d.denormalized⟩
        (by unfold Fits; simp only; split <;> omega)
      rw [h] at hv
      exact ⟨hv.1, le_trans hv.2 (by simp)⟩

/-- Mul never panics. -/
theorem mul_no_panic (d o : Decimal) (hd : d.Valid) (ho : o.Valid) :
    (∃ r, d.mul o = .ok r) ∨ d.mul o = .err (mulErr d o) := by
  obtain ⟨c, _, hm⟩ := mul_core d o hd ho
  rw [hm]
  cases c with
  | none => exact .inr rfl
  | some x => exact .inl ⟨_, rfl⟩

/-! ### C09 -/

/-- C09. When the product of the unscaled values has at most 18 digits and the scales add up to at most 18,
Mul returns exactly the product. -/
theorem c09_exact (d o : Decimal) (hd : d.Valid) (ho : o.Valid)
    (hp : |d.value * o.value| < 1000000000000000000) (hs : d.scale + o.scale ≤ 18) :
    ∃ r, d.mul o = .ok r ∧ r.num = d.num * o.num ∧ r.Valid := by
  have hp' : d.value.natAbs * o.value.natAbs < 1000000000000000000 := by
    have : ((d.value.natAbs * o.value.natAbs : Nat) : Int) = |d.value * o.value| := by
      rw [abs_mul]; push_cast; rfl
    have h2 : ((d.value.natAbs * o.value.natAbs : Nat) : Int) < 1000000000000000000 := by rw [this]; exact hp
    exact_mod_cast h2
  obtain ⟨c, hc, hm⟩ := mul_core d o hd ho
  have hsome : ∃ r, d.mul o = .ok r := by
    cases hc with
    | small h => exact ⟨_, hm⟩
    | int h1 h2 => omega
    | tenfold h1 h2 h3 => exact ⟨_, hm⟩
    | tooBig h1 h2 => generalize d.value.natAbs * o.value.natAbs = p at *; omega
    | big e t n h1 => generalize d.value.natAbs * o.value.natAbs = p at *; omega
    | nines e _ h0 h1 => generalize d.value.natAbs * o.value.natAbs = p at *; omega
  obtain ⟨r, hr⟩ := hsome
  refine ⟨r, hr, ?_⟩
  obtain ⟨n, s, m, hcore, h1, h2, h3, h4, h5⟩ := mul_ok d o r hd ho hr
  refine ⟨?_, h5⟩
  rw [prod_num, h4]
  generalize d.value.natAbs * o.value.natAbs = p at *
  cases hcore with
  | small h =>
    have e0 : d.scale + o.scale - 18 = 0 := by omega
    rw [e0] at h2 h3
    have : m = n := by simp at h2 h3; omega
    rw [this, Nat.min_eq_left hs]
  | tenfold g1 g2 g3 => omega
  | big e t n g1 => omega
  | nines e _ g0 g1 => omega

example := c09_exact ⟨15, 1, false⟩ ⟨-25, 1, false⟩ (by decide) (by decide) (by decide) (by decide)

/-- The operands for which the code computes the right product (see the two refutations below): whole
numbers, or a product of the unscaled values that has at most 18 digits, or one that does not fit in an int64
and does not start with eighteen nines. -/
def MulSafe (d o : Decimal) : Prop :=
  d.scale + o.scale = 0 ∨ d.value.natAbs * o.value.natAbs < 1000000000000000000 ∨
  (9223372036854775808 ≤ d.value.natAbs * o.value.natAbs ∧
    ∀ k, d.value.natAbs * o.value.natAbs / 10 ^ k ≠ 999999999999999999)

/-- C09, the part that holds: for safe operands Mul fails exactly when the product has more than 18 digits
before the point, with an overflow or underflow error according to the sign. Missing: products between 10^18
and 2^63 and products starting with eighteen nines, where the code is wrong. -/
theorem c09_overflow_partial (d o : Decimal) (hd : d.Valid) (ho : o.Valid) (hs : MulSafe d o) :
    (10 ^ 18 ≤ |d.num * o.num| ↔ ∃ e, d.mul o = .err e) ∧
    (10 ^ 18 ≤ |d.num * o.num| → d.mul o = .err (if 0 < d.num * o.num then .overflow else .underflow)) := by
  have hsign : 10 ^ 18 ≤ |d.num * o.num| → mulErr d o = (if 0 < d.num * o.num then DErr.overflow else .underflow) := by
    intro h
    have hne : d.num * o.num ≠ 0 := by intro h0; rw [h0] at h; norm_num at h
    obtain ⟨a1, a2, a3⟩ := num_sign d
    obtain ⟨b1, b2, b3⟩ := num_sign o
    have hd0 : d.value ≠ 0 := fun h0 => hne (by rw [a3.mpr h0, zero_mul])
    have ho0 : o.value ≠ 0 := fun h0 => hne (by rw [b3.mpr h0, mul_zero])
    unfold mulErr Decimal.sign
    rcases lt_or_gt_of_ne hd0 with x | x <;> rcases lt_or_gt_of_ne ho0 with y | y
    · have := mul_pos_of_neg_of_neg (a2.mpr x) (b2.mpr y)
      rw [if_pos this]
      simp [x, y, not_lt_of_gt x, not_lt_of_gt y]
    · have := mul_neg_of_neg_of_pos (a2.mpr x) (b1.mpr y)
      rw [if_neg (not_lt_of_gt this)]
      simp [x, y, not_lt_of_gt x, not_lt_of_gt y]
    · have := mul_neg_of_pos_of_neg (a1.mpr x) (b2.mpr y)
      rw [if_neg (not_lt_of_gt this)]
      simp [x, y, not_lt_of_gt x, not_lt_of_gt y]
    · have := mul_pos (a1.mpr x) (b1.mpr y)
      rw [if_pos this]
      simp [x, y, not_lt_of_gt x, not_lt_of_gt y]
  have hbig : 10 ^ 18 ≤ |d.num * o.num| ↔ 1000000000000000000 * 10 ^ (d.scale + o.scale) ≤ d.value.natAbs * o.value.natAbs := by
    rw [prod_abs, le_div_iff₀ (pow10_pos _)]
    generalize d.value.natAbs * o.value.natAbs = p
    have e : (10 : ℚ) ^ 18 = ((1000000000000000000 : Nat) : ℚ) := by norm_num
    rw [e]
    norm_cast
  obtain ⟨c, hc, hm⟩ := mul_core d o hd ho
  have key : 1000000000000000000 * 10 ^ (d.scale + o.scale) ≤ d.value.natAbs * o.value.natAbs ↔ c = none := by
    unfold MulSafe at hs
    clear hm hbig hsign hd ho
    have hpow : 0 < 10 ^ (d.scale + o.scale) := by positivity
    have hpow10 : 0 < d.scale + o.scale → 10 ≤ 10 ^ (d.scale + o.scale) := by
      intro h
      calc 10 = 10 ^ 1 := by norm_num
        _ ≤ 10 ^ (d.scale + o.scale) := Nat.pow_le_pow_right (by norm_num) h
    generalize d.value.natAbs * o.value.natAbs = p at *
    generalize d.scale + o.scale = rs at *
    cases hc with
    | small h =>
      simp only [reduceCtorEq, iff_false]
      generalize 10 ^ rs = P at *
      omega
    | int h1 h2 => subst h2; simp; omega
    | tenfold h1 h2 h3 =>
      simp only [reduceCtorEq, iff_false]
      have := hpow10 h3
      generalize 10 ^ rs = P at *
      omega
    | tooBig h1 h2 => simp only [iff_true]; exact h2
    | big e t n h1 h2 => simp only [reduceCtorEq, iff_false]; exact Nat.not_le_of_lt h2
    | nines e _ h0 h1 h2 h3 =>
      exfalso
      rcases hs with hs | hs | hs
      · omega
      · omega
      · exact hs.2 e h2
  rw [hbig, key]
  constructor
  · constructor
    · intro h; subst h; exact ⟨_, hm⟩
    · rintro ⟨e, he⟩
      rw [hm] at he
      cases c with
      | none => rfl
      | some x => simp [mulFinish] at he
  · intro h
    rw [← hsign (hbig.mpr (key.mpr h)), hm, h]; rfl

example := c09_overflow_partial ⟨999999999999999999, 0, false⟩ ⟨-999999999999999999, 0, false⟩ (by decide) (by decide) (.inl rfl)

/-- How far the last two roundings are from the exact product, in the units of the computation. -/
theorem round_error (p rs n s m : Nat) (hle : s ≤ rs) (hex : n * 10 ^ (rs - s) = p ∨
      (100000000000000000 * 10 ^ (rs - s) ≤ p ∧ n * 10 ^ (rs - s) ≤ p + 10 ^ (rs - s) ∧ p ≤ (n + 1) * 10 ^ (rs - s)))
    (h2 : 9 * (10 ^ (s - 18) * m) ≤ 9 * n + 5 * (10 ^ (s - 18) - 1))
    (h3 : 9 * n ≤ 9 * (10 ^ (s - 18) * m) + 5 * (10 ^ (s - 18) - 1)) :
    |(m : ℚ) / 10 ^ (min s 18) - (p : ℚ) / 10 ^ rs| ≤ max (1 / 10 ^ 18) ((p : ℚ) / 10 ^ rs / 10 ^ 17) := by
  obtain ⟨e, rfl⟩ : ∃ e, rs = s + e := ⟨rs - s, by omega⟩
  rw [Nat.add_sub_cancel_left] at hex
  have hps := pow10_pos s
  have hpe := pow10_pos e
  -- first the distance between n/10^s and the product
  have herr : |(n : ℚ) / 10 ^ s - (p : ℚ) / 10 ^ (s + e)| ≤ 1 / 10 ^ s ∧
      ((n : ℚ) / 10 ^ s = (p : ℚ) / 10 ^ (s + e) ∨ 1 / 10 ^ s ≤ (p : ℚ) / 10 ^ (s + e) / 10 ^ 17) := by
    have hx : (p : ℚ) / 10 ^ (s + e) = (p : ℚ) / 10 ^ e / 10 ^ s := by rw [pow_add]; field_simp
    rw [hx]
    rcases hex with hx | ⟨x1, x2, x3⟩
    · have : (p : ℚ) / 10 ^ e = n := by rw [← hx]; push_cast; field_simp
      rw [this]
      exact ⟨by rw [sub_self, abs_zero]; positivity, .inl rfl⟩
    · have x1' : (100000000000000000 : ℚ) ≤ (p : ℚ) / 10 ^ e := by
        rw [le_div_iff₀ hpe]; exact_mod_cast x1
      have x2' : (n : ℚ) ≤ (p : ℚ) / 10 ^ e + 1 := by
        have : (n : ℚ) * 10 ^ e ≤ (p : ℚ) + 10 ^ e := by exact_mod_cast x2
        have h : (p : ℚ) / 10 ^ e + 1 = (p + 10 ^ e) / 10 ^ e := by field_simp
        rw [h, le_div_iff₀ hpe]; exact this
      have x3' : (p : ℚ) / 10 ^ e ≤ n + 1 := by
        rw [div_le_iff₀ hpe]; exact_mod_cast x3
      constructor
      · rw [← sub_div, abs_div, abs_of_pos hps]
        apply div_le_div_of_nonneg_right _ hps.le
        rw [abs_le]; constructor <;> linarith
      · right
        rw [div_right_comm]
        apply div_le_div_of_nonneg_right _ hps.le
        rw [le_div_iff₀ (by norm_num)]; linarith
  by_cases hs : s ≤ 18
  · have e0 : s - 18 = 0 := by omega
    rw [e0] at h2 h3
    have : m = n := by simp at h2 h3; omega
    rw [this, Nat.min_eq_left hs]
    rcases herr.2 with h | h
    · rw [h, sub_self, abs_zero]; positivity
    · exact le_trans herr.1 (le_trans h (le_max_right _ _))
  · obtain ⟨k, rfl⟩ : ∃ k, s = 18 + (k + 1) := ⟨s - 19, by omega⟩
    rw [Nat.add_sub_cancel_left] at h2 h3
    rw [Nat.min_eq_right (by omega)]
    apply le_trans _ (le_max_left _ _)
    have hpk := pow10_pos k
    have hk1 : 1 ≤ 10 ^ (k + 1) := Nat.one_le_pow _ _ (by norm_num)
    have g2 : (9 : ℚ) * (10 ^ (k + 1) * m) ≤ 9 * n + 5 * 10 ^ (k + 1) := by
      have : 9 * (10 ^ (k + 1) * m) ≤ 9 * n + 5 * 10 ^ (k + 1) := by omega
      exact_mod_cast this
    have g3 : (9 : ℚ) * n ≤ 9 * (10 ^ (k + 1) * m) + 5 * 10 ^ (k + 1) := by
      have : 9 * n ≤ 9 * (10 ^ (k + 1) * m) + 5 * 10 ^ (k + 1) := by omega
      exact_mod_cast this
    have hd : |(m : ℚ) / 10 ^ 18 - (n : ℚ) / 10 ^ (18 + (k + 1))| ≤ 5 / 9 / 10 ^ 18 := by
      have hpk1 := pow10_pos (k + 1)
      have e : (m : ℚ) / 10 ^ 18 - (n : ℚ) / 10 ^ (18 + (k + 1)) = (m - (n : ℚ) / 10 ^ (k + 1)) / 10 ^ 18 := by
        rw [pow_add]; field_simp
      rw [e, abs_div, abs_of_pos (by norm_num : (0 : ℚ) < 10 ^ 18)]
      apply div_le_div_of_nonneg_right _ (by norm_num)
      have y : (n : ℚ) = (n : ℚ) / 10 ^ (k + 1) * 10 ^ (k + 1) := by field_simp
      set z := (n : ℚ) / 10 ^ (k + 1) with hz
      rw [y] at g2 g3
      rw [abs_le]
      constructor
      · by_contra hc; push Not at hc; nlinarith
      · by_contra hc; push Not at hc; nlinarith
    have hsmall : (1 : ℚ) / 10 ^ (18 + (k + 1)) ≤ 1 / 10 / 10 ^ 18 := by
      rw [div_div, ← pow_succ']
      apply div_le_div_of_nonneg_left (by norm_num) (by positivity)
      exact pow_le_pow_right₀ (by norm_num) (by omega)
    calc |(m : ℚ) / 10 ^ 18 - (p : ℚ) / 10 ^ (18 + (k + 1) + e)|
        ≤ |(m : ℚ) / 10 ^ 18 - (n : ℚ) / 10 ^ (18 + (k + 1))| + |(n : ℚ) / 10 ^ (18 + (k + 1)) - (p : ℚ) / 10 ^ (18 + (k + 1) + e)| := abs_sub_le _ _ _
      _ ≤ 5 / 9 / 10 ^ 18 + 1 / 10 / 10 ^ 18 := add_le_add hd (le_trans herr.1 hsmall)
      _ ≤ 1 / 10 ^ 18 := by norm_num

/-- C09, the part that holds: for safe operands a successful Mul is within one unit in the last place that 18
digits and 18 fractional digits allow: 10^-18, or 10^-17 of the product. -/
theorem c09_rounded_partial (d o r : Decimal) (hd : d.Valid) (ho : o.Valid) (hs : MulSafe d o) (h : d.mul o = .ok r) :
    r.Valid ∧ |r.num - d.num * o.num| ≤ max (1 / 10 ^ 18) (|d.num * o.num| / 10 ^ 17) := by
  obtain ⟨n, s, m, hcore, h1, h2, h3, h4, h5⟩ := mul_ok d o r hd ho h
  refine ⟨h5, ?_⟩
  rw [prod_abs, h4, prod_num, ← mul_sub, abs_mul, mulSgn_abs, one_mul]
  unfold MulSafe at hs
  clear h4 h5 h
  generalize d.value.natAbs * o.value.natAbs = p at *
  generalize d.scale + o.scale = rs at *
  cases hcore with
  | small h => exact round_error n s n s m (le_refl _) (.inl (by simp)) h2 h3
  | tenfold g1 g2 g3 => omega
  | big e t n g1 g2 g3 g4 g5 g6 =>
    apply round_error p rs n (rs - e) m (by omega) _ h2 h3
    have e1 : rs - (rs - e) = e := by omega
    rw [e1]
    have hpe : 0 < 10 ^ e := by positivity
    have d1 : t * 10 ^ e ≤ p := by rw [g4]; exact Nat.div_mul_le_self _ _
    have d2 : p < (t + 1) * 10 ^ e := by
      rw [g4, ← Nat.div_lt_iff_lt_mul hpe]; omega
    rcases g6 with ⟨x1, x2⟩ | ⟨x1, x2⟩
    · left; rw [x1]; exact x2
    · right
      have b1 : 100000000000000000 * 10 ^ e ≤ t * 10 ^ e := Nat.mul_le_mul_right _ x1
      have b2 : (t + 1) * 10 ^ e = t * 10 ^ e + 10 ^ e := by ring
      have b3 : (t + 1 + 1) * 10 ^ e = t * 10 ^ e + 10 ^ e + 10 ^ e := by ring
      rcases x2 with x2 | x2
      · subst x2; omega
      · subst x2; omega
  | nines e _ g0 g1 g2 g3 =>
    exfalso
    rcases hs with hs | hs | hs
    · omega
    · omega
    · exact hs.2 e g2

example := c09_rounded_partial ⟨15, 1, false⟩ ⟨25, 18, false⟩ ⟨38, 18, false⟩ (by decide) (by decide) (.inr (.inl (by decide))) (by decide)

/-- C09 is false as stated, for every product of unscaled values between 10^18 and 2^63 of numbers that are
not both whole: Mul then returns a number that is at most a quarter of the product (the code drops a digit
without reducing the scale). -/
theorem c09_tenfold_refuted (d o : Decimal) (hd : d.Valid) (ho : o.Valid) (hs : 0 < d.scale + o.scale)
    (h1 : 1000000000000000000 ≤ d.value.natAbs * o.value.natAbs) (h2 : d.value.natAbs * o.value.natAbs < 9223372036854775808) :
    ∃ r, d.mul o = .ok r ∧ |r.num| ≤ |d.num * o.num| / 4 ∧ d.num * o.num ≠ 0 := by
  obtain ⟨c, hc, hm⟩ := mul_core d o hd ho
  have hsome : ∃ r, d.mul o = .ok r := by
    clear hd ho
    generalize d.value.natAbs * o.value.natAbs = p at *
    cases hc with
    | small h => exact ⟨_, hm⟩
    | int h1 h2 => omega
    | tenfold h1 h2 h3 => exact ⟨_, hm⟩
    | tooBig g1 g2 => omega
    | big e t n g1 => exact ⟨_, hm⟩
    | nines e _ g0 g1 => omega
  obtain ⟨r, hr⟩ := hsome
  refine ⟨r, hr, ?_, ?_⟩
  · obtain ⟨n, s, m, hcore, m1, m2, m3, m4, m5⟩ := mul_ok d o r hd ho hr
    rw [prod_abs, m4, abs_mul, mulSgn_abs, one_mul, abs_of_nonneg (by positivity)]
    clear hm hr m4 m5 hd ho hc c
    generalize d.value.natAbs * o.value.natAbs = p at *
    generalize d.scale + o.scale = rs at *
    cases hcore with
    | small h => omega
    | tenfold g1 g2 g3 =>
      have hn : 10 * ((p + 5) / 10) ≤ p + 5 := by omega
      have hn2 : 100000000000000000 ≤ (p + 5) / 10 := by omega
      generalize (p + 5) / 10 = n at *
      have key : 4 * (10 ^ (s - 18) * m) ≤ p := by
        rcases Nat.eq_zero_or_pos m with hm | hm
        · subst hm; simp
        · have : 10 ^ (s - 18) * 1 ≤ 10 ^ (s - 18) * m := Nat.mul_le_mul_left _ hm
          generalize 10 ^ (s - 18) * m = z at *
          generalize 10 ^ (s - 18) = P at *
          omega
      have hss : (10 : ℚ) ^ s = 10 ^ (min s 18) * 10 ^ (s - 18) := by
        rw [← pow_add]; congr 1; omega
      have a := pow10_pos (min s 18)
      have b := pow10_pos (s - 18)
      have key' : (4 : ℚ) * (10 ^ (s - 18) * m) ≤ p := by exact_mod_cast key
      rw [div_div, div_le_div_iff₀ a (by positivity), hss]
      nlinarith
    | big e t n g1 => omega
    | nines e _ g0 g1 => omega
  · intro h0
    have := prod_abs d o
    rw [h0, abs_zero, eq_comm, div_eq_zero_iff] at this
    rcases this with h | h
    · have : d.value.natAbs * o.value.natAbs = 0 := by exact_mod_cast h
      omega
    · exact absurd h (pow10_pos _).ne'

/-- Non-vacuity of the refutation: 303700049.9 squared is 92233720309262490.01, Mul returns a tenth. -/
example : (⟨3037000499, 1, false⟩ : Decimal).Valid ∧ (1000000000000000000 ≤ (3037000499 : Int).natAbs * (3037000499 : Int).natAbs ∧
    (3037000499 : Int).natAbs * (3037000499 : Int).natAbs < 9223372036854775808) ∧
    (⟨3037000499, 1, false⟩ : Decimal).mul ⟨3037000499, 1, false⟩ = .ok ⟨9223372030926249, 0, false⟩ := by
  decide

/-- C09 is false as stated also for products that start with eighteen nines: 0.12 * 833333333333333333 is
99999999999999999.96, but Mul returns 10000000000000000. -/
theorem c09_nines_refuted :
    ∃ d o r : Decimal, d.Valid ∧ o.Valid ∧ d.mul o = .ok r ∧ |r.num| < |d.num * o.num| / 9 := by
  refine ⟨⟨12, 2, false⟩, ⟨833333333333333333, 0, false⟩, ⟨10000000000000000, 0, false⟩, by decide, by decide, ?_, ?_⟩
  · have hn : natChars 9999999999999999996 = "9999999999999999996".toList := by
      have := natChars_digitsVal "9999999999999999996".toList (by decide) (by decide) (by decide)
      rw [← this]; congr 1
    have hb : mulBig 12 833333333333333333 2 = some (1000000000000000000, 1, true) := by
      unfold mulBig
      rw [show ((12 : Int) * 833333333333333333).natAbs = 9999999999999999996 from rfl, hn]
      decide
    unfold Decimal.mul
    simp only [show decide ((12 : Int) ≥ 0) = true from rfl, show decide ((833333333333333333 : Int) ≥ 0) = true from rfl, if_true, hb]
    decide
  · unfold Decimal.num; norm_num [abs_of_pos]

/-- Non-vacuity: 1.5 * 2.5, an overflowing product and a rounded one are safe. -/
example : MulSafe ⟨15, 1, false⟩ ⟨25, 1, false⟩ ∧ MulSafe ⟨999999999999999999, 0, false⟩ ⟨999999999999999999, 0, false⟩ :=
  ⟨.inr (.inl (by decide)), .inl rfl⟩

end Micro.Dec
