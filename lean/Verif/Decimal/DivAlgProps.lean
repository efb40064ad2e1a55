import Verif.Decimal.SharpProps
import Verif.Decimal.AlgProps
set_option linter.unusedSimpArgs false
/-
C125: identities of Div.
-/
namespace Micro.Dec
open Micro

theorem divScaleUp_zero (n : Nat) : divScaleUp n 0 0 = some (0, 0) := by
  induction n with
  | zero => rfl
  | succ n ih =>
    rw [divScaleUp]
    have e : w ((0 : Int) * 10) = 0 := by decide
    simp only [e]
    rw [if_neg (by decide), ih]

/-- C125. If the unscaled dividend is a multiple of the unscaled divisor, and it has at least as many fractional digits, Div is exact, for operands of every size. -/
theorem c125_multiple (d o : Decimal) (hd : d.Valid) (ho : o.Valid) (h0 : o.value ≠ 0) (hm : o.value ∣ d.value) (hs : o.scale ≤ d.scale) :
    ∃ r, d.div o = some (.ok r) ∧ r.num = d.num / o.num ∧ r.Valid ∧ r.scale = d.scale - o.scale := by
  obtain ⟨k, hk⟩ := hm
  have hk' : d.value.natAbs = o.value.natAbs * k.natAbs := by rw [hk, Int.natAbs_mul]
  have hO : 0 < o.value.natAbs := by omega
  have hq : ((d.value.natAbs : Int)).tdiv (o.value.natAbs : Int) = (k.natAbs : Int) := by
    rw [hk']; push_cast
    exact Int.mul_tdiv_cancel_left _ (by simpa using h0)
  have hr : ((d.value.natAbs : Int)).tmod (o.value.natAbs : Int) = 0 := by
    rw [hk']; push_cast
    exact Int.mul_tmod_right _ _
  have hle : k.natAbs ≤ d.value.natAbs := by
    rw [hk']; exact Nat.le_mul_of_pos_left _ hO
  have hfit := hd.1
  unfold Fits at hfit
  rw [div_eq_mag d o hd.1 ho.1 h0]
  unfold divMag
  rw [hq, hr, show o.scale - d.scale = 0 by omega]
  simp only [divScaleUp]
  rw [divLoop_outer, if_neg (by simp)]
  have hw : w (-(k.natAbs : Int)) = -(k.natAbs : Int) := w_id (by omega) (by omega)
  simp only [hw]
  have hsgn : (if (0 ≤ d.value ↔ 0 ≤ o.value) then (k.natAbs : Int) else -(k.natAbs : Int)) = k := by
    rcases Int.lt_trichotomy k 0 with h | h | h
    · rcases lt_or_gt_of_ne h0 with h1 | h1
      · have : 0 < d.value := by rw [hk]; exact Int.mul_pos_of_neg_of_neg h1 h
        rw [if_neg (by omega)]; omega
      · have : d.value < 0 := by rw [hk]; exact Int.mul_neg_of_pos_of_neg h1 h
        rw [if_neg (by omega)]; omega
    · subst h; simp
    · rcases lt_or_gt_of_ne h0 with h1 | h1
      · have : d.value < 0 := by rw [hk]; exact Int.mul_neg_of_neg_of_pos h1 h
        rw [if_pos (by omega)]; omega
      · have : 0 < d.value := by rw [hk]; exact Int.mul_pos h1 h
        rw [if_pos (by omega)]; omega
  rw [hsgn]
  refine ⟨_, rfl, ?_, ⟨?_, ?_⟩, ?_⟩
  · unfold Decimal.num
    simp only [Int.toNat_natCast]
    have h1 : (o.value : ℚ) ≠ 0 := by exact_mod_cast h0
    have h2 : (10 : ℚ) ^ d.scale = 10 ^ o.scale * 10 ^ (d.scale - o.scale) := by rw [← pow_add]; congr 1; omega
    rw [hk, h2]
    push_cast
    have := pow10_pos o.scale
    have := pow10_pos (d.scale - o.scale)
    field_simp
  · unfold Fits; simp only; omega
  · have := hd.2; simp only [Int.toNat_natCast]; omega
  · simp

/-- C125. Dividing by 1 gives the dividend, and by -1 the negated dividend. -/
theorem c125_one (d : Decimal) (hd : d.Valid) (b : Bool) :
    d.div ⟨1, 0, b⟩ = some (.ok d) ∧ ∃ r, d.div ⟨-1, 0, b⟩ = some (.ok r) ∧ r.num = -d.num := by
  constructor
  · have := hd.1
    unfold Fits at this
    rw [div_eq_mag d ⟨1, 0, b⟩ hd.1 (by unfold Fits; simp) (by simp)]
    unfold divMag
    simp only [show (1 : Int).natAbs = 1 from rfl, Nat.cast_one, Int.tdiv_one, Int.tmod_one, Nat.zero_sub, Nat.sub_zero, divScaleUp]
    rw [divLoop_outer, if_neg (by simp)]
    simp only
    rw [w_id (by omega) (by omega)]
    have : (if (0 ≤ d.value ↔ (0 : Int) ≤ 1) then (d.value.natAbs : Int) else -(d.value.natAbs : Int)) = d.value := by
      split <;> rename_i h <;> simp at h <;> omega
    rw [this]
    simp
  · obtain ⟨r, h1, h2, -⟩ := c125_multiple d ⟨-1, 0, b⟩ hd ⟨by unfold Fits; simp, by simp⟩ (by simp) ⟨-d.value, by simp⟩ (by simp)
    exact ⟨r, h1, by rw [h2]; unfold Decimal.num; simp [div_neg]⟩

example := c125_one ⟨-999999999999999999, 3, false⟩ (by decide) true

/-- C125. A number divided by itself is 1. -/
theorem c125_self (d : Decimal) (hd : d.Valid) (h0 : d.num ≠ 0) : ∃ r, d.div d = some (.ok r) ∧ r.num = 1 ∧ r.scale = 0 := by
  rw [Ne, num_zero_iff] at h0
  obtain ⟨r, h1, h2, -, h3⟩ := c125_multiple d d hd hd h0 (dvd_refl _) (le_refl _)
  refine ⟨r, h1, ?_, by rw [h3]; simp⟩
  rw [h2, div_self]
  rwa [Ne, num_zero_iff]

example := c125_self ⟨-999999999999999999, 3, false⟩ (by decide) (by unfold Decimal.num; norm_num)

/-- C125. Zero divided by a number other than zero, at whatever scales, is zero. -/
theorem c125_zero (d o : Decimal) (hd : d.Valid) (ho : o.Valid) (hz : d.num = 0) (h0 : o.num ≠ 0) :
    ∃ r, d.div o = some (.ok r) ∧ r.num = 0 := by
  rw [Ne, num_zero_iff] at h0
  rw [num_zero_iff] at hz
  rw [div_eq_mag d o hd.1 ho.1 h0, hz]
  unfold divMag
  simp only [Int.natAbs_zero, Nat.cast_zero, Int.zero_tdiv, Int.zero_tmod, divScaleUp_zero]
  rw [divLoop_outer, if_neg (by simp)]
  refine ⟨_, rfl, ?_⟩
  rw [num_zero_iff]
  simp [show w 0 = 0 by decide]

example := c125_zero ⟨0, 7, true⟩ ⟨-999999999999999999, 3, false⟩ (by decide) (by decide) (by unfold Decimal.num; norm_num) (by unfold Decimal.num; norm_num)

/-- The outcome of Div seen from outside; `none`: it does not return. -/
def divNum (x : Option (Out DErr Decimal)) : Option (Out DErr ℚ) := x.map outNum

theorem divScaleUp_range (n : Nat) (q r q' r' : Int) (h : divScaleUp n q r = some (q', r')) (hq : -9223372036854775808 ≤ q ∧ q ≤ 9223372036854775807) :
    -9223372036854775808 ≤ q' ∧ q' ≤ 9223372036854775807 := by
  induction n generalizing q r with
  | zero => cases h; exact hq
  | succ n ih =>
    rw [divScaleUp] at h
    split at h
    · cases h
    · exact ih _ _ h (w_range _)

/-- C125. The quotient of a negated dividend is the mirrored quotient (unless it is the smallest int64, which is not a valid Decimal). -/
theorem c125_negate (d o : Decimal) (hd : d.Valid) (ho : o.Valid) (h0 : o.num ≠ 0)
    (hmin : ∀ r, d.div o = some (.ok r) → r.value ≠ -9223372036854775808) :
    divNum (d.negate.div o) = (divNum (d.div o)).map mirror := by
  obtain ⟨-, hval, hns, -⟩ := c14_negate d hd
  have hnv : d.negate.value = -d.value := by unfold Decimal.negate; exact w_neg hd.1.le63.1 hd.1.le63.2
  by_cases hz : d.num = 0
  · obtain ⟨r, h1, h2⟩ := c125_zero d o hd ho hz h0
    have hz' : d.negate.num = 0 := by rw [num_zero_iff] at hz ⊢; rw [hnv, hz]; rfl
    obtain ⟨r', g1, g2⟩ := c125_zero d.negate o hval ho hz' h0
    rw [h1, g1]
    simp [divNum, outNum, mirror, h2, g2]
  · rw [num_zero_iff] at hz
    rw [Ne, num_zero_iff] at h0
    have e1 := div_eq_mag d o hd.1 ho.1 h0
    have e2 := div_eq_mag d.negate o hval.1 ho.1 h0
    rw [hns, hnv, Int.natAbs_neg] at e2
    rw [e1] at hmin
    rw [e1, e2]
    have hflip : (0 ≤ -d.value ↔ 0 ≤ o.value) ↔ ¬ (0 ≤ d.value ↔ 0 ≤ o.value) := by omega
    have hrange : ∀ q s, divMag (d.value.natAbs : Int) (o.value.natAbs : Int) (o.scale - d.scale) ((d.scale - o.scale : Nat) : Int) = some (some (q, s)) →
        -9223372036854775808 ≤ q ∧ q ≤ 9223372036854775807 := by
      intro q s h
      unfold divMag at h
      split at h
      · simp at h
      · rename_i Q R hup
        refine (divLoop_scale _ _ _ _ _ _ _ h (divScaleUp_range _ _ _ _ _ hup ?_)).2
        have h1 := tdiv_natAbs_le (d.value.natAbs : Int) (o.value.natAbs : Int)
        have h2 := hd.1
        unfold Fits at h2
        omega
    generalize divMag (d.value.natAbs : Int) (o.value.natAbs : Int) (o.scale - d.scale) ((d.scale - o.scale : Nat) : Int) = X at *
    cases X with
    | none => rfl
    | some X =>
      cases X with
      | none =>
        by_cases hsg : (0 ≤ d.value ↔ 0 ≤ o.value)
        · simp only [hflip, hsg, not_true_eq_false, if_true, if_false]; rfl
        · simp only [hflip, hsg, not_false_eq_true, if_true, if_false]; rfl
      | some qs =>
        obtain ⟨q, s⟩ := qs
        have hq := hrange q s rfl
        have hm := hmin _ rfl
        have hnum : ∀ b b', (⟨-q, s.toNat, b⟩ : Decimal).num = -(⟨q, s.toNat, b'⟩ : Decimal).num := by
          intro b b'
          unfold Decimal.num; push_cast; ring
        by_cases hsg : (0 ≤ d.value ↔ 0 ≤ o.value)
        · simp only [hflip, hsg, not_true_eq_false, if_true, if_false] at hm ⊢
          rw [w_id (by omega) (by omega)]
          simp [divNum, outNum, mirror, hnum _ d.denormalized]
        · simp only [hflip, hsg, not_false_eq_true, if_true, if_false] at hm ⊢
          have : w (-q) = -q := by
            by_cases hq2 : q = -9223372036854775808
            · rw [hq2] at hm; exact absurd (by decide) hm
            · exact w_id (by omega) (by omega)
          rw [this]
          simp [divNum, outNum, mirror, hnum _ d.denormalized]
          rfl

example := c125_negate ⟨15, 1, false⟩ ⟨1, 0, false⟩ (by decide) (by decide) (by unfold Decimal.num; norm_num)
  (by rw [(c125_one ⟨15, 1, false⟩ (by decide) false).1]; rintro r ⟨⟩; decide)

/-- C125, dividing by 1, is false for the 1 with 17 fractional digits: 99999999999999999 divided by 1.00000000000000000 is 39.0301220395011277. -/
theorem c125_one_refuted : ∃ r : Decimal, (⟨99999999999999999, 0, false⟩ : Decimal).Valid ∧ (⟨100000000000000000, 17, true⟩ : Decimal).Valid ∧
    (⟨100000000000000000, 17, true⟩ : Decimal).num = 1 ∧ (⟨99999999999999999, 0, false⟩ : Decimal).div ⟨100000000000000000, 17, true⟩ = some (.ok r) ∧
    r.num < 40 ∧ (⟨99999999999999999, 0, false⟩ : Decimal).num = 99999999999999999 := by
  refine ⟨⟨390301220395011277, 16, false⟩, by decide, by decide, by unfold Decimal.num; norm_num, ?_, by unfold Decimal.num; norm_num,
    by unfold Decimal.num; norm_num⟩
  exact div_eval _ _ (by decide) (by decide) (by decide) 0 3903012203950112768 _ 16 200 (by decide) (by decide) (by decide)

/-- Non-vacuity: 1.50 / 0.5 is 3.0; -1.50 / 0.5 is -3.0. -/
example : ∃ r : Decimal, (⟨150, 2, true⟩ : Decimal).div ⟨5, 1, false⟩ = some (.ok r) ∧ r.num = 3 := by
  obtain ⟨r, h1, h2, -⟩ := c125_multiple ⟨150, 2, true⟩ ⟨5, 1, false⟩ (by decide) (by decide) (by decide) (by decide) (by decide)
  exact ⟨r, h1, by rw [h2]; unfold Decimal.num; norm_num⟩

end Micro.Dec
