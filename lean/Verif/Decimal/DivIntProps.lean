import Verif.Decimal.MulProps
import Mathlib.Data.Rat.Floor
import Mathlib.Algebra.BigOperators.Group.List.Basic
set_option linter.unusedSimpArgs false
/-
C10, C11: DivIntQuoRem and DivIntAdd.
-/
namespace Micro.Dec
open Micro

/-- The integer part of |d|. -/
def Decimal.intPart (d : Decimal) : Nat := ⌊|d.num|⌋₊

theorem divTens_eq (n v : Nat) : divTens n (v : Int) = ((v / 10 ^ n : Nat) : Int) := by
  induction n generalizing v with
  | zero => simp [divTens]
  | succ n ih =>
    have hd : (v : Int).tdiv 10 = ((v / 10 : Nat) : Int) := by
      rw [Int.tdiv_eq_ediv_of_nonneg (by omega)]; rfl
    rw [divTens, hd, ih, Nat.div_div_eq_div_mul, pow_succ, Nat.mul_comm]

theorem num_abs (d : Decimal) : |d.num| = (d.value.natAbs : ℚ) / 10 ^ d.scale := by
  unfold Decimal.num
  rw [abs_div, abs_of_pos (pow10_pos d.scale)]
  congr 1
  rw [Nat.cast_natAbs, Int.cast_abs]

theorem intPart_eq (d : Decimal) : d.intPart = d.value.natAbs / 10 ^ d.scale := by
  unfold Decimal.intPart
  rw [num_abs, Nat.floor_eq_iff (by positivity)]
  have hp : 0 < 10 ^ d.scale := by positivity
  constructor
  · rw [le_div_iff₀ (pow10_pos _)]
    exact_mod_cast Nat.div_mul_le_self _ _
  · rw [div_lt_iff₀ (pow10_pos _)]
    have : d.value.natAbs < (d.value.natAbs / 10 ^ d.scale + 1) * 10 ^ d.scale := by
      rw [← Nat.div_lt_iff_lt_mul hp]; omega
    exact_mod_cast this

theorem sub_same_scale (d : Decimal) (v : Int) (hd : d.Valid) (hv : Fits v) (hdiff : Fits (d.value - v)) :
    d.sub ⟨v, d.scale, d.denormalized⟩ = .ok (Decimal.applyNormalization ⟨d.value - v, d.scale, d.denormalized⟩) := by
  have hn : (⟨v, d.scale, d.denormalized⟩ : Decimal).negate = ⟨-v, d.scale, d.denormalized⟩ := by
    unfold Decimal.negate; simp only; rw [w_neg hv.le63.1 hv.le63.2]
  have hF : Fits (-v) := by unfold Fits at *; omega
  have hadj : adjustDecimalScale d ⟨-v, d.scale, d.denormalized⟩ = some (none, d, ⟨-v, d.scale, d.denormalized⟩) := by
    unfold adjustDecimalScale; simp
  have := add_eq d _ _ _ hadj hd.1 hF
  unfold Decimal.add at this
  unfold Decimal.sub
  rw [hn, this]
  unfold Fits at hdiff
  simp only
  rw [if_neg (by omega), if_neg (by omega), sub_eq_add_neg]

theorem tdiv_tmod_facts (v : Int) (o : Nat) (ho : 0 < o) :
    v = v.tdiv o * o + v.tmod o ∧ (v.tdiv o * o).natAbs ≤ v.natAbs ∧ (v.tmod o).natAbs < o ∧ (v.tmod o).natAbs ≤ v.natAbs ∧
      (0 ≤ v → 0 ≤ v.tmod o ∧ 0 ≤ v.tdiv o) ∧ (v ≤ 0 → v.tmod o ≤ 0 ∧ v.tdiv o ≤ 0) := by
  have key : ∀ v : Int, 0 ≤ v → v = v.tdiv o * o + v.tmod o ∧ (v.tdiv o * o).natAbs ≤ v.natAbs ∧ (v.tmod o).natAbs < o ∧
      (v.tmod o).natAbs ≤ v.natAbs ∧ 0 ≤ v.tmod o ∧ 0 ≤ v.tdiv o := by
    intro v hv
    rw [Int.tdiv_eq_ediv_of_nonneg hv, Int.tmod_eq_emod_of_nonneg hv]
    have h1 := Int.emod_nonneg v (b := o) (by omega)
    have h2 := Int.emod_lt_of_pos v (b := o) (by omega)
    have h3 := Int.mul_ediv_add_emod v o
    have h4 : 0 ≤ v / o := Int.ediv_nonneg hv (by omega)
    have h5 : 0 ≤ v / o * o := by positivity
    rw [mul_comm] at h3
    generalize v / o * o = z at *
    generalize v % o = y at *
    omega
  rcases Int.le_total 0 v with hv | hv
  · obtain ⟨a, b, c, e, f, g⟩ := key v hv
    refine ⟨a, b, c, e, fun _ => ⟨f, g⟩, fun h => ?_⟩
    have h0 : v = 0 := by omega
    subst h0
    simp
  · obtain ⟨a, b, c, e, f, g⟩ := key (-v) (by omega)
    rw [Int.neg_tdiv, Int.neg_tmod] at *
    rw [neg_mul] at a b
    rw [Int.natAbs_neg, Int.natAbs_neg] at *
    refine ⟨by omega, b, c, e, fun h => ?_, fun _ => ⟨by omega, by omega⟩⟩
    have h0 : v = 0 := by omega
    subst h0
    simp

/-- Complete description of DivIntQuoRem for divisors below 2^63. -/
theorem divIntQuoRem_eq (d : Decimal) (o : Nat) (hd : d.Valid) (ho : o < 9223372036854775808) :
    d.divIntQuoRem o = if o = 0 then .err .divByZero
      else if d.intPart < o then .err .divisorTooLarge
      else .ok (⟨d.value.tdiv o, d.scale, d.denormalized⟩,
        Decimal.applyNormalization ⟨d.value.tmod o, d.scale, d.denormalized⟩) := by
  have hda := hd.1.le63
  have hda' := hd.1
  unfold Fits at hda'
  unfold Decimal.divIntQuoRem
  by_cases h0 : o = 0
  · rw [if_pos h0, if_pos h0]
  · rw [if_neg h0, if_neg h0]
    have ed : (if d.value ≥ 0 then d.value else w (-d.value)) = (d.value.natAbs : Int) := by
      split
      · omega
      · rw [w_neg hda.1 hda.2]; omega
    have hwo : w (o : Int) = o := w_id (by omega) (by omega)
    simp only [ed, divTens_eq, hwo]
    rw [intPart_eq]
    generalize d.value.natAbs / 10 ^ d.scale = ip
    by_cases hlt : ip < o
    · rw [if_pos (by omega), if_pos hlt]
    · rw [if_neg (by omega), if_neg hlt]
      obtain ⟨f1, f2, f3, f4, f5, f6⟩ := tdiv_tmod_facts d.value o (by omega)
      have hq : w (d.value.tdiv o) = d.value.tdiv o := by
        have : (d.value.tdiv o).natAbs ≤ d.value.natAbs := by
          rw [Int.natAbs_mul] at f2
          refine le_trans ?_ f2
          simp only [Int.natAbs_natCast]
          exact Nat.le_mul_of_pos_right _ (by omega)
        generalize d.value.tdiv o = z at *
        exact w_id (by omega) (by omega)
      have hqo : w (d.value.tdiv o * o) = d.value.tdiv o * o := by
        generalize d.value.tdiv o * o = z at *
        exact w_id (by omega) (by omega)
      simp only [hq, hqo]
      have hfz : Fits (d.value.tdiv o * o) := by
        unfold Fits
        generalize d.value.tdiv o * o = z at *
        omega
      have hrem : d.value - d.value.tdiv o * o = d.value.tmod o := by linarith
      have hfr : Fits (d.value.tmod o) := by
        unfold Fits
        generalize d.value.tmod o = z at *
        omega
      rw [sub_same_scale d _ hd hfz (by rw [hrem]; exact hfr), hrem]

/-! ### C10 -/

/-- C10, the part that holds: for every valid Decimal and every divisor below 2^63, DivIntQuoRem reports a
zero divisor, reports a divisor larger than the integer part of |d|, and otherwise returns q and r with
d = q * o + r, |r| less than o units in the last place of d, r of the sign of d, q of the scale of d.
Missing: divisors from 2^63 on, where the code is wrong. -/
theorem c10_quorem_partial (d : Decimal) (o : Nat) (hd : d.Valid) (ho : o < 2 ^ 63) :
    (o = 0 → d.divIntQuoRem o = .err .divByZero) ∧
    (0 < o → (o : ℚ) > ⌊|d.num|⌋₊ → d.divIntQuoRem o = .err .divisorTooLarge) ∧
    (0 < o → (o : ℚ) ≤ ⌊|d.num|⌋₊ → ∃ q r, d.divIntQuoRem o = .ok (q, r) ∧ d.num = q.num * o + r.num ∧
      |r.num| < o * ulp d.scale ∧ (0 ≤ d.num → 0 ≤ r.num) ∧ (d.num ≤ 0 → r.num ≤ 0) ∧
      q.scale = d.scale ∧ q.Valid ∧ r.Valid) := by
  have ho' : o < 9223372036854775808 := by simpa using ho
  have he := divIntQuoRem_eq d o hd ho'
  refine ⟨fun h => by rw [he, if_pos h], fun h hgt => ?_, fun h hle => ?_⟩
  · have : d.intPart < o := by unfold Decimal.intPart; exact_mod_cast hgt
    rw [he, if_neg (by omega), if_pos this]
  · have : ¬ d.intPart < o := by unfold Decimal.intPart; push Not; exact_mod_cast hle
    rw [if_neg (by omega), if_neg this] at he
    obtain ⟨f1, f2, f3, f4, f5, f6⟩ := tdiv_tmod_facts d.value o h
    have hfit := hd.1
    unfold Fits at hfit
    have hfr : Fits (d.value.tmod o) := by
      unfold Fits
      generalize d.value.tmod o = z at *
      omega
    have hfq : Fits (d.value.tdiv o) := by
      have : (d.value.tdiv o).natAbs ≤ d.value.natAbs := by
        rw [Int.natAbs_mul] at f2
        refine le_trans ?_ f2
        simp only [Int.natAbs_natCast]
        exact Nat.le_mul_of_pos_right _ (by omega)
      unfold Fits
      generalize d.value.tdiv o = z at *
      omega
    have hrn := applyNormalization_num ⟨d.value.tmod o, d.scale, d.denormalized⟩ hfr.le63.1 hfr.le63.2
    have hrv := applyNormalization_valid ⟨d.value.tmod o, d.scale, d.denormalized⟩ hfr
    have hp := pow10_pos d.scale
    obtain ⟨s1, s2, s3⟩ := num_sign d
    refine ⟨_, _, he, ?_, ?_, ?_, ?_, rfl, ⟨hfq, hd.2⟩, ⟨hrv.1, le_trans hrv.2 hd.2⟩⟩
    · rw [hrn]
      unfold Decimal.num
      simp only
      rw [div_mul_eq_mul_div, ← add_div]
      congr 1
      exact_mod_cast f1
    · rw [hrn, num_abs]
      unfold ulp
      simp only
      rw [mul_one_div]
      apply div_lt_div_of_pos_right _ hp
      exact_mod_cast f3
    · intro h0
      rw [hrn]
      unfold Decimal.num
      apply div_nonneg _ hp.le
      have : 0 ≤ d.value := by
        by_contra hc; push Not at hc
        exact absurd (s2.mpr hc) (not_lt_of_ge h0)
      exact_mod_cast (f5 this).1
    · intro h0
      rw [hrn]
      unfold Decimal.num
      apply div_nonpos_of_nonpos_of_nonneg _ hp.le
      have : d.value ≤ 0 := by
        by_contra hc; push Not at hc
        exact absurd (s1.mpr hc) (not_lt_of_ge h0)
      exact_mod_cast (f6 this).1

example := c10_quorem_partial ⟨-1001, 2, false⟩ 3 (by decide) (by decide)

/-- C10 is false as stated for large divisors: 5 divided by 2^64 - 1 is not refused, the quotient is -5. -/
theorem c10_large_divisor_refuted :
    ∃ (d : Decimal) (o : Nat) (q r : Decimal), d.Valid ∧ o < 2 ^ 64 ∧ (o : ℚ) > ⌊|d.num|⌋₊ ∧
      d.divIntQuoRem o = .ok (q, r) ∧ q.num = -d.num ∧ d.num ≠ q.num * o + r.num := by
  refine ⟨⟨5, 0, false⟩, 18446744073709551615, ⟨-5, 0, false⟩, ⟨0, 0, false⟩, by decide, by norm_num, ?_, by decide, ?_, ?_⟩
  · have : (⟨5, 0, false⟩ : Decimal).intPart = 5 := by rw [intPart_eq]; decide
    unfold Decimal.intPart at this
    rw [this]; norm_num
  · unfold Decimal.num; norm_num
  · unfold Decimal.num; norm_num

/-- Non-vacuity: 100.00 / 3 = 33.33 remainder 0.01. -/
example : (⟨10000, 2, true⟩ : Decimal).divIntQuoRem 3 = .ok (⟨3333, 2, true⟩, ⟨1, 2, true⟩) := by decide

/-! ### C11 -/

theorem divIntAddLoop_eq (d q : Decimal) (n : Nat) (rc : Int) (hn : (n : Int) < 9223372036854775808)
    (hrc : Fits rc) (hq : Fits q.value) :
    divIntAddLoop d q n rc = List.replicate (min n rc.toNat) ⟨q.value + 1, d.scale, d.denormalized⟩ ++
      List.replicate (n - rc.toNat) ⟨q.value, d.scale, d.denormalized⟩ ∨ n > 8000000000000000000 := by
  by_cases hbig : n > 8000000000000000000
  · exact .inr hbig
  · left
    have key : ∀ n : Nat, ∀ rc : Int, -999999999999999999 - 8000000000000000000 + (n : Int) ≤ rc → rc ≤ 999999999999999999 →
        divIntAddLoop d q n rc = List.replicate (min n rc.toNat) ⟨q.value + 1, d.scale, d.denormalized⟩ ++
          List.replicate (n - rc.toNat) ⟨q.value, d.scale, d.denormalized⟩ := by
      intro n
      induction n with
      | zero => intro rc _ _; simp [divIntAddLoop]
      | succ n ih =>
        intro rc h1 h2
        unfold divIntAddLoop
        unfold Fits at hq
        rw [w_id (x := rc - 1) (by omega) (by omega), ih (rc - 1) (by push_cast at h1; omega) (by omega)]
        by_cases hpos : rc > 0
        · rw [if_pos hpos, w_id (by omega) (by omega)]
          obtain ⟨k, hk⟩ : ∃ k, rc.toNat = k + 1 := ⟨rc.toNat - 1, by omega⟩
          have hk' : (rc - 1).toNat = k := by omega
          rw [hk, hk']
          have e1 : min (n + 1) (k + 1) = min n k + 1 := by omega
          have e2 : n + 1 - (k + 1) = n - k := by omega
          rw [e1, e2, List.replicate_succ, List.cons_append]
        · rw [if_neg hpos, add_zero, w_id (by omega) (by omega)]
          have e1 : rc.toNat = 0 := by omega
          have e2 : (rc - 1).toNat = 0 := by omega
          rw [e1, e2]
          simp [List.replicate_succ]
    unfold Fits at hrc
    exact key n rc (by omega) hrc.2

/-- The remainder of the unscaled value is returned unchanged by DivIntQuoRem: the dividend is a denormalized
Decimal or a whole number, or the remainder does not end in a zero digit. -/
def RemKept (d : Decimal) (o : Nat) : Prop :=
  d.denormalized = true ∨ d.scale = 0 ∨ ¬ (10 : Int) ∣ d.value.tmod o ∨ d.value.tmod o = 0

/-- C11, the part that holds: for a non-negative dividend (or no remainder) whose remainder is not normalized
away, DivIntAdd returns o parts that add up to exactly d and differ by at most one unit in the last place.
Missing: negative dividends and normalized remainders, where the code is wrong. -/
theorem c11_parts_partial (d : Decimal) (o : Nat) (hd : d.Valid) (h0 : 0 < o) (ho : (o : ℚ) ≤ ⌊|d.num|⌋₊)
    (hs : 0 ≤ d.value ∨ d.value.tmod o = 0) (hk : RemKept d o) :
    ∃ parts, d.divIntAdd o = .ok parts ∧ parts.length = o ∧ (parts.map Decimal.num).sum = d.num ∧
      ∀ a ∈ parts, ∀ b ∈ parts, |a.num - b.num| ≤ ulp d.scale := by
  have hip : ¬ d.intPart < o := by unfold Decimal.intPart; push Not; exact_mod_cast ho
  have hfit := hd.1
  unfold Fits at hfit
  have hoz : o ≤ 999999999999999999 := by
    rw [intPart_eq] at hip
    have : d.value.natAbs / 10 ^ d.scale ≤ d.value.natAbs := Nat.div_le_self _ _
    generalize d.value.natAbs / 10 ^ d.scale = z at *
    omega
  have he := divIntQuoRem_eq d o hd (by omega)
  rw [if_neg (by omega), if_neg hip] at he
  obtain ⟨f1, f2, f3, f4, f5, f6⟩ := tdiv_tmod_facts d.value o h0
  have hfq : Fits (d.value.tdiv o) := by
    have : (d.value.tdiv o).natAbs ≤ d.value.natAbs := by
      rw [Int.natAbs_mul] at f2
      refine le_trans ?_ f2
      simp only [Int.natAbs_natCast]
      exact Nat.le_mul_of_pos_right _ (by omega)
    unfold Fits
    generalize d.value.tdiv o = z at *
    omega
  have hfr : Fits (d.value.tmod o) := by
    unfold Fits
    generalize d.value.tmod o = z at *
    omega
  have hrv : (Decimal.applyNormalization ⟨d.value.tmod o, d.scale, d.denormalized⟩).value = d.value.tmod o := by
    rcases applyNormalization_cases ⟨d.value.tmod o, d.scale, d.denormalized⟩ with h | h
    · rw [h]
      obtain ⟨k, k1, k2, k3, k4, _⟩ := normalize_spec ⟨d.value.tmod o, d.scale, d.denormalized⟩ hfr.le63.1 hfr.le63.2
      simp only at k1 k2 k3 k4
      rcases hk with hk | hk | hk | hk
      · by_cases hz : d.value.tmod o = 0
        · rw [(k4 hz).1, hz]
        · unfold Decimal.applyNormalization at h
          simp only [hz, hk, false_or, Bool.true_eq_false, if_false] at h
          rw [hk, ← h]
      · have : k = 0 := by omega
        subst this
        by_cases hz : d.value.tmod o = 0
        · rw [(k4 hz).1, hz]
        · have := k3 hz; simp at this; exact this.symm
      · have hz : d.value.tmod o ≠ 0 := by intro h0; rw [h0] at hk; exact hk (by norm_num)
        have := k3 hz
        rcases Nat.eq_zero_or_pos k with h0 | h0
        · subst h0; simp at this; exact this.symm
        · exfalso
          apply hk
          rw [this]
          obtain ⟨j, rfl⟩ : ∃ j, k = j + 1 := ⟨k - 1, by omega⟩
          rw [pow_succ, ← mul_assoc]
          exact Dvd.intro_left _ rfl
      · rw [(k4 hk).1, hk]
    · rw [h.1]
  have hrem : 0 ≤ d.value.tmod o := by
    rcases hs with h | h
    · exact (f5 h).1
    · omega
  have hloop := (divIntAddLoop_eq d ⟨d.value.tdiv o, d.scale, d.denormalized⟩ o (d.value.tmod o) (by omega) hfr hfq).resolve_right (by omega)
  have hlt : (d.value.tmod o).toNat ≤ o := by
    generalize d.value.tmod o = z at *
    omega
  rw [Nat.min_eq_right hlt] at hloop
  simp only at hloop
  refine ⟨divIntAddLoop d ⟨d.value.tdiv o, d.scale, d.denormalized⟩ o (d.value.tmod o), ?_, ?_, ?_, ?_⟩
  · unfold Decimal.divIntAdd
    rw [he]
    simp only [hrv]
    rw [if_neg (by omega)]
  · rw [hloop]; simp; omega
  · rw [hloop, List.map_append, List.sum_append, List.map_replicate, List.map_replicate, List.sum_replicate, List.sum_replicate]
    unfold Decimal.num
    simp only [nsmul_eq_mul]
    have hp := (pow10_pos d.scale).ne'
    have c1 : (((d.value.tmod o).toNat : Nat) : ℚ) = (d.value.tmod o : ℚ) := by
      have : (((d.value.tmod o).toNat : Nat) : Int) = d.value.tmod o := Int.toNat_of_nonneg hrem
      exact_mod_cast congrArg (Int.cast : Int → ℚ) this
    rw [Nat.cast_sub hlt, c1]
    field_simp
    have : (d.value : ℚ) = (d.value.tdiv o : ℚ) * o + (d.value.tmod o : ℚ) := by exact_mod_cast f1
    rw [this]
    push_cast
    ring
  · rw [hloop]
    have hcase : ∀ a ∈ List.replicate (d.value.tmod o).toNat (⟨d.value.tdiv o + 1, d.scale, d.denormalized⟩ : Decimal) ++
        List.replicate (o - (d.value.tmod o).toNat) ⟨d.value.tdiv o, d.scale, d.denormalized⟩,
        a = ⟨d.value.tdiv o + 1, d.scale, d.denormalized⟩ ∨ a = ⟨d.value.tdiv o, d.scale, d.denormalized⟩ := by
      intro a ha
      rcases List.mem_append.mp ha with h | h
      · exact .inl (List.eq_of_mem_replicate h)
      · exact .inr (List.eq_of_mem_replicate h)
    intro a ha b hb
    have hu : (0 : ℚ) ≤ 1 / 10 ^ d.scale := by positivity
    have e1 : ((d.value.tdiv o + 1 : Int) : ℚ) / 10 ^ d.scale - ((d.value.tdiv o : Int) : ℚ) / 10 ^ d.scale = 1 / 10 ^ d.scale := by
      push_cast; ring
    have e2 : ((d.value.tdiv o : Int) : ℚ) / 10 ^ d.scale - ((d.value.tdiv o + 1 : Int) : ℚ) / 10 ^ d.scale = -(1 / 10 ^ d.scale) := by
      push_cast; ring
    unfold ulp Decimal.num
    rcases hcase a ha with rfl | rfl <;> rcases hcase b hb with rfl | rfl
    · simp
    · simp only; rw [e1, abs_of_nonneg hu]
    · simp only; rw [e2, abs_neg, abs_of_nonneg hu]
    · simp

/-- 10.01 in 3 parts. -/
example := c11_parts_partial ⟨1001, 2, true⟩ 3 (by decide) (by decide)
  (by have h : 3 ≤ ⌊|(⟨1001, 2, true⟩ : Decimal).num|⌋₊ := Nat.le_floor (by unfold Decimal.num; norm_num)
      exact_mod_cast h) (.inl (by decide)) (.inl rfl)

/-- C11 is false as stated: the parts of 11.21 / 11 add up to 11.12 (the remainder 0.10 is normalized to 0.1 and
its value 1 taken as the number of parts to increase), and those of -10.01 / 3 to -9.99. -/
theorem c11_parts_refuted :
    (∃ (d : Decimal) (parts : List Decimal), d.Valid ∧ 0 ≤ d.value ∧ d.divIntAdd 11 = .ok parts ∧
      (parts.map Decimal.num).sum ≠ d.num) ∧
    (∃ (d : Decimal) (parts : List Decimal), d.Valid ∧ d.denormalized = true ∧ d.divIntAdd 3 = .ok parts ∧
      (parts.map Decimal.num).sum ≠ d.num) := by
  constructor
  · refine ⟨⟨1121, 2, false⟩, ⟨102, 2, false⟩ :: List.replicate 10 ⟨101, 2, false⟩, by decide, by decide, by decide, ?_⟩
    simp [Decimal.num]; norm_num
  · refine ⟨⟨-1001, 2, true⟩, List.replicate 3 ⟨-333, 2, true⟩, by decide, by decide, by decide, ?_⟩
    simp [Decimal.num]; norm_num

/-- Non-vacuity: 100.00 / 3 = [33.34, 33.33, 33.33]. -/
example : RemKept ⟨10000, 2, true⟩ 3 ∧ (⟨10000, 2, true⟩ : Decimal).divIntAdd 3 = .ok [⟨3334, 2, true⟩, ⟨3333, 2, true⟩, ⟨3333, 2, true⟩] :=
  ⟨.inl rfl, by decide⟩

end Micro.Dec
