import Verif.Decimal.DivProps
import Verif.Decimal.DivIntProps
set_option linter.unusedSimpArgs false
/-
C10, C11, C12: the inputs left out of the partial theorems are exactly those for which the code is wrong.
-/
namespace Micro.Dec
open Micro

/-! ### C10 -/

/-- C10: for every divisor of 2^63 or more, which no Decimal contains even once, DivIntQuoRem never reports the error it should report. -/
theorem c10_large_divisor_wrong (d : Decimal) (o : Nat) (hd : d.Valid) (h1 : 2 ^ 63 ≤ o) (h2 : o < 2 ^ 64) :
    (o : ℚ) > ⌊|d.num|⌋₊ ∧ ∀ e, d.divIntQuoRem o ≠ .err e := by
  have hfit := hd.1
  unfold Fits at hfit
  have h1' : 9223372036854775808 ≤ o := by simpa using h1
  have h2' : o < 18446744073709551616 := by simpa using h2
  have hip := intPart_eq d
  have hle : d.value.natAbs / 10 ^ d.scale ≤ d.value.natAbs := Nat.div_le_self _ _
  constructor
  · have : d.intPart < o := by rw [hip]; omega
    unfold Decimal.intPart at this
    exact_mod_cast this
  · intro e he
    unfold Decimal.divIntQuoRem at he
    have ed : (if d.value ≥ 0 then d.value else w (-d.value)) = (d.value.natAbs : Int) := by
      split
      · omega
      · rw [w_neg (by omega) (by omega)]; omega
    have hwo : w (o : Int) ≤ 0 := by rw [w_def]; omega
    rw [if_neg (by omega)] at he
    simp only [ed, divTens_eq] at he
    rw [if_neg (by omega)] at he
    split at he <;> simp at he

example : (⟨5, 0, false⟩ : Decimal).Valid ∧ (⟨5, 0, false⟩ : Decimal).divIntQuoRem 18446744073709551615 = .ok (⟨-5, 0, false⟩, ⟨0, 0, false⟩) := by decide

/-! ### C11 -/

/-- What DivIntQuoRem returns as the remainder's unscaled value: the remainder itself, or the remainder without zeros at its end. -/
theorem remainder_value (d : Decimal) (o : Nat) (v : Int) (hv : Fits v) (hvo : v = d.value.tmod o) :
    ((Decimal.applyNormalization ⟨v, d.scale, d.denormalized⟩).value = v ↔ RemKept d o) ∧
    (Decimal.applyNormalization ⟨v, d.scale, d.denormalized⟩).value.natAbs ≤ v.natAbs ∧
    (v ≤ 0 → (Decimal.applyNormalization ⟨v, d.scale, d.denormalized⟩).value ≤ 0) := by
  unfold RemKept
  rw [← hvo]
  by_cases hn : v = 0 ∨ d.denormalized = false
  · have h : Decimal.applyNormalization ⟨v, d.scale, d.denormalized⟩ = (⟨v, d.scale, d.denormalized⟩ : Decimal).normalize := by
      unfold Decimal.applyNormalization; rw [if_pos (by simpa using hn)]
    rw [h]
    obtain ⟨k, k1, k2, k3, k4, k5, _⟩ := normalize_spec ⟨v, d.scale, d.denormalized⟩ hv.le63.1 hv.le63.2
    simp only at k1 k2 k3 k4
    generalize hN : (⟨v, d.scale, d.denormalized⟩ : Decimal).normalize = N at *
    by_cases hz : v = 0
    · simp [hz, (k4 hz).1]
    · have hk := k3 hz
      have hd0 : d.denormalized = false := by rcases hn with h | h; exact absurd h hz; exact h
      have hp : (1 : Int) ≤ 10 ^ k := one_le_pow₀ (by norm_num)
      refine ⟨⟨?_, ?_⟩, ?_, ?_⟩
      · intro he
        have : k = 0 := by
          by_contra hk0
          have h10 : (10 : Int) ≤ 10 ^ k := by
            calc (10 : Int) = 10 ^ 1 := by norm_num
              _ ≤ 10 ^ k := pow_le_pow_right₀ (by norm_num) (by omega)
          rw [he] at hk
          rcases lt_or_gt_of_ne hz with h0 | h0 <;> nlinarith
        subst this
        right
        rcases k5 with h5 | h5
        · left; omega
        · right; left; rw [he] at h5; exact h5
      · rintro (h' | h' | h' | h')
        · rw [hd0] at h'; simp at h'
        · have : k = 0 := by omega
          subst this; simp at hk; exact hk.symm
        · rcases Nat.eq_zero_or_pos k with h0 | h0
          · subst h0; simp at hk; exact hk.symm
          · exfalso; apply h'; rw [hk]
            obtain ⟨j, rfl⟩ : ∃ j, k = j + 1 := ⟨k - 1, by omega⟩
            rw [pow_succ, ← mul_assoc]; exact Dvd.intro_left _ rfl
        · exact absurd h' hz
      · rw [hk, Int.natAbs_mul]
        exact Nat.le_mul_of_pos_right _ (by rw [Int.natAbs_pow]; positivity)
      · intro h0; rw [hk] at h0; by_contra hc; push Not at hc; nlinarith
  · have h : Decimal.applyNormalization ⟨v, d.scale, d.denormalized⟩ = ⟨v, d.scale, d.denormalized⟩ := by
      unfold Decimal.applyNormalization; rw [if_neg (by simpa using hn)]
    rw [h]
    push Not at hn
    simp [hn.2]

/-- C11, exactly: DivIntAdd always returns o parts, and they add up to the dividend if and only if there is no remainder or the dividend is not negative, and the
remainder does not lose zeros when it is normalized. -/
theorem c11_parts_iff (d : Decimal) (o : Nat) (hd : d.Valid) (h0 : 0 < o) (ho : (o : ℚ) ≤ ⌊|d.num|⌋₊) :
    ∃ parts, d.divIntAdd o = .ok parts ∧ parts.length = o ∧
      ((parts.map Decimal.num).sum = d.num ↔ (0 ≤ d.value ∨ d.value.tmod o = 0) ∧ RemKept d o) := by
  have hip : ¬ d.intPart < o := by unfold Decimal.intPart; push Not; exact_mod_cast ho
  have hfit := hd.1
  unfold Fits at hfit
  have hoz : o ≤ 999999999999999999 := by
    rw [intPart_eq] at hip
    have : d.value.natAbs / 10 ^ d.scale ≤ d.value.natAbs := Nat.div_le_self _ _
    generalize d.value.natAbs / 10 ^ d.scale = z at *
    omega
  have he := divIntQuoRem_eq d o hd (by omega)
  rw [if_neg (by omega), if_neg hip] at he
  obtain ⟨f1, f2, f3, f4, f5, f6⟩ := tdiv_tmod_facts d.value o h0
  have hfq : Fits (d.value.tdiv o) := by
    have : (d.value.tdiv o).natAbs ≤ d.value.natAbs := by
      rw [Int.natAbs_mul] at f2
      refine le_trans ?_ f2
      simp only [Int.natAbs_natCast]
      exact Nat.le_mul_of_pos_right _ (by omega)
    unfold Fits
    generalize d.value.tdiv o = z at *
    omega
  have hfr : Fits (d.value.tmod o) := by
    unfold Fits
    generalize d.value.tmod o = z at *
    omega
  obtain ⟨r1, r2, r3⟩ := remainder_value d o (d.value.tmod o) hfr rfl
  generalize hrc : (Decimal.applyNormalization ⟨d.value.tmod o, d.scale, d.denormalized⟩).value = rc at *
  have hfrc : Fits rc := by
    unfold Fits at hfr ⊢
    generalize d.value.tmod o = z at *
    omega
  have hloop := (divIntAddLoop_eq d ⟨d.value.tdiv o, d.scale, d.denormalized⟩ o rc (by omega) hfrc hfq).resolve_right (by omega)
  have hlt : rc.toNat ≤ o := by
    generalize d.value.tmod o = z at *
    omega
  rw [Nat.min_eq_right hlt] at hloop
  simp only at hloop
  refine ⟨divIntAddLoop d ⟨d.value.tdiv o, d.scale, d.denormalized⟩ o rc, ?_, ?_, ?_⟩
  · unfold Decimal.divIntAdd
    rw [he]
    simp only [hrc]
    rw [if_neg (by omega)]
  · rw [hloop]; simp; omega
  · have hsum : ((divIntAddLoop d ⟨d.value.tdiv o, d.scale, d.denormalized⟩ o rc).map Decimal.num).sum =
        ((d.value.tdiv o * o + rc.toNat : Int) : ℚ) / 10 ^ d.scale := by
      rw [hloop, List.map_append, List.sum_append, List.map_replicate, List.map_replicate, List.sum_replicate, List.sum_replicate]
      unfold Decimal.num
      simp only [nsmul_eq_mul]
      have hp := (pow10_pos d.scale).ne'
      rw [Nat.cast_sub hlt]
      field_simp
      push_cast
      ring
    rw [hsum]
    have hnum : ((d.value.tdiv o * o + rc.toNat : Int) : ℚ) / 10 ^ d.scale = d.num ↔ (rc.toNat : Int) = d.value.tmod o := by
      unfold Decimal.num
      rw [div_left_inj' (pow10_pos d.scale).ne']
      constructor
      · intro h
        have : d.value.tdiv o * o + rc.toNat = d.value := by exact_mod_cast h
        omega
      · intro h
        have : d.value.tdiv o * o + rc.toNat = d.value := by omega
        exact_mod_cast this
    rw [hnum, ← r1]
    generalize d.value.tmod o = z at *
    constructor
    · intro h
      refine ⟨?_, by omega⟩
      by_contra hc
      push Not at hc
      have := (f6 (by omega)).1
      omega
    · rintro ⟨ha, hb⟩
      have : 0 ≤ z := by
        rcases ha with h | h
        · exact (f5 h).1
        · omega
      omega

example : (⟨1121, 2, false⟩ : Decimal).Valid ∧ ¬ RemKept ⟨1121, 2, false⟩ 11 ∧ RemKept ⟨10000, 2, true⟩ 3 := by
  refine ⟨by decide, ?_, .inl rfl⟩
  unfold RemKept; decide

/-! ### C12 -/

/-- Wherever the loop is left, the scale has not decreased and the quotient is an int64. -/
theorem divLoop_scale (o : Int) (b : Bool) (q r s : Int) (q' s' : Int) (h : divLoop o b q r s = some (some (q', s')))
    (hq : -9223372036854775808 ≤ q ∧ q ≤ 9223372036854775807) :
    s ≤ s' ∧ -9223372036854775808 ≤ q' ∧ q' ≤ 9223372036854775807 := by
  have key := divLoop.partial_correctness o (fun _ q _ s c => (-9223372036854775808 ≤ q ∧ q ≤ 9223372036854775807) →
      ∀ q' s', c = some (q', s') → s ≤ s' ∧ -9223372036854775808 ≤ q' ∧ q' ≤ 9223372036854775807) (by
    intro loop ih inner q r s c h hq q' s' hc
    subst hc
    split at h
    · split at h
      · exact ih _ _ _ _ _ h hq q' s' rfl
      · simp only [Option.some.injEq, Prod.mk.injEq] at h
        obtain ⟨rfl, rfl⟩ := h
        exact ⟨le_refl _, hq⟩
    · split at h
      · simp only at h
        split at h
        · split at h
          · simp at h
          · split at h <;> simp only [Option.some.injEq, Prod.mk.injEq] at h
            · obtain ⟨rfl, rfl⟩ := h
              exact ⟨le_refl _, w_range _⟩
            · obtain ⟨rfl, rfl⟩ := h
              exact ⟨le_refl _, hq⟩
        · split at h
          · simp at h
          · have := ih _ _ _ _ _ h (w_range _) q' s' rfl
            exact ⟨by omega, this.2⟩
      · exact ih _ _ _ _ _ h (w_range _) q' s' rfl) b q r s _ h
  exact key hq q' s' rfl

/-- The digits of the quotient up to a prefix in the dangerous range: the loop multiplies that prefix by ten once more. -/
theorem divLoop_window (o : Nat) (ho : o ≤ 922337203685477580) (k : Nat) : ∀ (q r N : Nat) (s q' s' : Int)
    (_hr : 0 < r) (_hro : r < o) (_hN : q * o + r = N) (_hw1 : 922337203685477580 < N * 10 ^ k / o) (_hw2 : N * 10 ^ k / o ≤ 999999999999999999)
    (_hnd : ¬ o ∣ N * 10 ^ k) (_h : divLoop o true q r s = some (some (q', s'))),
    s + k + 1 ≤ s' ∧ -9223372036854775808 ≤ q' ∧ q' ≤ 9223372036854775807 := by
  induction k with
  | zero =>
    intro q r N s q' s' hr hro hN hw1 hw2 _ h
    have hdiv : N * 10 ^ 0 / o = q := by
      rw [pow_zero, mul_one, ← hN, Nat.mul_comm, Nat.mul_add_div (by omega), Nat.div_eq_of_lt hro, add_zero]
    rw [hdiv] at hw1 hw2
    rw [divLoop_step _ _ _ _ (by omega)] at h
    have e1 : w ((q : Int) * 10) = q * 10 - 18446744073709551616 := by rw [w_def]; omega
    rw [if_neg (by rw [e1]; unfold maxValue; omega)] at h
    split at h
    · simp at h
    · have := divLoop_scale _ _ _ _ _ _ _ h (w_range _)
      exact ⟨by push_cast; omega, this.2⟩
  | succ k ih =>
    intro q r N s q' s' hr hro hN hw1 hw2 hnd h
    have hpk : 0 < 10 ^ k := by positivity
    have hmono : N * 10 / o ≤ N * 10 ^ (k + 1) / o := by
      apply Nat.div_le_div_right
      apply Nat.mul_le_mul_left
      rw [pow_succ]
      exact Nat.le_mul_of_pos_left _ hpk
    have hq10 : q * 10 ≤ N * 10 / o := by
      rw [Nat.le_div_iff_mul_le (by omega), ← hN]; nlinarith
    have e1 : w ((q : Int) * 10) = ((q * 10 : Nat) : Int) := by rw [w_id (by omega) (by omega)]; push_cast; rfl
    have e2 : w ((r : Int) * 10) = ((r * 10 : Nat) : Int) := by rw [w_id (by omega) (by omega)]; push_cast; rfl
    rw [divLoop_step _ _ _ _ (by omega), e1, e2] at h
    rw [if_neg (by unfold maxValue; push_cast; omega)] at h
    split at h
    · simp at h
    · have hpow : N * 10 ^ (k + 1) = N * 10 * 10 ^ k := by rw [pow_succ]; ring
      rw [hpow] at hw1 hw2 hnd hmono
      by_cases hlt : r * 10 < o
      · have := ih (q * 10) (r * 10) (N * 10) (s + 1) q' s' (by omega) hlt (by rw [← hN]; ring) hw1 hw2 hnd h
        exact ⟨by push_cast; omega, this.2⟩
      · have hd10 : q * 10 + r * 10 / o = N * 10 / o := by
          rw [← hN, show (q * o + r) * 10 = o * (q * 10) + r * 10 by ring, Nat.mul_add_div (by omega)]
        rw [divLoop_digit o (q * 10) (r * 10) (s + 1) (by omega) (by omega) (by omega), divLoop_outer] at h
        have hsplit : (q * 10 + r * 10 / o) * o + r * 10 % o = N * 10 := by
          have := Nat.div_add_mod (r * 10) o
          rw [← hN]; nlinarith
        have hne : r * 10 % o ≠ 0 := by
          intro hz
          apply hnd
          have : o ∣ N * 10 := by rw [← hsplit, hz, add_zero]; exact Dvd.intro_left _ rfl
          exact Dvd.dvd.mul_right this _
        rw [if_pos (by exact_mod_cast hne)] at h
        have := ih _ _ (N * 10) (s + 1) q' s' (by omega) (Nat.mod_lt _ (by omega)) hsplit hw1 hw2 hnd h
        exact ⟨by push_cast; omega, this.2⟩

theorem divMag_window (D O n k : Nat) (s q' s' : Int) (hD : D ≤ 999999999999999999) (hO : 0 < O)
    (hO2 : O * 10 ^ n ≤ 922337203685477580) (hk : n ≤ k)
    (hw1 : 922337203685477580 < D * 10 ^ k / O) (hw2 : D * 10 ^ k / O ≤ 999999999999999999) (hnd : ¬ O ∣ D * 10 ^ k)
    (h : divMag D O n s = some (some (q', s'))) :
    s + (k - n : Nat) + 1 ≤ s' ∧ -9223372036854775808 ≤ q' ∧ q' ≤ 9223372036854775807 := by
  have hd : (D : Int).tdiv (O : Int) = ((D / O : Nat) : Int) := by
    rw [Int.tdiv_eq_ediv_of_nonneg (by omega)]; rfl
  have hm : (D : Int).tmod (O : Int) = ((D % O : Nat) : Int) := by
    rw [Int.tmod_eq_emod_of_nonneg (by omega)]; rfl
  have hp : 1 ≤ 10 ^ n := Nat.one_le_pow _ _ (by norm_num)
  have hq : D / O ≤ 999999999999999999 := le_trans (Nat.div_le_self _ _) hD
  have hr : D % O < O := Nat.mod_lt _ hO
  have hOle : O ≤ 922337203685477580 := le_trans (Nat.le_mul_of_pos_right _ (by omega)) hO2
  have hdm := Nat.div_add_mod D O
  have hqk : ∀ i, i ≤ k → D / O * 10 ^ i ≤ 999999999999999999 := by
    intro i hi
    refine le_trans ?_ hw2
    rw [Nat.le_div_iff_mul_le hO]
    have h1 := Nat.div_mul_le_self D O
    calc D / O * 10 ^ i * O = D / O * O * 10 ^ i := by ring
      _ ≤ D * 10 ^ i := Nat.mul_le_mul_right _ h1
      _ ≤ D * 10 ^ k := Nat.mul_le_mul_left _ (Nat.pow_le_pow_right (by norm_num) hi)
  have hrn : D % O * 10 ^ n ≤ 9223372036854775807 := by
    have : D % O * 10 ^ n ≤ O * 10 ^ n := Nat.mul_le_mul_right _ hr.le
    omega
  have hpk : k = n + (k - n) := by omega
  have hN : D * 10 ^ k = D * 10 ^ n * 10 ^ (k - n) := by
    conv_lhs => rw [hpk]
    rw [pow_add]; ring
  rcases divScaleUp_spec n (D / O) (D % O) hq hrn (by
    intro i hi hc
    have := hqk (i + 1) (by omega)
    rw [pow_succ, ← mul_assoc] at this
    omega) with ⟨hle, hsc⟩ | ⟨hgt, _⟩
  · unfold divMag at h
    rw [hd, hm, hsc] at h
    simp only at h
    have hne : D % O ≠ 0 := by
      intro hz
      apply hnd
      have : O ∣ D := Nat.dvd_of_mod_eq_zero hz
      exact Dvd.dvd.mul_right this _
    have hrpos : 0 < D % O * 10 ^ n := by positivity
    rw [divLoop_outer, if_pos (by exact_mod_cast hrpos.ne')] at h
    rw [hN] at hw1 hw2 hnd
    have hsum : D / O * 10 ^ n * O + D % O * 10 ^ n = D * 10 ^ n := by
      calc D / O * 10 ^ n * O + D % O * 10 ^ n = (O * (D / O) + D % O) * 10 ^ n := by ring
        _ = D * 10 ^ n := by rw [hdm]
    by_cases hlt : D % O * 10 ^ n < O
    · exact divLoop_window O hOle (k - n) _ _ (D * 10 ^ n) s q' s' hrpos hlt hsum hw1 hw2 hnd h
    · have hd10 : D / O * 10 ^ n + D % O * 10 ^ n / O = D * 10 ^ n / O := by
        rw [← hsum, show D / O * 10 ^ n * O + D % O * 10 ^ n = O * (D / O * 10 ^ n) + D % O * 10 ^ n by ring, Nat.mul_add_div hO]
      have hle2 : D * 10 ^ n / O ≤ 999999999999999999 := by
        refine le_trans ?_ hw2
        apply Nat.div_le_div_right
        exact Nat.le_mul_of_pos_right _ (by positivity)
      rw [divLoop_digit O _ _ s hO (by omega) (by omega), divLoop_outer] at h
      have hsplit : (D / O * 10 ^ n + D % O * 10 ^ n / O) * O + D % O * 10 ^ n % O = D * 10 ^ n := by
        have := Nat.div_add_mod (D % O * 10 ^ n) O
        rw [← hsum]; nlinarith
      have hne2 : D % O * 10 ^ n % O ≠ 0 := by
        intro hz
        apply hnd
        have : O ∣ D * 10 ^ n := by rw [← hsplit, hz, add_zero]; exact Dvd.intro_left _ rfl
        exact Dvd.dvd.mul_right this _
      rw [if_pos (by exact_mod_cast hne2)] at h
      exact divLoop_window O hOle (k - n) _ _ (D * 10 ^ n) s q' s' (by omega) (Nat.mod_lt _ hO) hsplit hw1 hw2 hnd h
  · exact absurd (hqk n hk) (by omega)

/-- C12: the third condition of DivSafe is needed. If the division does not end at a prefix of the quotient's digits that lies between 2^63/10 and 10^18, the quotient
fits a Decimal (it is below 10^18), but no Decimal that Div returns is within one unit in its last place of the quotient. -/
theorem c12_wrap_wrong (d o : Decimal) (hd : d.Valid) (ho : o.Valid) (h0 : o.value ≠ 0)
    (h1 : o.value.natAbs * 10 ^ (o.scale - d.scale) ≤ 922337203685477580) (k : Nat) (hk : o.scale - d.scale ≤ k)
    (hw1 : 922337203685477580 < d.value.natAbs * 10 ^ k / o.value.natAbs) (hw2 : d.value.natAbs * 10 ^ k / o.value.natAbs ≤ 999999999999999999)
    (hnd : ¬ o.value.natAbs ∣ d.value.natAbs * 10 ^ k) :
    |d.num / o.num| < 10 ^ 18 ∧ ∀ r, d.div o = some (.ok r) → ulp r.scale < |r.num - d.num / o.num| := by
  have hdf := hd.1
  have hof := ho.1
  have hO : 0 < o.value.natAbs := by omega
  have hD : d.value.natAbs ≤ 999999999999999999 := by unfold Fits at hdf; omega
  have hx := absquo d o
  set D := d.value.natAbs with hDd
  set O := o.value.natAbs with hOd
  set n := o.scale - d.scale with hn
  set s0 := d.scale - o.scale with hs0
  have hOq : (0 : ℚ) < O := by exact_mod_cast hO
  have hpk : k = n + (k - n) := by omega
  have hN : D * 10 ^ k = D * 10 ^ n * 10 ^ (k - n) := by
    conv_lhs => rw [hpk]
    rw [pow_add]; ring
  -- the quotient times a power of ten
  have hQ : |d.num / o.num| * 10 ^ (s0 + (k - n)) = ((D * 10 ^ k : Nat) : ℚ) / O := by
    rw [hx, hN, pow_add]
    have a := (pow10_pos s0).ne'
    push_cast
    field_simp
  have hlo : (922337203685477581 : ℚ) ≤ ((D * 10 ^ k : Nat) : ℚ) / O := by
    rw [le_div_iff₀ hOq]
    have : 922337203685477581 * O ≤ D * 10 ^ k := by rw [← Nat.le_div_iff_mul_le hO]; omega
    exact_mod_cast this
  have hhi : ((D * 10 ^ k : Nat) : ℚ) / O < 1000000000000000000 := by
    rw [div_lt_iff₀ hOq]
    have : D * 10 ^ k < 1000000000000000000 * O := by rw [← Nat.div_lt_iff_lt_mul hO]; omega
    exact_mod_cast this
  constructor
  · have hp : (1 : ℚ) ≤ 10 ^ (s0 + (k - n)) := one_le_pow₀ (by norm_num)
    have : |d.num / o.num| ≤ |d.num / o.num| * 10 ^ (s0 + (k - n)) := le_mul_of_one_le_right (abs_nonneg _) hp
    calc |d.num / o.num| ≤ _ := this
      _ < 1000000000000000000 := by rw [hQ]; exact hhi
      _ = 10 ^ 18 := by norm_num
  · intro r hr
    rw [div_eq_mag d o hdf hof h0] at hr
    rcases hmag : divMag (D : Int) (O : Int) n (s0 : Int) with _ | _ | ⟨q', s'⟩
    · rw [hmag] at hr; simp at hr
    · rw [hmag] at hr; simp at hr
    · rw [hmag] at hr
      simp only [Option.some.injEq, Out.ok.injEq] at hr
      obtain ⟨hs', hq1, hq2⟩ := divMag_window D O n k s0 q' s' hD hO h1 hk hw1 hw2 hnd hmag
      have hrv : |(r.value : ℚ)| ≤ 9223372036854775808 := by
        have : -9223372036854775808 ≤ r.value ∧ r.value ≤ 9223372036854775807 := by
          rw [← hr]; simp only
          split
          · exact ⟨hq1, hq2⟩
          · exact w_range _
        rw [abs_le]
        constructor
        · have := this.1; exact_mod_cast this
        · have h := this.2
          have : r.value ≤ 9223372036854775808 := by omega
          exact_mod_cast this
      have hrs : r.scale = s'.toNat := by rw [← hr]
      obtain ⟨j, hj⟩ : ∃ j, r.scale = s0 + (k - n) + 1 + j := ⟨r.scale - (s0 + (k - n) + 1), by omega⟩
      have hP := pow10_pos r.scale
      have hbig : (9223372036854775810 : ℚ) ≤ |d.num / o.num| * 10 ^ r.scale := by
        rw [hj, pow_add, pow_succ, ← mul_assoc, ← mul_assoc, hQ]
        have hpj : (1 : ℚ) ≤ 10 ^ j := one_le_pow₀ (by norm_num)
        nlinarith
      have hrn : |r.num| * 10 ^ r.scale ≤ 9223372036854775808 := by
        unfold Decimal.num
        rw [abs_div, abs_of_pos hP, div_mul_cancel₀ _ hP.ne']
        exact hrv
      have htri : |d.num / o.num| - |r.num| ≤ |r.num - d.num / o.num| := by
        rw [abs_sub_comm]; exact abs_sub_abs_le_abs_sub _ _
      unfold ulp
      rw [div_lt_iff₀ hP]
      have : (2 : ℚ) ≤ (|d.num / o.num| - |r.num|) * 10 ^ r.scale := by rw [sub_mul]; linarith
      have h2 := mul_le_mul_of_nonneg_right htri hP.le
      linarith

example : 922337203685477580 < 28 * 10 ^ 17 / 3 ∧ 28 * 10 ^ 17 / 3 ≤ 999999999999999999 ∧ ¬ 3 ∣ 28 * 10 ^ 17 := by decide


/-! ### C08 -/

/-- C08: adding zero returns the same number exactly when x has at most 17 digits after the point: at 18 digits
it is wrong, or panics, for every x. -/
theorem c08_identity_iff (x : Decimal) (hx : x.Valid) (b : Bool) :
    (∃ r, x.add ⟨0, 0, b⟩ = .ok r ∧ r.num = x.num) ↔ x.scale ≤ 17 := by
  refine ⟨?_, fun h => (c08_identity_partial x hx h b).1⟩
  rintro ⟨r, hr, hn⟩
  by_contra hs
  have hs : x.scale = 18 := by have := hx.2; omega
  have h0 : numDigits 0 = 1 := by unfold numDigits; rw [Int.natAbs_zero, natChars_zero]; rfl
  have hz : Fits (⟨0, 0, b⟩ : Decimal).value := by unfold Fits; simp
  have hadj : adjustDecimalScale x ⟨0, 0, b⟩ = if numDigits x.value < 18 then none
      else some (none, ⟨roundHalfAway x.value 18, 0, x.denormalized⟩, ⟨0, 0, b⟩) := by
    unfold adjustDecimalScale
    rw [if_neg (by simp [hs]), if_neg (by simp), adjustLarger_spec _ _ hx.1 hz (by simp [hs])]
    simp [h0, hs]
  by_cases hd : numDigits x.value < 18
  · rw [if_pos hd] at hadj
    unfold Decimal.add addDecimal at hr
    rw [hadj] at hr
    simp at hr
  · rw [if_neg hd] at hadj
    have hf := roundHalfAway_fits x.value 18 (by omega) hx.1
    rw [add_eq _ _ _ _ hadj hf hz] at hr
    have hf' := hf
    unfold Fits at hf'
    simp only [add_zero] at hr
    rw [if_neg (by omega), if_neg (by omega)] at hr
    simp only [Out.ok.injEq] at hr
    have hv0 : x.value ≠ 0 := by
      intro h; rw [h, h0] at hd; omega
    rw [← hr, applyNormalization_num _ (by simp only; omega) (by simp only; omega)] at hn
    unfold Decimal.num at hn
    rw [hs] at hn
    simp only [pow_zero, div_one] at hn
    rw [eq_div_iff (by norm_num)] at hn
    have hi : roundHalfAway x.value 18 * 10 ^ 18 = x.value := by exact_mod_cast hn
    have hx1 := hx.1
    unfold Fits at hx1
    have : (10 : Int) ^ 18 = 1000000000000000000 := by norm_num
    rw [this] at hi
    omega

example : (⟨0, 18, false⟩ : Decimal).Valid ∧ ¬ (⟨0, 18, false⟩ : Decimal).scale ≤ 17 ∧
    (⟨123, 17, false⟩ : Decimal).Valid ∧ (⟨123, 17, false⟩ : Decimal).scale ≤ 17 := by decide

end Micro.Dec
