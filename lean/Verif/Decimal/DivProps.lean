import Verif.Decimal.DivLemmas
import Mathlib.Tactic.LinearCombination
import Mathlib.Tactic.IntervalCases
set_option linter.unusedSimpArgs false
/-
C12, C13: Div, and validity of all results.
-/
namespace Micro.Dec
open Micro

/-- The region in which Div is right: the divisor is not zero, the divisor written with the digits of the
result's scale shift stays below 2^63/10, and no prefix of the quotient's digits lies strictly between 2^63/10
and 10^18 (where multiplying it by ten leaves int64) unless the division ends right there. -/
def DivSafe (d o : Decimal) : Prop :=
  o.value ≠ 0 ∧ o.value.natAbs * 10 ^ (o.scale - d.scale) ≤ 922337203685477580 ∧
  ∀ k, 922337203685477580 < d.value.natAbs * 10 ^ k / o.value.natAbs →
    d.value.natAbs * 10 ^ k / o.value.natAbs ≤ 999999999999999999 →
    o.value.natAbs ∣ d.value.natAbs * 10 ^ k ∧ o.scale - d.scale ≤ k

/-- x can be written with at most 18 significant digits. -/
def Representable (x : ℚ) : Prop := ∃ (v : Int) (k : Nat), Fits v ∧ x = v / 10 ^ k

/-- The magnitude part of Div, after the signs have been stripped. -/
def divMag (dval oval : Int) (n : Nat) (s : Int) : Option (Option (Int × Int)) :=
  match divScaleUp n (dval.tdiv oval) (dval.tmod oval) with
  | none => some none
  | some (q, r) => divLoop oval false q r s

theorem div_eq_mag (d o : Decimal) (hd : Fits d.value) (ho : Fits o.value) (h0 : o.value ≠ 0) :
    d.div o = match divMag (d.value.natAbs : Int) (o.value.natAbs : Int) (o.scale - d.scale) ((d.scale - o.scale : Nat) : Int) with
      | none => none
      | some none => some (.err (if (0 ≤ d.value ↔ 0 ≤ o.value) then .overflow else .underflow))
      | some (some (q, s)) => some (.ok ⟨if (0 ≤ d.value ↔ 0 ≤ o.value) then q else w (-q), s.toNat, d.denormalized⟩) := by
  have ed : (if decide (d.value ≥ 0) = true then d.value else w (-d.value)) = (d.value.natAbs : Int) := by
    by_cases h : d.value ≥ 0
    · simp only [h, decide_true, if_true]; omega
    · simp only [h, decide_false, Bool.false_eq_true, if_false]
      rw [w_neg hd.le63.1 hd.le63.2]; omega
  have eo : (if decide (o.value ≥ 0) = true then o.value else w (-o.value)) = (o.value.natAbs : Int) := by
    by_cases h : o.value ≥ 0
    · simp only [h, decide_true, if_true]; omega
    · simp only [h, decide_false, Bool.false_eq_true, if_false]
      rw [w_neg ho.le63.1 ho.le63.2]; omega
  have hs : (decide (d.value ≥ 0) = decide (o.value ≥ 0)) = (0 ≤ d.value ↔ 0 ≤ o.value) := by
    rw [decide_eq_decide]
  unfold Decimal.div divMag
  simp only [ed, eo, hs]
  rw [if_neg (by omega)]
  cases divScaleUp (o.scale - d.scale) ((d.value.natAbs : Int).tdiv (o.value.natAbs : Int)) ((d.value.natAbs : Int).tmod (o.value.natAbs : Int)) with
  | none => rfl
  | some p =>
    obtain ⟨q, r⟩ := p
    simp only
    cases divLoop (o.value.natAbs : Int) false q r ((d.scale - o.scale : Nat) : Int) with
    | none => rfl
    | some c => cases c with
      | none => rfl
      | some c => rfl

/-- The magnitudes: with N = D * 10^n, either the quotient N / O has more than 18 digits and is refused, or the loop
gives its digits. -/
theorem divMag_spec (D O n : Nat) (s : Int) (hD : D ≤ 999999999999999999) (hO : 0 < O) (hn : n ≤ 18)
    (hO2 : O * 10 ^ n ≤ 922337203685477580)
    (hw : ∀ k, 922337203685477580 < D * 10 ^ k / O → D * 10 ^ k / O ≤ 999999999999999999 → O ∣ D * 10 ^ k ∧ n ≤ k) :
    (divMag D O n s = some none ∧ 1000000000000000000 * O ≤ D * 10 ^ n) ∨
    (∃ c, divMag D O n s = some c ∧ DivRes O (D * 10 ^ n) s c) := by
  have hd : (D : Int).tdiv (O : Int) = ((D / O : Nat) : Int) := by
    rw [Int.tdiv_eq_ediv_of_nonneg (by omega)]; rfl
  have hm : (D : Int).tmod (O : Int) = ((D % O : Nat) : Int) := by
    rw [Int.tmod_eq_emod_of_nonneg (by omega)]; rfl
  have hp : 1 ≤ 10 ^ n := Nat.one_le_pow _ _ (by norm_num)
  have hq : D / O ≤ 999999999999999999 := le_trans (Nat.div_le_self _ _) hD
  have hr : D % O < O := Nat.mod_lt _ hO
  have hOle : O ≤ 922337203685477580 := le_trans (Nat.le_mul_of_pos_right _ (by omega)) hO2
  have hdm := Nat.div_add_mod D O
  -- bounds for the scaled quotient
  have hbound : ∀ i, i ≤ 18 → D / O * 10 ^ i ≤ 999999999999999999 →
      D / O * 10 ^ i ≤ D * 10 ^ i / O ∧ D * 10 ^ i / O ≤ 999999999999999999 := by
    intro i hi h
    have hpi : 0 < 10 ^ i := by positivity
    constructor
    · rw [Nat.le_div_iff_mul_le hO]
      have := Nat.div_mul_le_self D O
      calc D / O * 10 ^ i * O = D / O * O * 10 ^ i := by ring
        _ ≤ D * 10 ^ i := Nat.mul_le_mul_right _ this
    · have h1 : D < (D / O + 1) * O := by
        rw [← Nat.div_lt_iff_lt_mul hO]; omega
      have h2 : D * 10 ^ i / O < (D / O + 1) * 10 ^ i := by
        rw [Nat.div_lt_iff_lt_mul hO]
        calc D * 10 ^ i < (D / O + 1) * O * 10 ^ i := Nat.mul_lt_mul_of_pos_right h1 hpi
          _ = (D / O + 1) * 10 ^ i * O := by ring
      have h3 : D / O + 1 ≤ 10 ^ (18 - i) := by
        have : D / O * 10 ^ i < 10 ^ (18 - i) * 10 ^ i := by
          rw [← pow_add, Nat.sub_add_cancel hi]
          refine lt_of_le_of_lt h (by norm_num)
        exact Nat.lt_of_mul_lt_mul_right this
      have h4 : (D / O + 1) * 10 ^ i ≤ 1000000000000000000 := by
        calc (D / O + 1) * 10 ^ i ≤ 10 ^ (18 - i) * 10 ^ i := Nat.mul_le_mul_right _ h3
          _ = 10 ^ 18 := by rw [← pow_add, Nat.sub_add_cancel hi]
          _ = 1000000000000000000 := by norm_num
      exact Nat.le_of_lt_succ (lt_of_lt_of_le h2 h4)
  have hwin : ∀ i, i < n → ¬ (922337203685477580 < D / O * 10 ^ i ∧ D / O * 10 ^ i ≤ 999999999999999999) := by
    intro i hi ⟨h1, h2⟩
    obtain ⟨b1, b2⟩ := hbound i (by omega) h2
    have := (hw i (lt_of_lt_of_le h1 b1) b2).2
    omega
  have hrn : D % O * 10 ^ n ≤ 9223372036854775807 := by
    have : D % O * 10 ^ n ≤ O * 10 ^ n := Nat.mul_le_mul_right _ (by omega)
    exact le_trans this (le_trans hO2 (by norm_num))
  have hWin : Window O (D * 10 ^ n) := by
    intro k h1 h2
    have := hw (n + k)
    rw [pow_add, ← mul_assoc] at this
    exact (this h1 h2).1
  unfold divMag
  rw [hd, hm]
  rcases divScaleUp_spec n (D / O) (D % O) hq hrn hwin with ⟨h1, h2⟩ | ⟨h1, h2⟩
  · right
    rw [h2]
    simp only
    obtain ⟨b1, b2⟩ := hbound n hn h1
    have hN : D / O * 10 ^ n * O + D % O * 10 ^ n = D * 10 ^ n := by
      calc D / O * 10 ^ n * O + D % O * 10 ^ n = (O * (D / O) + D % O) * 10 ^ n := by ring
        _ = D * 10 ^ n := by rw [hdm]
    by_cases hlt : D % O * 10 ^ n < O
    · exact divLoop_entry O hOle _ _ _ s h1 hlt hN hWin
    · rw [divLoop_outer]
      have hne : ((D % O * 10 ^ n : Nat) : Int) ≠ 0 := by
        generalize D % O * 10 ^ n = z at *
        omega
      rw [if_pos hne]
      have hsum : D / O * 10 ^ n + D % O * 10 ^ n / O = D * 10 ^ n / O := by
        rw [← hN, Nat.mul_comm _ O, Nat.mul_add_div hO]
      rw [divLoop_digit O _ _ s hO (by omega) (by rw [hsum]; exact b2), hsum]
      apply divLoop_entry O hOle _ _ _ s b2 (Nat.mod_lt _ hO) _ hWin
      have : D % O * 10 ^ n % O = D * 10 ^ n % O := by
        rw [← hN, Nat.mul_add_mod_self_right]
      rw [this, Nat.mul_comm]
      exact Nat.div_add_mod _ _
  · left
    rw [h2]
    refine ⟨rfl, ?_⟩
    calc 1000000000000000000 * O ≤ D / O * 10 ^ n * O := Nat.mul_le_mul_right _ h1
      _ = D / O * O * 10 ^ n := by ring
      _ ≤ D * 10 ^ n := Nat.mul_le_mul_right _ (Nat.div_mul_le_self _ _)

theorem absquo (d o : Decimal) :
    |d.num / o.num| = ((d.value.natAbs * 10 ^ (o.scale - d.scale) : Nat) : ℚ) / o.value.natAbs / 10 ^ (d.scale - o.scale) := by
  rw [abs_div, num_abs, num_abs]
  have h : (10 : ℚ) ^ o.scale * 10 ^ (d.scale - o.scale) = 10 ^ (o.scale - d.scale) * 10 ^ d.scale := by
    rw [← pow_add, ← pow_add]; congr 1; omega
  push_cast
  have a := (pow10_pos d.scale).ne'
  have b := (pow10_pos o.scale).ne'
  have c := (pow10_pos (d.scale - o.scale)).ne'
  rcases Nat.eq_zero_or_pos o.value.natAbs with h0 | h0
  · rw [h0]; simp
  · have hq : ((o.value.natAbs : Nat) : ℚ) ≠ 0 := by exact_mod_cast h0.ne'
    rw [div_div_div_eq, div_div, div_eq_div_iff (mul_ne_zero a hq) (mul_ne_zero hq c)]
    linear_combination ((d.value.natAbs : ℚ) * (o.value.natAbs : ℚ)) * h

theorem quo_sign (d o : Decimal) (_h0 : o.value ≠ 0) :
    d.num / o.num = (if (0 ≤ d.value ↔ 0 ≤ o.value) then 1 else -1) * |d.num / o.num| := by
  obtain ⟨d1, d2, d3⟩ := num_sign d
  obtain ⟨o1, o2, o3⟩ := num_sign o
  have dn : 0 ≤ d.value → 0 ≤ d.num := fun h => by
    by_contra hc; push Not at hc; have := d2.mp hc; omega
  have on : 0 ≤ o.value → 0 ≤ o.num := fun h => by
    by_contra hc; push Not at hc; have := o2.mp hc; omega
  by_cases hd : 0 ≤ d.value <;> by_cases ho : 0 ≤ o.value
  · rw [if_pos (iff_of_true hd ho), abs_of_nonneg (div_nonneg (dn hd) (on ho)), one_mul]
  · rw [if_neg (fun h => ho (h.mp hd)), abs_of_nonpos (div_nonpos_of_nonneg_of_nonpos (dn hd) (o2.mpr (by omega)).le)]; ring
  · rw [if_neg (fun h => hd (h.mpr ho)), abs_of_nonpos (div_nonpos_of_nonpos_of_nonneg (d2.mpr (by omega)).le (on ho))]; ring
  · rw [if_pos (iff_of_false hd ho), abs_of_nonneg (div_nonneg_of_nonpos (d2.mpr (by omega)).le (o2.mpr (by omega)).le), one_mul]

/-- What a result (q, scale) of magnitude x means. -/
structure Good (x : ℚ) (q s : Nat) : Prop where
  fits : q ≤ 999999999999999999
  close : |(q : ℚ) / 10 ^ s - x| < ulp s
  pos : 0 < q ↔ 0 < x
  exact : (∃ V j : Nat, V ≤ 999999999999999999 ∧ x = (V : ℚ) / 10 ^ j) → (q : ℚ) / 10 ^ s = x

theorem good_exact (O N s0 q k : Nat) (hO : 0 < O) (hq : q ≤ 999999999999999999) (h : q * O = N * 10 ^ k) :
    Good ((N : ℚ) / O / 10 ^ s0) q (s0 + k) := by
  have a := pow10_pos s0
  have b := pow10_pos k
  have hOq : (0 : ℚ) < O := by exact_mod_cast hO
  have hx : (q : ℚ) / 10 ^ (s0 + k) = (N : ℚ) / O / 10 ^ s0 := by
    have h' : (q : ℚ) * O = N * 10 ^ k := by exact_mod_cast h
    rw [pow_add, div_div, div_eq_div_iff (by positivity) (by positivity)]
    linear_combination (10 : ℚ) ^ s0 * h'
  refine ⟨hq, by rw [hx, sub_self, abs_zero]; unfold ulp; positivity, ?_, fun _ => hx⟩
  rw [← hx]
  constructor
  · intro h; have : (0 : ℚ) < q := by exact_mod_cast h
    positivity
  · intro h
    by_contra hc
    have : q = 0 := by omega
    subst this
    simp at h

theorem good_rounded (O N s0 q k r q' : Nat) (hq : q ≤ 922337203685477580) (hr : 0 < r) (hro : r < O)
    (h : q * O + r = N * 10 ^ k) (h10 : 999999999999999999 < q * 10) (hq' : q' = q ∨ q' = q + 1) :
    Good ((N : ℚ) / O / 10 ^ s0) q' (s0 + k) := by
  have a := pow10_pos s0
  have b := pow10_pos k
  have hOq : (0 : ℚ) < O := by exact_mod_cast (by omega : 0 < O)
  have hrq : (0 : ℚ) < r := by exact_mod_cast hr
  have hroq : (r : ℚ) < O := by exact_mod_cast hro
  have h' : (q : ℚ) * O + r = N * 10 ^ k := by exact_mod_cast h
  have hx : (N : ℚ) / O / 10 ^ s0 = (q + r / O) / 10 ^ (s0 + k) := by
    rw [pow_add, div_div]
    field_simp
    linear_combination -h'
  have hf0 : 0 < (r : ℚ) / O := by positivity
  have hf1 : (r : ℚ) / O < 1 := (div_lt_one hOq).mpr hroq
  have hP := pow10_pos (s0 + k)
  refine ⟨by omega, ?_, ?_, ?_⟩
  · rw [hx, ← sub_div, abs_div, abs_of_pos hP]
    unfold ulp
    apply div_lt_div_of_pos_right _ hP
    rw [abs_lt]
    rcases hq' with rfl | rfl
    · constructor <;> linarith
    · push_cast; constructor <;> linarith
  · constructor
    · intro _; rw [hx]; positivity
    · intro _; omega
  · rintro ⟨V, j, hV, hVx⟩
    exfalso
    rw [hx] at hVx
    -- (q + r/O) * 10^j = V * 10^(s0+k)
    have hJ := pow10_pos j
    rw [div_eq_div_iff hP.ne' hJ.ne'] at hVx
    rcases Nat.le_total j (s0 + k) with hle | hle
    · obtain ⟨t, ht⟩ := Nat.exists_eq_add_of_le hle
      rw [ht, pow_add, mul_comm ((10 : ℚ) ^ j), ← mul_assoc] at hVx
      have h2 := mul_right_cancel₀ hJ.ne' hVx
      have h3 : (q : ℚ) < ((V * 10 ^ t : Nat) : ℚ) := by push_cast; linarith
      have h4 : ((V * 10 ^ t : Nat) : ℚ) < ((q + 1 : Nat) : ℚ) := by push_cast; linarith
      have h3' : q < V * 10 ^ t := by exact_mod_cast h3
      have h4' : V * 10 ^ t < q + 1 := by exact_mod_cast h4
      omega
    · rcases Nat.eq_or_lt_of_le hle with heq | hlt
      · rw [← heq] at hVx
        have h2 := mul_right_cancel₀ hP.ne' hVx
        have h3 : (q : ℚ) < (V : ℚ) := by linarith
        have h4 : (V : ℚ) < ((q + 1 : Nat) : ℚ) := by push_cast; linarith
        have h3' : q < V := by exact_mod_cast h3
        have h4' : V < q + 1 := by exact_mod_cast h4
        omega
      · obtain ⟨t, ht⟩ := Nat.exists_eq_add_of_lt hlt
        have e : (10 : ℚ) ^ j = 10 * 10 ^ t * 10 ^ (s0 + k) := by rw [ht, pow_succ, pow_add]; ring
        rw [e, ← mul_assoc] at hVx
        have h2 := mul_right_cancel₀ hP.ne' hVx
        have ht1 : (1 : ℚ) ≤ 10 ^ t := one_le_pow₀ (by norm_num)
        have hqq : (999999999999999999 : ℚ) < q * 10 := by exact_mod_cast h10
        have hVq : (V : ℚ) ≤ 999999999999999999 := by exact_mod_cast hV
        have : (q : ℚ) * 10 ≤ ((q : ℚ) + r / O) * (10 * 10 ^ t) := by
          have h1 : (q : ℚ) * 10 ≤ (q : ℚ) * (10 * 10 ^ t) := by
            apply mul_le_mul_of_nonneg_left _ (by positivity)
            linarith
          have h2 : (q : ℚ) * (10 * 10 ^ t) ≤ ((q : ℚ) + r / O) * (10 * 10 ^ t) := by
            apply mul_le_mul_of_nonneg_right _ (by positivity)
            linarith
          linarith
        linarith

/-- C12, the part that holds: on `DivSafe` operands Div terminates and does not panic. A Decimal it returns has at most
18 digits, differs from the quotient by less than one unit in its last place, has the sign of the quotient, and
is the quotient exactly when that can be written with at most 18 digits. An error is an overflow when the signs agree and
an underflow when they differ, and is only reported for a quotient of at least 10^18 or a divisor whose
unscaled value is 10^17 or more. Missing: operands outside DivSafe, where the code wraps around or hangs. -/
theorem c12_div_partial (d o : Decimal) (hd : d.Valid) (ho : o.Valid) (hs : DivSafe d o) :
    (∃ r, d.div o = some (.ok r) ∧ Fits r.value ∧ |r.num - d.num / o.num| < ulp r.scale ∧
      (0 < r.num ↔ 0 < d.num / o.num) ∧ (r.num < 0 ↔ d.num / o.num < 0) ∧
      (Representable (d.num / o.num) → r.num = d.num / o.num)) ∨
    (d.div o = some (.err (if (0 ≤ d.value ↔ 0 ≤ o.value) then .overflow else .underflow)) ∧
      (10 ^ 18 ≤ |d.num / o.num| ∨ 10 ^ 17 < o.value.natAbs)) := by
  obtain ⟨h0, h1, h2⟩ := hs
  have hdf := hd.1
  have hof := ho.1
  have hn : o.scale - d.scale ≤ 18 := le_trans (Nat.sub_le _ _) ho.2
  have hO : 0 < o.value.natAbs := by omega
  have hD : d.value.natAbs ≤ 999999999999999999 := by unfold Fits at hdf; omega
  have hx := absquo d o
  have hsg := quo_sign d o h0
  rw [div_eq_mag d o hdf hof h0]
  have hmag := divMag_spec d.value.natAbs o.value.natAbs (o.scale - d.scale) ((d.scale - o.scale : Nat) : Int) hD hO hn h1 h2
  have finish : ∀ q s : Nat, Good |d.num / o.num| q s →
      (∃ r : Decimal, some (Out.ok (⟨if (0 ≤ d.value ↔ 0 ≤ o.value) then (q : Int) else w (-(q : Int)), s, d.denormalized⟩ : Decimal)) = some (Out.ok (ε := DErr) r) ∧
        Fits r.value ∧ |r.num - d.num / o.num| < ulp r.scale ∧
      (0 < r.num ↔ 0 < d.num / o.num) ∧ (r.num < 0 ↔ d.num / o.num < 0) ∧
      (Representable (d.num / o.num) → r.num = d.num / o.num)) := by
    intro q s ⟨g1, g2, g3, g4⟩
    have hw : w (-(q : Int)) = -(q : Int) := w_id (by omega) (by omega)
    rw [hw]
    have hP := pow10_pos s
    have hrep : Representable (d.num / o.num) → (q : ℚ) / 10 ^ s = |d.num / o.num| := by
      rintro ⟨v, k, hv, hvx⟩
      apply g4
      refine ⟨v.natAbs, k, by unfold Fits at hv; omega, ?_⟩
      rw [hvx, abs_div, abs_of_pos (pow10_pos k), Nat.cast_natAbs, Int.cast_abs]
    have hq0 : 0 < (q : ℚ) / 10 ^ s ↔ 0 < |d.num / o.num| := by
      rw [← g3]
      constructor
      · intro h; by_contra hc
        have : q = 0 := by omega
        subst this; simp at h
      · intro h
        have : (0 : ℚ) < q := by exact_mod_cast h
        positivity
    refine ⟨_, rfl, ?_, ?_⟩
    · simp only; unfold Fits; split <;> omega
    · unfold Decimal.num at *
      simp only
      generalize hX : (d.value : ℚ) / 10 ^ d.scale / ((o.value : ℚ) / 10 ^ o.scale) = X at *
      by_cases hc : (0 ≤ d.value ↔ 0 ≤ o.value)
      · rw [if_pos hc, one_mul] at hsg
        rw [if_pos hc]
        have hXn : 0 ≤ X := by rw [hsg]; exact abs_nonneg _
        have hqn : (0 : ℚ) ≤ (q : ℚ) / 10 ^ s := by positivity
        rw [← hsg] at g2 hrep hq0
        exact ⟨g2, hq0, ⟨fun h => absurd h (not_lt_of_ge hqn), fun h => absurd h (not_lt_of_ge hXn)⟩, hrep⟩
      · rw [if_neg hc] at hsg
        rw [if_neg hc]
        have hXn : X ≤ 0 := by rw [hsg]; have := abs_nonneg X; linarith
        have hqn : (0 : ℚ) ≤ (q : ℚ) / 10 ^ s := by positivity
        have e : (((-(q : Int) : Int)) : ℚ) / 10 ^ s = -((q : ℚ) / 10 ^ s) := by push_cast; ring
        rw [e]
        rw [abs_of_nonpos hXn] at g2 hrep hq0
        refine ⟨?_, ⟨fun h => by linarith, fun h => by linarith⟩, ⟨fun h => ?_, fun h => ?_⟩, fun h => by have := hrep h; linarith⟩
        · rw [show -((q : ℚ) / 10 ^ s) - X = -((q : ℚ) / 10 ^ s - -X) by ring, abs_neg]; exact g2
        · have := hq0.mp (by linarith); linarith
        · have := hq0.mpr (by linarith); linarith
  rcases hmag with ⟨m1, m2⟩ | ⟨c, m1, m2⟩
  · right
    rw [m1]
    refine ⟨rfl, .inl ?_⟩
    rw [hx]
    have hs0 : d.scale - o.scale = 0 := by
      by_contra hc
      have : o.scale - d.scale = 0 := by omega
      rw [this, pow_zero, mul_one] at m2
      have : 1000000000000000000 ≤ d.value.natAbs := le_trans (Nat.le_mul_of_pos_right _ hO) m2
      omega
    have hOq : (0 : ℚ) < (o.value.natAbs : ℚ) := by exact_mod_cast hO
    rw [hs0, pow_zero, div_one, le_div_iff₀ hOq]
    have : ((1000000000000000000 * o.value.natAbs : Nat) : ℚ) ≤ ((d.value.natAbs * 10 ^ (o.scale - d.scale) : Nat) : ℚ) := by
      exact_mod_cast m2
    refine le_trans (le_of_eq ?_) this
    push_cast
    norm_num
  · rw [m1]
    cases m2 with
    | over r h1 h2 =>
      right
      exact ⟨rfl, .inr (by rw [show (10 : Nat) ^ 17 = 100000000000000000 by norm_num]; omega)⟩
    | exact q k e1 e2 =>
      left
      simp only
      have ek : (((d.scale - o.scale : Nat) : Int) + (k : Int)).toNat = d.scale - o.scale + k := by omega
      rw [ek]
      exact finish q _ (by rw [hx]; exact good_exact _ _ _ q k hO e1 e2)
    | rounded q k r q' e1 e2 e3 e4 e5 e6 =>
      left
      simp only
      have ek : (((d.scale - o.scale : Nat) : Int) + (k : Int)).toNat = d.scale - o.scale + k := by omega
      rw [ek]
      exact finish q' _ (by rw [hx]; exact good_rounded _ _ _ q k r q' e1 e2 e3 e4 e5 e6)

/-! Evaluating the loops on concrete operands -/

/-- divGrow with a bound on the number of iterations. -/
def divGrowF (oval : Int) : Nat → Int → Option Int
  | 0, _ => none
  | f + 1, nr => if nr < oval then divGrowF oval f (w (nr * 10)) else some nr

theorem divGrowF_eq (oval : Int) (f : Nat) (nr m : Int) (h : divGrowF oval f nr = some m) : divGrow oval nr = some m := by
  induction f generalizing nr with
  | zero => simp [divGrowF] at h
  | succ f ih =>
    rw [divGrow]
    unfold divGrowF at h
    by_cases hc : nr < oval
    · rw [if_pos hc] at h ⊢; exact ih _ h
    · rw [if_neg hc] at h ⊢; exact h

/-- divShrink with a bound on the number of iterations. -/
def divShrinkF : Nat → Int → Option Int
  | 0, _ => none
  | f + 1, nr => if nr > 10 then divShrinkF f (nr.tdiv 10) else some nr

theorem divShrinkF_eq (f : Nat) (nr m : Int) (h : divShrinkF f nr = some m) : divShrink nr = m := by
  induction f generalizing nr with
  | zero => simp [divShrinkF] at h
  | succ f ih =>
    rw [divShrink]
    unfold divShrinkF at h
    by_cases hc : nr > 10
    · rw [if_pos hc] at h ⊢; exact ih _ h
    · rw [if_neg hc] at h ⊢; exact Option.some.inj h

/-- The end of the digit loop, with bounded iterations. -/
def divEndF (oval q r s : Int) : Option (Option (Int × Int)) :=
  match divGrowF oval 40 (w (r * 10)) with
  | none => none
  | some nr =>
    match divShrinkF 40 (nr.tdiv oval) with
    | none => none
    | some x => if x ≥ 5 then some (some (w (q + 1), s)) else some (some (q, s))

/-- divLoop with a bound on the number of iterations. -/
def divLoopF (oval : Int) : Nat → Bool → Int → Int → Int → Option (Option (Int × Int))
  | 0, _, _, _, _ => none
  | f + 1, false, q, r, s => if r ≠ 0 then divLoopF oval f true q r s else some (some (q, s))
  | f + 1, true, q, r, s =>
    if r < oval then
      if w (q * 10) > maxValue then divEndF oval q r s
      else if w (r * 10) > maxValue then some none
      else divLoopF oval f true (w (q * 10)) (w (r * 10)) (s + 1)
    else divLoopF oval f false (w (q + r.tdiv oval)) (r.tmod oval) s

theorem divLoopF_eq (oval : Int) (f : Nat) (b : Bool) (q r s : Int) (c) (h : divLoopF oval f b q r s = some c) :
    divLoop oval b q r s = some c := by
  induction f generalizing b q r s with
  | zero => simp [divLoopF] at h
  | succ f ih =>
    cases b with
    | false =>
      rw [divLoop_outer]
      unfold divLoopF at h
      by_cases hc : r ≠ 0
      · rw [if_pos hc] at h ⊢; exact ih _ _ _ _ h
      · rw [if_neg hc] at h ⊢; exact h
    | true =>
      unfold divLoopF at h
      by_cases hc : r < oval
      · rw [if_pos hc] at h
        rw [divLoop_step _ _ _ _ hc]
        by_cases h1 : w (q * 10) > maxValue
        · rw [if_pos h1] at h ⊢
          unfold divEndF at h
          cases hg : divGrowF oval 40 (w (r * 10)) with
          | none => rw [hg] at h; cases h
          | some m =>
            rw [hg] at h
            rw [divGrowF_eq _ _ _ _ hg]
            simp only at h ⊢
            cases hx : divShrinkF 40 (m.tdiv oval) with
            | none => rw [hx] at h; cases h
            | some x =>
              rw [hx] at h
              rw [divShrinkF_eq _ _ _ hx]
              exact h
        · rw [if_neg h1] at h ⊢
          by_cases h2 : w (r * 10) > maxValue
          · rw [if_pos h2] at h ⊢; exact h
          · rw [if_neg h2] at h ⊢; exact ih _ _ _ _ h
      · rw [if_neg hc] at h
        rw [divLoop_inner _ _ _ _ hc]
        exact ih _ _ _ _ h

/-- The endless loop: with both the quotient and the remainder zero inside the inner loop nothing changes. -/
theorem divLoop_hang (oval : Int) (ho : 0 < oval) (s : Int) : divLoop oval true 0 0 s = none := by
  by_contra hne
  obtain ⟨c, hc⟩ := Option.ne_none_iff_exists'.mp hne
  have key := divLoop.partial_correctness oval (fun inner q r s c => inner = true → q = 0 → r = 0 → False) (by
    intro loop ih inner q r s c h hi hq hr
    subst hi hq hr
    have e : w ((0 : Int) * 10) = 0 := by decide
    simp only [Bool.true_eq_false, if_false, ho, if_true, e] at h
    rw [if_neg (by decide), if_neg (by decide)] at h
    exact ih true 0 0 (s + 1) c h rfl rfl rfl) true 0 0 s c hc
  exact key rfl rfl rfl

/-- Evaluation of Div on concrete operands. -/
theorem div_eval (d o : Decimal) (hd : d.Valid) (ho : o.Valid) (h0 : o.value ≠ 0) (Q R : Int) (q : Int) (s f : Nat)
    (hup : divScaleUp (o.scale - d.scale) ((d.value.natAbs : Int).tdiv o.value.natAbs) ((d.value.natAbs : Int).tmod o.value.natAbs) = some (Q, R))
    (hl : divLoopF o.value.natAbs f false Q R ((d.scale - o.scale : Nat) : Int) = some (some (q, (s : Int))))
    (hsame : (0 ≤ d.value ↔ 0 ≤ o.value)) :
    d.div o = some (.ok ⟨q, s, d.denormalized⟩) := by
  rw [div_eq_mag d o hd.1 ho.1 h0]
  unfold divMag
  rw [hup]
  simp only
  rw [divLoopF_eq _ _ _ _ _ _ _ hl]
  simp only [hsame, if_true, Int.toNat_natCast]

/-- C12 is false as stated: 28 / 3 is -9.113410740376218283 (multiplying the 18 digits 9333... by ten wraps around),
and 950000000000000000 / 0.1, which does not fit, is -8946744073709551616 instead of an overflow. -/
theorem c12_wrap_refuted :
    (∃ r : Decimal, (⟨28, 0, false⟩ : Decimal).div ⟨3, 0, false⟩ = some (.ok r) ∧ r.num < -9 ∧ ¬ Fits r.value) ∧
    (∃ r : Decimal, (⟨950000000000000000, 0, false⟩ : Decimal).div ⟨1, 1, false⟩ = some (.ok r) ∧ r.num < 0 ∧ ¬ Fits r.value) := by
  constructor
  · refine ⟨⟨-9113410740376218283, 18, false⟩, ?_, ?_, by decide⟩
    · exact div_eval _ _ (by decide) (by decide) (by decide) 9 1 _ 18 100 (by decide) (by decide) (by decide)
    · unfold Decimal.num; norm_num
  · refine ⟨⟨-8946744073709551616, 0, false⟩, ?_, ?_, by decide⟩
    · exact div_eval _ _ (by decide) (by decide) (by decide) (-8946744073709551616) 0 _ 0 100 (by decide) (by decide) (by decide)
    · unfold Decimal.num; norm_num

/-- C12 is false as stated: Div need not terminate. 35184372088832 / 0.000035184372088833 runs forever: multiplying
the remainder 2^45 by 10^18 in int64 leaves -2^63, one more multiplication leaves 0, and then the inner loop spins. -/
theorem c12_hang_refuted :
    ∃ d o : Decimal, d.Valid ∧ o.Valid ∧ o.value ≠ 0 ∧ d.div o = none := by
  refine ⟨⟨35184372088832, 0, false⟩, ⟨35184372088833, 18, false⟩, by decide, by decide, by decide, ?_⟩
  rw [div_eq_mag _ _ (by decide) (by decide) (by decide)]
  have hup : divMag ((⟨35184372088832, 0, false⟩ : Decimal).value.natAbs : Int) ((⟨35184372088833, 18, false⟩ : Decimal).value.natAbs : Int)
      ((⟨35184372088833, 18, false⟩ : Decimal).scale - (⟨35184372088832, 0, false⟩ : Decimal).scale)
      (((⟨35184372088832, 0, false⟩ : Decimal).scale - (⟨35184372088833, 18, false⟩ : Decimal).scale : Nat) : Int) = none := by
    unfold divMag
    have : divScaleUp 18 ((35184372088832 : Int).tdiv 35184372088833) ((35184372088832 : Int).tmod 35184372088833) =
        some (0, -9223372036854775808) := by decide
    show (match divScaleUp 18 ((35184372088832 : Int).tdiv 35184372088833) ((35184372088832 : Int).tmod 35184372088833) with
      | none => some none
      | some (q, r) => divLoop 35184372088833 false q r 0) = none
    rw [this]
    simp only
    rw [divLoop_outer, if_pos (by decide), divLoop_step _ _ _ _ (by decide), if_neg (by decide), if_neg (by decide)]
    have e1 : w ((0 : Int) * 10) = 0 := by decide
    have e2 : w ((-9223372036854775808 : Int) * 10) = 0 := by decide
    rw [e1, e2]
    exact divLoop_hang _ (by decide) _
  rw [hup]

/-- Dividing by zero always panics. -/
theorem c12_zero_panics (d o : Decimal) (h : o.value = 0) : d.div o = some .panic := by
  unfold Decimal.div
  simp [h]

theorem divSafe_10_3 : DivSafe ⟨10, 0, false⟩ ⟨3, 0, false⟩ := by
  refine ⟨by decide, by decide, ?_⟩
  intro k h1 h2
  change 922337203685477580 < 10 * 10 ^ k / 3 at h1
  change 10 * 10 ^ k / 3 ≤ 999999999999999999 at h2
  have hk : k < 18 := by
    by_contra hc
    have : 10 ^ 18 ≤ 10 ^ k := Nat.pow_le_pow_right (by norm_num) (by omega)
    rw [show (10 : Nat) ^ 18 = 1000000000000000000 by norm_num] at this
    generalize 10 ^ k = z at *
    omega
  exfalso
  interval_cases k <;> norm_num at h1

/-- Non-vacuity: 10 / 3 meets the hypotheses and is 3.33333333333333333. -/
example := c12_div_partial ⟨10, 0, false⟩ ⟨3, 0, false⟩ (by decide) (by decide) divSafe_10_3

example : DivSafe ⟨10, 0, false⟩ ⟨3, 0, false⟩ ∧
    (⟨10, 0, false⟩ : Decimal).div ⟨3, 0, false⟩ = some (.ok ⟨333333333333333333, 17, false⟩) :=
  ⟨divSafe_10_3, div_eval _ _ (by decide) (by decide) (by decide) 3 1 _ 17 100 (by decide) (by decide) (by decide)⟩

/-! ### C13 -/

/-- The Decimals a program can obtain from the constructors and from every operation except Div. Integer arguments
are int64 resp. uint values. -/
inductive Reach : Decimal → Prop
  | ofDecimal (v : Int) (s : Nat) (n : List Bool) (d) : ofDecimal v s n = .ok d → Reach d
  | parse (s : List Char) (d) : stringToDecimal s = .ok d → Reach d
  | normalize (d) : Reach d → Reach d.normalize
  | negate (d) : Reach d → Reach d.negate
  | add (d o r) : Reach d → Reach o → d.add o = .ok r → Reach r
  | sub (d o r) : Reach d → Reach o → d.sub o = .ok r → Reach r
  | mul (d o r) : Reach d → Reach o → d.mul o = .ok r → Reach r
  | quo (d o q r) : Reach d → o < 2 ^ 64 → d.divIntQuoRem o = .ok (q, r) → Reach q
  | rem (d o q r) : Reach d → o < 2 ^ 64 → d.divIntQuoRem o = .ok (q, r) → Reach r
  | part (d o ps p) : Reach d → o < 2 ^ 64 → d.divIntAdd o = .ok ps → p ∈ ps → Reach p

theorem tdiv_natAbs_le (a b : Int) : (a.tdiv b).natAbs ≤ a.natAbs := by
  rw [Int.natAbs_tdiv]; exact Nat.div_le_self _ _

theorem tdiv_mul_natAbs_le (a b : Int) : (a.tdiv b * b).natAbs ≤ a.natAbs := by
  rw [Int.natAbs_mul, Int.natAbs_tdiv]; exact Nat.div_mul_le_self _ _

theorem divIntQuoRem_valid (d : Decimal) (o : Nat) (q r : Decimal) (hd : d.Valid) (h : d.divIntQuoRem o = .ok (q, r)) :
    q.Valid ∧ r.Valid ∧ q.value = d.value.tdiv (w o) := by
  have hf := hd.1
  unfold Fits at hf
  unfold Decimal.divIntQuoRem at h
  split at h
  · cases h
  · simp only at h
    generalize divTens d.scale (if d.value ≥ 0 then d.value else w (-d.value)) = ip at h
    by_cases hip : w (o : Int) > ip
    · rw [if_pos hip] at h; cases h
    · rw [if_neg hip] at h
      have h1 := tdiv_natAbs_le d.value (w o)
      have h2 := tdiv_mul_natAbs_le d.value (w o)
      have e1 : w (d.value.tdiv (w o)) = d.value.tdiv (w o) := by
        generalize d.value.tdiv (w o) = z at *
        exact w_id (by omega) (by omega)
      have e2 : w (d.value.tdiv (w o) * w o) = d.value.tdiv (w o) * w o := by
        generalize d.value.tdiv (w o) * w o = z at *
        exact w_id (by omega) (by omega)
      rw [e1, e2] at h
      have v1 : Fits (d.value.tdiv (w o)) := by
        generalize d.value.tdiv (w o) = z at *
        unfold Fits; omega
      have v2 : Fits (d.value.tdiv (w o) * w o) := by
        generalize d.value.tdiv (w o) * w o = z at *
        unfold Fits; omega
      cases hs : d.sub ⟨d.value.tdiv (w o) * w o, d.scale, d.denormalized⟩ with
      | ok r' =>
        rw [hs] at h
        simp only [Out.ok.injEq, Prod.mk.injEq] at h
        obtain ⟨rfl, rfl⟩ := h
        exact ⟨⟨v1, hd.2⟩, (c07_sub_error d ⟨d.value.tdiv (w o) * w o, d.scale, d.denormalized⟩ _ hd ⟨v2, hd.2⟩ hs).1, rfl⟩
      | err e => rw [hs] at h; simp at h
      | panic => rw [hs] at h; simp at h

theorem divIntAddLoop_mem (d q : Decimal) (n : Nat) (rc : Int) (p : Decimal) (h : p ∈ divIntAddLoop d q n rc) :
    p.scale = d.scale ∧ (p.value = w (q.value + 1) ∨ p.value = w (q.value + 0)) := by
  induction n generalizing rc with
  | zero => simp [divIntAddLoop] at h
  | succ n ih =>
    unfold divIntAddLoop at h
    rcases List.mem_cons.mp h with h | h
    · rw [h]
      refine ⟨rfl, ?_⟩
      simp only
      split
      · exact .inl rfl
      · exact .inr rfl
    · exact ih _ h

theorem divIntAdd_valid (d : Decimal) (o : Nat) (ps : List Decimal) (p : Decimal) (hd : d.Valid)
    (h : d.divIntAdd o = .ok ps) (hp : p ∈ ps) : p.Valid := by
  have hf := hd.1
  unfold Fits at hf
  unfold Decimal.divIntAdd at h
  cases hq : d.divIntQuoRem o with
  | err e => rw [hq] at h; cases h
  | panic => rw [hq] at h; cases h
  | ok x =>
    obtain ⟨q, r⟩ := x
    rw [hq] at h
    simp only at h
    split at h
    · cases h
    · rename_i hbig
      simp only [Out.ok.injEq] at h
      obtain ⟨hqv, hrv, hqe⟩ := divIntQuoRem_valid d o q r hd hq
      have hwo : w (o : Int) = o := w_id (by omega) (by omega)
      have he := divIntQuoRem_eq d o hd (by omega)
      rw [hq] at he
      have ho0 : o ≠ 0 := by
        intro h0; rw [if_pos h0] at he; cases he
      by_cases h1 : o = 1
      · subst h1
        rw [if_neg (by omega)] at he
        split at he
        · cases he
        · simp only [Out.ok.injEq, Prod.mk.injEq] at he
          obtain ⟨rfl, rfl⟩ := he
          have hr0 : (Decimal.applyNormalization ⟨d.value.tmod ((1 : Nat) : Int), d.scale, d.denormalized⟩).value = 0 := by
            have : d.value.tmod ((1 : Nat) : Int) = 0 := by simp
            rw [this]
            unfold Decimal.applyNormalization
            simp only [true_or, if_true]
            exact ((normalize_spec ⟨0, d.scale, d.denormalized⟩ (by simp) (by simp)).choose_spec.2.2.2.1 rfl).1
          rw [hr0] at h
          simp only [divIntAddLoop, lt_irrefl, if_false] at h
          subst h
          simp only [List.mem_singleton] at hp
          rw [hp]
          refine ⟨?_, hd.2⟩
          have hqq := hqv.1
          unfold Fits at hqq ⊢
          simp only at hqq ⊢
          generalize d.value.tdiv ((1 : Nat) : Int) = z at *
          rw [w_id (by omega) (by omega)]
          omega
      · subst h
        obtain ⟨m1, m2⟩ := divIntAddLoop_mem d q o r.value p hp
        have hhalf : q.value.natAbs ≤ d.value.natAbs / 2 := by
          rw [hqe, hwo, Int.natAbs_tdiv, Int.natAbs_natCast]
          exact Nat.div_le_div_left (by omega) (by omega)
        refine ⟨?_, by rw [m1]; exact hd.2⟩
        unfold Fits
        rcases m2 with m | m
        · rw [m, w_id (by omega) (by omega)]; omega
        · rw [m, w_id (by omega) (by omega)]; omega

/-- C13, the part that holds: however the constructors and the operations other than Div are combined, every Decimal
obtained has at most 18 digits and a scale of at most 18. Missing: Div, for which it is false. -/
theorem c13_valid_partial (d : Decimal) (h : Reach d) : d.Valid := by
  induction h with
  | ofDecimal v s n d h => exact (c01_value v s n d h).2.1
  | parse s d h => exact c04_valid s d h
  | normalize d _ ih => exact (c02_value d ih).2.2
  | negate d _ ih => exact (c14_negate d ih).2.1
  | add d o r _ _ h ih1 ih2 => exact (c07_add_error d o r ih1 ih2 h).1
  | sub d o r _ _ h ih1 ih2 => exact (c07_sub_error d o r ih1 ih2 h).1
  | mul d o r _ _ h ih1 ih2 =>
    obtain ⟨_, _, _, _, _, _, _, _, hv⟩ := mul_ok d o r ih1 ih2 h
    exact hv
  | quo d o q r _ _ h ih => exact (divIntQuoRem_valid d o q r ih h).1
  | rem d o q r _ _ h ih => exact (divIntQuoRem_valid d o q r ih h).2.1
  | part d o ps p _ _ h hp ih => exact divIntAdd_valid d o ps p ih h hp

example := c13_valid_partial ⟨3, 1, false⟩ (.ofDecimal 30 2 [] _ (by decide))

/-- C13. Consequently no sequence of such operations leads to a Decimal on which MagnitudeLessThanOne panics or on
which Cmp or String denote a different number. -/
theorem c13_safe (d o : Decimal) (hd : Reach d) (ho : Reach o) :
    d.magnitudeLessThanOne ≠ none ∧ (d.cmp o = 0 ↔ d.num = o.num) ∧ (d.cmp o = -1 ↔ d.num < o.num) := by
  have h1 := c13_valid_partial d hd
  have h2 := c13_valid_partial o ho
  obtain ⟨b, hb, _⟩ := c14_magnitude d h1
  obtain ⟨c1, c2, _⟩ := c05_cmp d o h1.1 h2.1
  exact ⟨by rw [hb]; simp, c2, c1⟩

example := c13_safe ⟨3, 1, false⟩ ⟨2, 1, false⟩ (.ofDecimal 30 2 [] _ (by decide)) (.ofDecimal 2 1 [] _ (by decide))

/-- C13 is false for Div: 1 / 30000 has a scale of 22, and MagnitudeLessThanOne panics on it. -/
theorem c13_div_refuted :
    ∃ r : Decimal, (⟨1, 0, false⟩ : Decimal).div ⟨30000, 0, false⟩ = some (.ok r) ∧ ¬ r.Valid ∧ r.magnitudeLessThanOne = none := by
  refine ⟨⟨333333333333333333, 22, false⟩, ?_, by decide, by decide⟩
  exact div_eval _ _ (by decide) (by decide) (by decide) 0 1 _ 22 100 (by decide) (by decide) (by decide)

/-- Non-vacuity: a chain of operations. -/
example : Reach ⟨1, 1, false⟩ := by
  refine .sub ⟨3, 1, false⟩ ⟨2, 1, false⟩ _ (.ofDecimal 30 2 [] _ (by decide)) (.ofDecimal 2 1 [] _ (by decide)) ?_
  exact sub_same_scale ⟨3, 1, false⟩ 2 (by decide) (by decide) (by decide)

end Micro.Dec
