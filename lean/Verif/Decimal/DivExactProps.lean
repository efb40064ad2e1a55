import Verif.Decimal.DivExactLemmas
set_option linter.unusedSimpArgs false
/-
C12: exactly for which operands Div returns the quotient.
-/
namespace Micro.Dec
open Micro

/-- The state is as good as the one with the quotient and the remainder of N * 10^k. -/
theorem Sync.reach {O N k : Nat} {b : Bool} {q r : Int} (hO : 0 < O) (h : Sync O N k b q r) (s : Int) :
    divLoop O b q r s = divLoop O false ((N * 10 ^ k / O : Nat) : Int) ((N * 10 ^ k % O : Nat) : Int) s ∧
      Sync O N k false ((N * 10 ^ k / O : Nat) : Int) ((N * 10 ^ k % O : Nat) : Int) := by
  have low : ∀ q r, Sync O N k false q r → r < O → divLoop O false q r s = divLoop O false ((N * 10 ^ k / O : Nat) : Int) ((N * 10 ^ k % O : Nat) : Int) s ∧
      Sync O N k false ((N * 10 ^ k / O : Nat) : Int) ((N * 10 ^ k % O : Nat) : Int) := by
    intro q r h hr
    obtain ⟨e1, e2⟩ := h.parts hr
    rw [← e1, ← e2]
    exact ⟨rfl, h⟩
  have high : ∀ q r, Sync O N k true q r → divLoop O true q r s = divLoop O false ((N * 10 ^ k / O : Nat) : Int) ((N * 10 ^ k % O : Nat) : Int) s ∧
      Sync O N k false ((N * 10 ^ k / O : Nat) : Int) ((N * 10 ^ k % O : Nat) : Int) := by
    intro q r h
    by_cases hr : r < O
    · have h' := h
      obtain ⟨hB, Q, R, e1, e2, hN, hR, hQ, h0⟩ := h'
      have h0 := h0 rfl
      have := low q r ⟨hB, Q, R, e1, e2, hN, hR, hQ, by simp⟩ hr
      rw [← this.1, divLoop_outer, if_pos (by omega)]
      exact ⟨rfl, this.2⟩
    · rw [divLoop_inner _ _ _ _ hr]
      refine low _ _ (h.digit hO hr) ?_
      have : 0 ≤ r := by omega
      rw [Int.tmod_eq_emod_of_nonneg this]
      exact Int.emod_lt_of_pos _ (by exact_mod_cast hO)
  cases b with
  | true => exact high q r h
  | false =>
    by_cases hr : r < O
    · exact low q r h hr
    · have h' := h
      obtain ⟨hB, Q, R, e1, e2, hN, hR, hQ, h0⟩ := h'
      rw [divLoop_outer, if_pos (by omega)]
      exact high q r ⟨hB, Q, R, e1, e2, hN, hR, hQ, fun _ => by omega⟩

/-- The loop carries out the long division. -/
theorem divLoop_sync (O N k : Nat) (s0 : Int) (hO : 0 < O) (hO2 : O ≤ 999999999999999999) (hB : Before O N k) (hE : Ends O N k) (t j : Nat) (hj : j + t = k) (b : Bool)
    (q r : Int) (h : Sync O N j b q r) :
    ∃ q' : Nat, divLoop O b q r (s0 + j) = some (some ((q' : Int), s0 + k)) ∧
      (if N * 10 ^ k % O = 0 then q' = N * 10 ^ k / O else q' = N * 10 ^ k / O ∨ q' = N * 10 ^ k / O + 1) := by
  obtain ⟨hr1, hs⟩ := h.reach hO (s0 + j)
  rw [hr1]
  have hlt : N * 10 ^ j % O < O := Nat.mod_lt _ hO
  induction t generalizing j b q r with
  | zero =>
    have hj : j = k := by omega
    subst hj
    rcases hE with ⟨e1, e2⟩ | ⟨e1, e2, e3, e4⟩
    · refine ⟨N * 10 ^ j / O, ?_, by rw [if_pos e1]⟩
      rw [divLoop_outer, e1]
      simp
    · rw [divLoop_outer, if_pos (by exact_mod_cast e1), divLoop_step _ _ _ _ (by omega)]
      have ew : w (((N * 10 ^ j / O : Nat) : Int) * 10) = ((N * 10 ^ j / O : Nat) : Int) * 10 := w_id (by omega) (by omega)
      rw [if_pos (by rw [ew]; unfold maxValue; omega)]
      obtain ⟨m, hm⟩ := (divGrow_iff (O : Int) (((N * 10 ^ j % O : Nat) : Int) * 10)).mpr (by
        obtain ⟨i, hi⟩ := e4
        exact ⟨i, by rw [mul_assoc, ← pow_succ']; exact hi⟩)
      rw [hm]
      simp only
      have ew2 : w (((N * 10 ^ j / O : Nat) : Int) + 1) = ((N * 10 ^ j / O + 1 : Nat) : Int) := by
        rw [w_id (by omega) (by omega)]; push_cast; rfl
      by_cases h5 : divShrink (m.tdiv O) ≥ 5
      · rw [if_pos h5, ew2]
        exact ⟨_, rfl, by rw [if_neg e1]; exact .inr rfl⟩
      · rw [if_neg h5]
        exact ⟨_, rfl, by rw [if_neg e1]; exact .inl rfl⟩
  | succ t ih =>
    obtain ⟨b1, b2, b3⟩ := hB j (by omega)
    have hs' : Sync O N j true ((N * 10 ^ j / O : Nat) : Int) ((N * 10 ^ j % O : Nat) : Int) := by
      obtain ⟨hB, Q, R, e1, e2, hN, hR, hQ, h0⟩ := hs
      exact ⟨hB, Q, R, e1, e2, hN, hR, hQ, fun _ => by omega⟩
    have hn := hs'.times (by omega) b3 b2
    rw [divLoop_outer, if_pos (by exact_mod_cast b1), divLoop_step _ _ _ _ (by omega)]
    have hnn : (0 : Int) ≤ ((N * 10 ^ j / O : Nat) : Int) := Int.natCast_nonneg _
    have ew : w (((N * 10 ^ j / O : Nat) : Int) * 10) = ((N * 10 ^ j / O : Nat) : Int) * 10 := w_id (by omega) (by omega)
    have ew2 : w (((N * 10 ^ j % O : Nat) : Int) * 10) = ((N * 10 ^ j % O : Nat) : Int) * 10 := w_id (by omega) (by omega)
    rw [if_neg (by rw [ew]; unfold maxValue; omega), if_neg (by rw [ew2]; unfold maxValue; omega)]
    obtain ⟨r1, r2⟩ := hn.reach hO (s0 + j + 1)
    rw [r1]
    have e : s0 + (j : Int) + 1 = s0 + ((j + 1 : Nat) : Int) := by push_cast; ring
    rw [e]
    exact ih (j + 1) (by omega) true _ _ hn (hn.reach hO _).1 r2 (Nat.mod_lt _ hO)

/-- Shifting a quotient of at most 18 digits. -/
theorem quo_bound (D O i : Nat) (hO : 0 < O) (hi : i ≤ 18) (h : D / O * 10 ^ i ≤ 999999999999999999) :
    D * 10 ^ i / O ≤ 999999999999999999 := by
  have hpi : 0 < 10 ^ i := by positivity
  have h1 : D < (D / O + 1) * O := by
    rw [← Nat.div_lt_iff_lt_mul hO]; omega
  have h2 : D * 10 ^ i / O < (D / O + 1) * 10 ^ i := by
    rw [Nat.div_lt_iff_lt_mul hO]
    calc D * 10 ^ i < (D / O + 1) * O * 10 ^ i := Nat.mul_lt_mul_of_pos_right h1 hpi
      _ = (D / O + 1) * 10 ^ i * O := by ring
  have h3 : D / O + 1 ≤ 10 ^ (18 - i) := by
    have : D / O * 10 ^ i < 10 ^ (18 - i) * 10 ^ i := by
      rw [← pow_add, Nat.sub_add_cancel hi]
      refine lt_of_le_of_lt h (by norm_num)
    exact Nat.lt_of_mul_lt_mul_right this
  have h4 : (D / O + 1) * 10 ^ i ≤ 1000000000000000000 := by
    calc (D / O + 1) * 10 ^ i ≤ 10 ^ (18 - i) * 10 ^ i := Nat.mul_le_mul_right _ h3
      _ = 10 ^ 18 := by rw [← pow_add, Nat.sub_add_cancel hi]
      _ = 1000000000000000000 := by norm_num
  exact Nat.le_of_lt_succ (lt_of_lt_of_le h2 h4)

theorem quo_low (D O i : Nat) (hO : 0 < O) : D / O * 10 ^ i ≤ D * 10 ^ i / O := by
  rw [Nat.le_div_iff_mul_le hO]
  calc D / O * 10 ^ i * O = D / O * O * 10 ^ i := by ring
    _ ≤ D * 10 ^ i := Nat.mul_le_mul_right _ (Nat.div_mul_le_self D O)

/-- The scale-up loop: its result is right, or lost. -/
theorem divScaleUp_only (D O : Nat) (hO : 0 < O) (hO2 : O ≤ 999999999999999999) (n m : Nat) (q r q' r' : Int)
    (h : divScaleUp n q r = some (q', r'))
    (hst : (q = ((D / O * 10 ^ m : Nat) : Int) ∧ r = ((D % O * 10 ^ m : Nat) : Int) ∧ D / O * 10 ^ m ≤ 999999999999999999 ∧ D % O * 10 ^ m ≤ 9223372036854775807) ∨
      Lost O ((D : Int) * 10 ^ m) q r) :
    (q' = ((D / O * 10 ^ (m + n) : Nat) : Int) ∧ r' = ((D % O * 10 ^ (m + n) : Nat) : Int) ∧ D / O * 10 ^ (m + n) ≤ 999999999999999999 ∧
      D % O * 10 ^ (m + n) ≤ 9223372036854775807) ∨ Lost O ((D : Int) * 10 ^ (m + n)) q' r' := by
  have hOi : (0 : Int) < O := by exact_mod_cast hO
  have hO2i : (O : Int) ≤ 999999999999999999 := by exact_mod_cast hO2
  induction n generalizing m q r with
  | zero =>
    simp only [divScaleUp, Option.some.injEq, Prod.mk.injEq] at h
    obtain ⟨rfl, rfl⟩ := h
    exact hst
  | succ n ih =>
    rw [divScaleUp] at h
    split at h
    · simp at h
    · rename_i hle
      unfold maxValue at hle
      have e : m + (n + 1) = (m + 1) + n := by omega
      rw [e]
      apply ih (m + 1) _ _ h
      rcases hst with ⟨e1, e2, e3, e4⟩ | hst
      · by_cases hw : 922337203685477580 < q ∨ 922337203685477580 < r
        · right
          rw [pow_succ, ← mul_assoc]
          refine Lost.start hOi ?_ (by omega) (by omega) (by omega) (by omega) hw
          rw [e1, e2]
          have := Nat.div_add_mod D O
          have h2 : D / O * 10 ^ m * O + D % O * 10 ^ m = D * 10 ^ m := by
            calc D / O * 10 ^ m * O + D % O * 10 ^ m = (O * (D / O) + D % O) * 10 ^ m := by ring
              _ = D * 10 ^ m := by rw [this]
          exact_mod_cast h2
        · left
          push Not at hw
          have w1 : w (q * 10) = q * 10 := w_id (by omega) (by omega)
          have w2 : w (r * 10) = r * 10 := w_id (by omega) (by omega)
          rw [w1] at hle
          rw [w1, w2, pow_succ, ← mul_assoc, ← mul_assoc]
          refine ⟨?_, ?_, by omega, by omega⟩
          · rw [e1]; push_cast; ring
          · rw [e2]; push_cast; ring
      · right
        rw [pow_succ, ← mul_assoc]
        exact hst.times hOi hO2i

/-- The division of the magnitudes gives a result within one of the quotient exactly if the ordinary long division does. -/
def LongDivision (D O n : Nat) : Prop :=
  D % O * 10 ^ n < 9223372036854775808 ∧ ∃ k, Before O (D * 10 ^ n) k ∧ Ends O (D * 10 ^ n) k

theorem divMag_ok (D O n : Nat) (s0 : Int) (hD : D ≤ 999999999999999999) (hO : 0 < O) (hO2 : O ≤ 999999999999999999) (hn : n ≤ 18) (h : LongDivision D O n) :
    ∃ c, divMag D O n s0 = some (some c) ∧ DivRes O (D * 10 ^ n) s0 (some c) := by
  obtain ⟨hr, k, hB, hE⟩ := h
  have hd : (D : Int).tdiv (O : Int) = ((D / O : Nat) : Int) := by
    rw [Int.tdiv_eq_ediv_of_nonneg (by omega)]; rfl
  have hm : (D : Int).tmod (O : Int) = ((D % O : Nat) : Int) := by
    rw [Int.tmod_eq_emod_of_nonneg (by omega)]; rfl
  have hfit : D * 10 ^ n / O ≤ 999999999999999999 := by
    rcases Nat.eq_zero_or_pos k with rfl | hk
    · unfold Ends at hE
      rw [pow_zero, mul_one] at hE
      rcases hE with hE | hE <;> omega
    · have := (hB 0 hk).2.2
      rw [pow_zero, mul_one] at this
      omega
  have hlow := quo_low D O n hO
  have hq : D / O * 10 ^ n ≤ 999999999999999999 := le_trans hlow hfit
  have hwin : ∀ i, i < n → ¬ (922337203685477580 < D / O * 10 ^ i ∧ D / O * 10 ^ i ≤ 999999999999999999) := by
    intro i hi ⟨h1, h2⟩
    have : D / O * 10 ^ i * 10 ≤ D / O * 10 ^ n := by
      rw [mul_assoc, ← pow_succ]
      exact Nat.mul_le_mul_left _ (Nat.pow_le_pow_right (by norm_num) hi)
    omega
  unfold divMag
  rw [hd, hm]
  rcases divScaleUp_spec n (D / O) (D % O) (le_trans (Nat.div_le_self _ _) hD) (by omega) hwin with ⟨_, h2⟩ | ⟨h1, _⟩
  · rw [h2]
    simp only
    have hsum : D / O * 10 ^ n * O + D % O * 10 ^ n = D * 10 ^ n := by
      calc D / O * 10 ^ n * O + D % O * 10 ^ n = (O * (D / O) + D % O) * 10 ^ n := by ring
        _ = D * 10 ^ n := by rw [Nat.div_add_mod]
    have hs : Sync O (D * 10 ^ n) 0 false ((D / O * 10 ^ n : Nat) : Int) ((D % O * 10 ^ n : Nat) : Int) :=
      ⟨fun j hj => absurd hj (by omega), _, _, rfl, rfl, by rw [pow_zero, mul_one]; exact hsum, by omega, by rw [pow_zero, mul_one]; exact hfit, by simp⟩
    obtain ⟨q', hq', hv⟩ := divLoop_sync O (D * 10 ^ n) k s0 hO hO2 hB hE k 0 (by omega) false _ _ hs
    have e0 : s0 + ((0 : Nat) : Int) = s0 := by simp
    rw [e0] at hq'
    refine ⟨_, hq', ?_⟩
    have hdm := Nat.div_add_mod (D * 10 ^ n * 10 ^ k) O
    rw [mul_comm] at hdm
    have hlt := Nat.mod_lt (D * 10 ^ n * 10 ^ k) hO
    rcases hE with ⟨e1, e2⟩ | ⟨e1, e2, e3, _⟩
    · rw [if_pos e1] at hv
      rw [hv]
      exact .exact _ k (by omega) (by rw [e1] at hdm; simpa using hdm)
    · rw [if_neg e1] at hv
      exact .rounded _ k _ _ e3 (by omega) hlt hdm (by omega) hv
  · omega

theorem divMag_only (D O n : Nat) (s0 : Int) (hO : 0 < O) (hD : D ≤ 999999999999999999) (hO2 : O ≤ 999999999999999999) (hn : n ≤ 18) (q' s' : Int)
    (h : divMag D O n s0 = some (some (q', s'))) :
    LongDivision D O n ∨ ∃ j : Nat, s' = s0 + j ∧ Off O (((D * 10 ^ n : Nat) : Int) * 10 ^ j) q' := by
  have hd : (D : Int).tdiv (O : Int) = ((D / O : Nat) : Int) := by
    rw [Int.tdiv_eq_ediv_of_nonneg (by omega)]; rfl
  have hm : (D : Int).tmod (O : Int) = ((D % O : Nat) : Int) := by
    rw [Int.tmod_eq_emod_of_nonneg (by omega)]; rfl
  have hr := Nat.mod_lt D hO
  have hqD : D / O ≤ D := Nat.div_le_self _ _
  unfold divMag at h
  rw [hd, hm] at h
  rcases hsc : divScaleUp n ((D / O : Nat) : Int) ((D % O : Nat) : Int) with _ | ⟨q, r⟩
  · rw [hsc] at h; simp at h
  · rw [hsc] at h
    simp only at h
    have := divScaleUp_only D O hO hO2 n 0 _ _ q r hsc (.inl (by
      rw [pow_zero, mul_one, mul_one]; exact ⟨rfl, rfl, by omega, by omega⟩))
    rw [zero_add] at this
    have hs0 : s0 = s0 + ((0 : Nat) : Int) := by simp
    rcases this with ⟨e1, e2, e3, e4⟩ | hl
    · have hsum : D / O * 10 ^ n * O + D % O * 10 ^ n = D * 10 ^ n := by
        calc D / O * 10 ^ n * O + D % O * 10 ^ n = (O * (D / O) + D % O) * 10 ^ n := by ring
          _ = D * 10 ^ n := by rw [Nat.div_add_mod]
      have hs : Sync O (D * 10 ^ n) 0 false q r :=
        ⟨fun j hj => absurd hj (by omega), _, _, e1, e2, by rw [pow_zero, mul_one]; exact hsum, e4,
          by rw [pow_zero, mul_one]; exact quo_bound D O n hO hn e3, by simp⟩
      rcases divLoop_only O (D * 10 ^ n) s0 hO hO2 false q r s0 q' s' h 0 hs0 (.inl hs) with hk | hk
      · exact .inl ⟨by omega, hk⟩
      · exact .inr hk
    · exact .inr (divLoop_lost O ((D * 10 ^ n : Nat) : Int) s0 (by exact_mod_cast hO) (by exact_mod_cast hO2) false q r s0 q' s' h 0 hs0
        (by rw [pow_zero, mul_one]; push_cast; exact hl))

/-- A result of the right magnitude, with its sign. -/
theorem div_finish (d o : Decimal) (h0 : o.value ≠ 0) (q s : Nat) (g : Good |d.num / o.num| q s) (r : Decimal)
    (hr : r = ⟨if (0 ≤ d.value ↔ 0 ≤ o.value) then (q : Int) else w (-(q : Int)), s, d.denormalized⟩) :
    Fits r.value ∧ |r.num - d.num / o.num| < ulp r.scale ∧
      (0 < r.num ↔ 0 < d.num / o.num) ∧ (r.num < 0 ↔ d.num / o.num < 0) ∧
      (Representable (d.num / o.num) → r.num = d.num / o.num) := by
  subst hr
  have hsg := quo_sign d o h0
  obtain ⟨g1, g2, g3, g4⟩ := g
  have hw : w (-(q : Int)) = -(q : Int) := w_id (by omega) (by omega)
  rw [hw]
  have hP := pow10_pos s
  have hrep : Representable (d.num / o.num) → (q : ℚ) / 10 ^ s = |d.num / o.num| := by
    rintro ⟨v, k, hv, hvx⟩
    apply g4
    refine ⟨v.natAbs, k, by unfold Fits at hv; omega, ?_⟩
    rw [hvx, abs_div, abs_of_pos (pow10_pos k), Nat.cast_natAbs, Int.cast_abs]
  have hq0 : 0 < (q : ℚ) / 10 ^ s ↔ 0 < |d.num / o.num| := by
    rw [← g3]
    constructor
    · intro h; by_contra hc
      have : q = 0 := by omega
      subst this; simp at h
    · intro h
      have : (0 : ℚ) < q := by exact_mod_cast h
      positivity
  refine ⟨?_, ?_⟩
  · simp only; unfold Fits; split <;> omega
  · unfold Decimal.num at *
    simp only
    generalize hX : (d.value : ℚ) / 10 ^ d.scale / ((o.value : ℚ) / 10 ^ o.scale) = X at *
    by_cases hc : (0 ≤ d.value ↔ 0 ≤ o.value)
    · rw [if_pos hc, one_mul] at hsg
      rw [if_pos hc]
      have hXn : 0 ≤ X := by rw [hsg]; exact abs_nonneg _
      have hqn : (0 : ℚ) ≤ (q : ℚ) / 10 ^ s := by positivity
      rw [← hsg] at g2 hrep hq0
      exact ⟨g2, hq0, ⟨fun h => absurd h (not_lt_of_ge hqn), fun h => absurd h (not_lt_of_ge hXn)⟩, hrep⟩
    · rw [if_neg hc] at hsg
      rw [if_neg hc]
      have hXn : X ≤ 0 := by rw [hsg]; have := abs_nonneg X; linarith
      have hqn : (0 : ℚ) ≤ (q : ℚ) / 10 ^ s := by positivity
      have e : (((-(q : Int) : Int)) : ℚ) / 10 ^ s = -((q : ℚ) / 10 ^ s) := by push_cast; ring
      rw [e]
      rw [abs_of_nonpos hXn] at g2 hrep hq0
      refine ⟨?_, ⟨fun h => by linarith, fun h => by linarith⟩, ⟨fun h => ?_, fun h => ?_⟩, fun h => by have := hrep h; linarith⟩
      · rw [show -((q : ℚ) / 10 ^ s) - X = -((q : ℚ) / 10 ^ s - -X) by ring, abs_neg]; exact g2
      · have := hq0.mp (by linarith); linarith
      · have := hq0.mpr (by linarith); linarith

/-- A result that is off is at least one unit in the last place off. -/
theorem off_far (d o : Decimal) (h0 : o.value ≠ 0) (q : Int) (j : Nat) (r : Decimal)
    (hoff : Off o.value.natAbs (((d.value.natAbs * 10 ^ (o.scale - d.scale) : Nat) : Int) * 10 ^ j) q)
    (hr : r = ⟨if (0 ≤ d.value ↔ 0 ≤ o.value) then q else w (-q), d.scale - o.scale + j, d.denormalized⟩) :
    ulp r.scale ≤ |r.num - d.num / o.num| := by
  have hx := absquo d o
  have hO : 0 < o.value.natAbs := by omega
  have hOq : (0 : ℚ) < (o.value.natAbs : ℚ) := by exact_mod_cast hO
  generalize hO' : o.value.natAbs = O at *
  generalize d.value.natAbs * 10 ^ (o.scale - d.scale) = N at *
  have hP := pow10_pos (d.scale - o.scale + j)
  -- the quotient at the scale of the result
  have hX : |d.num / o.num| * 10 ^ (d.scale - o.scale + j) = (N : ℚ) * 10 ^ j / O := by
    rw [hx, pow_add]
    have a := (pow10_pos (d.scale - o.scale)).ne'
    field_simp
  -- the magnitude of the result
  have hrn : |r.num| * 10 ^ (d.scale - o.scale + j) = |(r.value : ℚ)| := by
    have : r.scale = d.scale - o.scale + j := by rw [hr]
    unfold Decimal.num
    rw [this, abs_div, abs_of_pos hP, div_mul_cancel₀ _ hP.ne']
  have hrv : |(r.value : ℚ)| + 1 ≤ (N : ℚ) * 10 ^ j / O := by
    obtain ⟨hqr, hcase⟩ := hoff
    rw [le_div_iff₀ hOq]
    rcases hcase with ⟨hq0, hc⟩ | hc
    · have hv : |(r.value : ℚ)| = q := by
        rw [hr]
        simp only
        split
        · rw [abs_of_nonneg (by exact_mod_cast hq0)]
        · rw [w_id (by omega) (by omega)]
          push_cast
          rw [abs_neg, abs_of_nonneg (by exact_mod_cast hq0)]
      rw [hv]
      exact_mod_cast hc
    · have hv : |(r.value : ℚ)| ≤ 9223372036854775808 := by
        have : -9223372036854775808 ≤ r.value ∧ r.value ≤ 9223372036854775807 := by
          rw [hr]; simp only
          split
          · exact hqr
          · exact w_range _
        rw [abs_le]
        constructor
        · have := this.1; exact_mod_cast this
        · have h := this.2
          have : r.value ≤ 9223372036854775808 := by omega
          exact_mod_cast this
      have hc' : (9223372036854775810 : ℚ) * O ≤ (N : ℚ) * 10 ^ j := by exact_mod_cast hc
      nlinarith
  have htri : |d.num / o.num| - |r.num| ≤ |r.num - d.num / o.num| := by
    rw [abs_sub_comm]; exact abs_sub_abs_le_abs_sub _ _
  have hrs : r.scale = d.scale - o.scale + j := by rw [hr]
  unfold ulp
  rw [hrs, div_le_iff₀ hP]
  have h2 := mul_le_mul_of_nonneg_right htri hP.le
  rw [sub_mul, hX, hrn] at h2
  linarith

/-- C12, exactly: Div returns a Decimal less than one unit in its last place from the quotient if and only if the ordinary long division of the unscaled values, one digit at
a time, ends without a number that is too large for the code (`LongDivision`); then it also has at most 18 digits, the right sign, and is the quotient whenever that can
be written with 18 digits. For all other operands Div returns a Decimal that is wrong, an error, or nothing at all. -/
theorem c12_ok_iff (d o : Decimal) (hd : d.Valid) (ho : o.Valid) (h0 : o.value ≠ 0) :
    ((∃ r, d.div o = some (.ok r) ∧ |r.num - d.num / o.num| < ulp r.scale) ↔
      LongDivision d.value.natAbs o.value.natAbs (o.scale - d.scale)) ∧
    (∀ r, d.div o = some (.ok r) → |r.num - d.num / o.num| < ulp r.scale → Fits r.value ∧
      (0 < r.num ↔ 0 < d.num / o.num) ∧ (r.num < 0 ↔ d.num / o.num < 0) ∧ (Representable (d.num / o.num) → r.num = d.num / o.num)) := by
  have hdf := hd.1
  have hof := ho.1
  have hn : o.scale - d.scale ≤ 18 := le_trans (Nat.sub_le _ _) ho.2
  have hO : 0 < o.value.natAbs := by omega
  have hO2 : o.value.natAbs ≤ 999999999999999999 := by unfold Fits at hof; omega
  have hD : d.value.natAbs ≤ 999999999999999999 := by unfold Fits at hdf; omega
  have hx := absquo d o
  -- the long division gives a result that is right
  have right : LongDivision d.value.natAbs o.value.natAbs (o.scale - d.scale) → ∃ r, d.div o = some (.ok r) ∧ Fits r.value ∧ |r.num - d.num / o.num| < ulp r.scale ∧
      (0 < r.num ↔ 0 < d.num / o.num) ∧ (r.num < 0 ↔ d.num / o.num < 0) ∧ (Representable (d.num / o.num) → r.num = d.num / o.num) := by
    intro hl
    obtain ⟨c, hc, hres⟩ := divMag_ok _ _ _ ((d.scale - o.scale : Nat) : Int) hD hO hO2 hn hl
    rw [div_eq_mag d o hdf hof h0, hc]
    cases hres with
    | exact q k e1 e2 =>
      have ek : (((d.scale - o.scale : Nat) : Int) + (k : Int)).toNat = d.scale - o.scale + k := by omega
      simp only [ek]
      exact ⟨_, rfl, div_finish d o h0 q _ (by rw [hx]; exact good_exact _ _ _ q k hO e1 e2) _ rfl⟩
    | rounded q k r q' e1 e2 e3 e4 e5 e6 =>
      have ek : (((d.scale - o.scale : Nat) : Int) + (k : Int)).toNat = d.scale - o.scale + k := by omega
      simp only [ek]
      exact ⟨_, rfl, div_finish d o h0 q' _ (by rw [hx]; exact good_rounded _ _ _ q k r q' e1 e2 e3 e4 e5 e6) _ rfl⟩
  have only : ∀ r, d.div o = some (.ok r) → |r.num - d.num / o.num| < ulp r.scale → LongDivision d.value.natAbs o.value.natAbs (o.scale - d.scale) := by
    intro r hr hlt
    rw [div_eq_mag d o hdf hof h0] at hr
    rcases hm : divMag (d.value.natAbs : Int) (o.value.natAbs : Int) (o.scale - d.scale) ((d.scale - o.scale : Nat) : Int) with _ | _ | ⟨q', s'⟩
    · rw [hm] at hr; simp at hr
    · rw [hm] at hr; simp at hr
    · rw [hm] at hr
      simp only [Option.some.injEq, Out.ok.injEq] at hr
      rcases divMag_only _ _ _ _ hO hD hO2 hn q' s' hm with h | ⟨j, hs, hoff⟩
      · exact h
      · exfalso
        have ej : s'.toNat = d.scale - o.scale + j := by omega
        rw [ej] at hr
        have := off_far d o h0 q' j r hoff hr.symm
        linarith
  refine ⟨⟨fun ⟨r, h1, h2⟩ => only r h1 h2, fun h => ?_⟩, fun r h1 h2 => ?_⟩
  · obtain ⟨r, h1, h2⟩ := right h
    exact ⟨r, h1, h2.2.1⟩
  · obtain ⟨r', h1', h2'⟩ := right (only r h1 h2)
    rw [h1] at h1'
    cases h1'
    exact ⟨h2'.1, h2'.2.2⟩

example := c12_ok_iff ⟨-10, 0, false⟩ ⟨3, 2, false⟩ (by decide) (by decide) (by decide)

/-- The loop goes through the digits of the long division. -/
theorem divLoop_before (O N k : Nat) (s0 : Int) (hO : 0 < O) (hB : Before O N k) (t j : Nat) (hj : j + t = k) (b : Bool) (q r : Int) (h : Sync O N j b q r) :
    divLoop O b q r (s0 + j) = divLoop O false ((N * 10 ^ k / O : Nat) : Int) ((N * 10 ^ k % O : Nat) : Int) (s0 + k) ∧
      Sync O N k false ((N * 10 ^ k / O : Nat) : Int) ((N * 10 ^ k % O : Nat) : Int) := by
  obtain ⟨hr1, hs⟩ := h.reach hO (s0 + j)
  rw [hr1]
  have hlt : N * 10 ^ j % O < O := Nat.mod_lt _ hO
  induction t generalizing j b q r with
  | zero =>
    have hj : j = k := by omega
    subst hj
    exact ⟨rfl, hs⟩
  | succ t ih =>
    obtain ⟨b1, b2, b3⟩ := hB j (by omega)
    have hs' : Sync O N j true ((N * 10 ^ j / O : Nat) : Int) ((N * 10 ^ j % O : Nat) : Int) := by
      obtain ⟨hB, Q, R, e1, e2, hN, hR, hQ, h0⟩ := hs
      exact ⟨hB, Q, R, e1, e2, hN, hR, hQ, fun _ => by omega⟩
    have hn := hs'.times (by omega) b3 b2
    rw [divLoop_outer, if_pos (by exact_mod_cast b1), divLoop_step _ _ _ _ (by omega)]
    have hnn : (0 : Int) ≤ ((N * 10 ^ j / O : Nat) : Int) := Int.natCast_nonneg _
    have ew : w (((N * 10 ^ j / O : Nat) : Int) * 10) = ((N * 10 ^ j / O : Nat) : Int) * 10 := w_id (by omega) (by omega)
    have ew2 : w (((N * 10 ^ j % O : Nat) : Int) * 10) = ((N * 10 ^ j % O : Nat) : Int) * 10 := w_id (by omega) (by omega)
    rw [if_neg (by rw [ew]; unfold maxValue; omega), if_neg (by rw [ew2]; unfold maxValue; omega)]
    obtain ⟨r1, r2⟩ := hn.reach hO (s0 + j + 1)
    rw [r1]
    have e : s0 + (j : Int) + 1 = s0 + ((j + 1 : Nat) : Int) := by push_cast; ring
    rw [e]
    exact ih (j + 1) (by omega) true _ _ hn (hn.reach hO _).1 r2 (Nat.mod_lt _ hO)

theorem divMag_before (D O n k : Nat) (s0 : Int) (hD : D ≤ 999999999999999999) (hO : 0 < O) (hr : D % O * 10 ^ n < 9223372036854775808)
    (hfit : D * 10 ^ n / O ≤ 999999999999999999) (hB : Before O (D * 10 ^ n) k) :
    divMag D O n s0 = divLoop O false ((D * 10 ^ n * 10 ^ k / O : Nat) : Int) ((D * 10 ^ n * 10 ^ k % O : Nat) : Int) (s0 + k) := by
  have hd : (D : Int).tdiv (O : Int) = ((D / O : Nat) : Int) := by
    rw [Int.tdiv_eq_ediv_of_nonneg (by omega)]; rfl
  have hm : (D : Int).tmod (O : Int) = ((D % O : Nat) : Int) := by
    rw [Int.tmod_eq_emod_of_nonneg (by omega)]; rfl
  have hlow := quo_low D O n hO
  have hq : D / O * 10 ^ n ≤ 999999999999999999 := le_trans hlow hfit
  have hwin : ∀ i, i < n → ¬ (922337203685477580 < D / O * 10 ^ i ∧ D / O * 10 ^ i ≤ 999999999999999999) := by
    intro i hi ⟨h1, h2⟩
    have : D / O * 10 ^ i * 10 ≤ D / O * 10 ^ n := by
      rw [mul_assoc, ← pow_succ]
      exact Nat.mul_le_mul_left _ (Nat.pow_le_pow_right (by norm_num) hi)
    omega
  unfold divMag
  rw [hd, hm]
  rcases divScaleUp_spec n (D / O) (D % O) (le_trans (Nat.div_le_self _ _) hD) (by omega) hwin with ⟨_, h2⟩ | ⟨h1, _⟩
  · rw [h2]
    simp only
    have hsum : D / O * 10 ^ n * O + D % O * 10 ^ n = D * 10 ^ n := by
      calc D / O * 10 ^ n * O + D % O * 10 ^ n = (O * (D / O) + D % O) * 10 ^ n := by ring
        _ = D * 10 ^ n := by rw [Nat.div_add_mod]
    have hs : Sync O (D * 10 ^ n) 0 false ((D / O * 10 ^ n : Nat) : Int) ((D % O * 10 ^ n : Nat) : Int) :=
      ⟨fun j hj => absurd hj (by omega), _, _, rfl, rfl, by rw [pow_zero, mul_one]; exact hsum, by omega, by rw [pow_zero, mul_one]; exact hfit, by simp⟩
    have := (divLoop_before O (D * 10 ^ n) k s0 hO hB k 0 (by omega) false _ _ hs).1
    rw [show s0 + ((0 : Nat) : Int) = s0 by simp] at this
    exact this
  · omega

/-- C12: the two other ends of the long division. If a remainder of 18 digits comes before 18 digits of the quotient, Div reports an error although the quotient is less than
10^18, so that 18 of its digits could be given. If 18 digits are there but no power of ten brings the remainder, in int64, to the divisor, Div does not return. -/
theorem c12_refused (d o : Decimal) (hd : d.Valid) (ho : o.Valid) (h0 : o.value ≠ 0) (N k : Nat)
    (hN : N = d.value.natAbs * 10 ^ (o.scale - d.scale)) (hr : d.value.natAbs % o.value.natAbs * 10 ^ (o.scale - d.scale) < 9223372036854775808)
    (hfit : N / o.value.natAbs < 1000000000000000000) (hB : Before o.value.natAbs N k) :
    (N * 10 ^ k / o.value.natAbs < 100000000000000000 → 100000000000000000 ≤ N * 10 ^ k % o.value.natAbs → N * 10 ^ k % o.value.natAbs ≤ 922337203685477580 →
      d.div o = some (.err (if (0 ≤ d.value ↔ 0 ≤ o.value) then .overflow else .underflow)) ∧ |d.num / o.num| < 10 ^ 18) ∧
    (N * 10 ^ k % o.value.natAbs ≠ 0 → 100000000000000000 ≤ N * 10 ^ k / o.value.natAbs → N * 10 ^ k / o.value.natAbs ≤ 922337203685477580 →
      (∀ i : Nat, w (((N * 10 ^ k % o.value.natAbs : Nat) : Int) * 10 ^ (i + 1)) < o.value.natAbs) → d.div o = none) := by
  have hdf := hd.1
  have hof := ho.1
  have hO : 0 < o.value.natAbs := by omega
  have hD : d.value.natAbs ≤ 999999999999999999 := by unfold Fits at hdf; omega
  have hm := divMag_before d.value.natAbs o.value.natAbs (o.scale - d.scale) k ((d.scale - o.scale : Nat) : Int) hD hO hr (by rw [← hN]; omega) (by rw [← hN]; exact hB)
  rw [div_eq_mag d o hdf hof h0, hm, ← hN]
  have hlt := Nat.mod_lt (N * 10 ^ k) hO
  have hxq := absquo d o
  rw [← hN] at hxq
  generalize hOO : o.value.natAbs = O at *
  have hnn : (0 : Int) ≤ ((N * 10 ^ k / O : Nat) : Int) := Int.natCast_nonneg _
  refine ⟨fun h1 h2 h3 => ⟨?_, ?_⟩, fun h1 h2 h3 h4 => ?_⟩
  · have hne : ((N * 10 ^ k % O : Nat) : Int) ≠ 0 := by omega
    rw [divLoop_outer, if_pos hne, divLoop_step _ _ _ _ (by omega)]
    have ew : w (((N * 10 ^ k / O : Nat) : Int) * 10) = ((N * 10 ^ k / O : Nat) : Int) * 10 := w_id (by omega) (by omega)
    have ew2 : w (((N * 10 ^ k % O : Nat) : Int) * 10) = ((N * 10 ^ k % O : Nat) : Int) * 10 := w_id (by omega) (by omega)
    rw [if_neg (by rw [ew]; unfold maxValue; omega), if_pos (by rw [ew2]; unfold maxValue; omega)]
  · have hOq : (0 : ℚ) < (O : ℚ) := by exact_mod_cast hO
    have hle : |d.num / o.num| ≤ (N : ℚ) / O := by
      rw [hxq]
      exact div_le_self (by positivity) (one_le_pow₀ (by norm_num))
    refine lt_of_le_of_lt hle ?_
    rw [div_lt_iff₀ hOq]
    have : N < 1000000000000000000 * O := (Nat.div_lt_iff_lt_mul hO).mp hfit
    have h' : (N : ℚ) < ((1000000000000000000 * O : Nat) : ℚ) := by exact_mod_cast this
    refine lt_of_lt_of_eq h' ?_
    push_cast
    norm_num
  · have hne : ((N * 10 ^ k % O : Nat) : Int) ≠ 0 := by exact_mod_cast h1
    rw [divLoop_outer, if_pos hne, divLoop_step _ _ _ _ (by omega)]
    have ew : w (((N * 10 ^ k / O : Nat) : Int) * 10) = ((N * 10 ^ k / O : Nat) : Int) * 10 := w_id (by omega) (by omega)
    rw [if_pos (by rw [ew]; unfold maxValue; omega)]
    have hnone : divGrow (O : Int) (w (((N * 10 ^ k % O : Nat) : Int) * 10)) = none := by
      rcases hg : divGrow (O : Int) (w (((N * 10 ^ k % O : Nat) : Int) * 10)) with _ | m
      · rfl
      · obtain ⟨i, hi⟩ := (divGrow_iff _ _).mp ⟨m, hg⟩
        have := h4 i
        rw [pow_succ', ← mul_assoc] at this
        exact absurd hi (not_le.mpr this)
    simp only [hnone]

/-- 1 / 300000000000000000: the remainder 100000000000000000 is too large for the code. -/
example : Before 300000000000000000 1 17 ∧ 1 * 10 ^ 17 / 300000000000000000 < 100000000000000000 ∧ 100000000000000000 ≤ 1 * 10 ^ 17 % 300000000000000000 ∧
    1 * 10 ^ 17 % 300000000000000000 ≤ 922337203685477580 := by
  unfold Before; decide

/-- 10 / 3: 17 more digits, all remainders are 1. -/
theorem longDivision_10_3 : LongDivision 10 3 0 :=
  ⟨by decide, 17, by unfold Before; decide, .inr ⟨by decide, by decide, by decide, 0, by decide⟩⟩

/-- 28 / 3 is not. -/
example : ¬ LongDivision 28 3 0 := by
  rintro ⟨_, k, hB, hE⟩
  rcases Nat.lt_or_ge k 17 with h | h
  · interval_cases k <;> revert hE <;> unfold Ends <;> simp
  · rcases Nat.eq_or_lt_of_le h with h | h
    · subst h
      revert hE; unfold Ends; simp
    · exact absurd (hB 17 h).2.2 (by decide)

end Micro.Dec
