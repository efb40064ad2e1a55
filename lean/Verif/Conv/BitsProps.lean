import Verif.Conv.BitsModel
import Verif.Conv.FloatLemmas
import Mathlib.Data.Nat.Log
import Mathlib.Tactic.Linarith
import Mathlib.Tactic.Positivity
import Mathlib.Tactic.NormNum
/-
C79: the number of bits conv takes for a number of n decimal digits, computed in float64, is the exact one.
-/
namespace Micro.Conv
open Micro

/-- 254370/76573 < log2(10). -/
theorem log_low : 2 ^ 254370 < 10 ^ 76573 := by decide +kernel

/-- log2(10) < 325147/97879. -/
theorem log_high : 10 ^ 97879 < 2 ^ 325147 := by decide +kernel

theorem lt_of_pow {a b : ℕ} (h : 2 ^ a < 2 ^ b) : a < b := (Nat.pow_lt_pow_iff_right (by norm_num)).1 h

/-- A power of two below 10^n: no fraction with a denominator up to 174451 lies between the two bounds of log2(10). -/
theorem below (n p : ℕ) (h0 : 0 < n) (hn : n < 174452) (h : 2 ^ p < 10 ^ n) : p * 76573 ≤ 254370 * n := by
  by_contra hc
  push Not at hc
  have h1 : p * 97879 < 325147 * n := by
    apply lt_of_pow
    calc 2 ^ (p * 97879) = (2 ^ p) ^ 97879 := pow_mul _ _ _
      _ < (10 ^ n) ^ 97879 := Nat.pow_lt_pow_left h (by norm_num)
      _ = (10 ^ 97879) ^ n := by rw [← pow_mul, ← pow_mul, mul_comm]
      _ < (2 ^ 325147) ^ n := Nat.pow_lt_pow_left log_high (by omega)
      _ = 2 ^ (325147 * n) := (pow_mul _ _ _).symm
  omega

theorem above (n p : ℕ) (h0 : 0 < n) (hn : n < 174452) (h : 10 ^ n < 2 ^ p) : 325147 * n ≤ p * 97879 := by
  by_contra hc
  push Not at hc
  have h1 : 254370 * n < p * 76573 := by
    apply lt_of_pow
    calc 2 ^ (254370 * n) = (2 ^ 254370) ^ n := pow_mul _ _ _
      _ < (10 ^ 76573) ^ n := Nat.pow_lt_pow_left log_low (by omega)
      _ = (10 ^ n) ^ 76573 := by rw [← pow_mul, ← pow_mul, mul_comm]
      _ < (2 ^ p) ^ 76573 := Nat.pow_lt_pow_left h (by norm_num)
      _ = 2 ^ (p * 76573) := (pow_mul _ _ _).symm
  omega

theorem round_le {f : Fmt} {q x y : ℚ} (h : f.Nearest q x) (hy : f.Has y) (hq : q ≤ y) : x ≤ y := by
  by_contra hc
  push Not at hc
  have := h.2 y hy
  rw [abs_of_pos (by linarith), abs_of_nonneg (by linarith)] at this
  linarith

theorem le_round {f : Fmt} {q x y : ℚ} (h : f.Nearest q x) (hy : f.Has y) (hq : y ≤ q) : y ≤ x := by
  by_contra hc
  push Not at hc
  have := h.2 y hy
  rw [abs_of_neg (by linarith), abs_of_nonpos (by linarith)] at this
  linarith

/-- C79. For texts of up to 174000 characters the number of bits conv computes in float64, `ceil(n * log2(10))`, is the exact one: the smallest p with
10^n ≤ 2^p. That holds for every value math.Log2(10) may have within 10^-15 of the logarithm, 3.321928094887362347870… -/
theorem c79_bits (c : ℚ) (hc : |c - 3.3219280948873623| ≤ 1 / 10 ^ 15) (n : ℕ) (hn : n ≤ 174000) :
    (∀ p, 10 ^ n ≤ 2 ^ p ↔ bitsFloat c n ≤ p) ∧ bitsFloat c n = bitsFor n := by
  have key : bitsFloat c n = bitsFor n := by
    rcases Nat.eq_zero_or_pos n with rfl | h0
    · simp [bitsFloat, bitsFor, roundFloat]
    rw [abs_le] at hc
    norm_num at hc
    obtain ⟨p, hp⟩ : ∃ p, bitsFor n = p + 1 := by
      refine ⟨bitsFor n - 1, ?_⟩
      have : 0 < bitsFor n := Nat.clog_pos (by norm_num) (by
        calc 2 ≤ 10 ^ 1 := by norm_num
          _ ≤ 10 ^ n := Nat.pow_le_pow_right (by norm_num) h0)
      omega
    have hlo : 2 ^ p < 10 ^ n := by
      by_contra hh
      push Not at hh
      have : bitsFor n ≤ p := Nat.clog_le_of_le_pow hh
      omega
    have hhi : 10 ^ n < 2 ^ (p + 1) := by
      have h1 : 10 ^ n ≤ 2 ^ (p + 1) := by rw [← hp]; exact Nat.le_pow_clog (by norm_num) _
      refine lt_of_le_of_ne h1 fun he => ?_
      have h5 : 5 ∣ 2 ^ (p + 1) := by rw [← he]; exact dvd_pow (by norm_num) (by omega)
      have h1 : Nat.Coprime 5 (2 ^ (p + 1)) := Nat.Coprime.pow_right _ (by decide)
      exact absurd (Nat.Coprime.eq_one_of_dvd h1 h5) (by norm_num)
    have hb := below n p h0 (by omega) hlo
    have ha := above n (p + 1) h0 (by omega) hhi
    have hpb : p < 1048576 := by omega
    have hnq : (1 : ℚ) ≤ n := by exact_mod_cast h0
    have hbq : (p : ℚ) * 76573 ≤ 254370 * n := by exact_mod_cast hb
    have haq : 325147 * (n : ℚ) ≤ (p + 1) * 97879 := by exact_mod_cast ha
    have hx1 : (p : ℚ) + 1 / 8589934592 ≤ n * c := by nlinarith [hc.1]
    have hx2 : n * c ≤ (p : ℚ) + 1 := by nlinarith [hc.2]
    have hpq : (p : ℚ) < 1048576 := by exact_mod_cast hpb
    have hnear := roundFloat_nearest float64 (by norm_num [float64]) (by norm_num [float64]) (q := n * c) (by
      rw [abs_of_nonneg (by have := (Nat.cast_nonneg p : (0 : ℚ) ≤ p); linarith)]
      refine hx2.trans ?_
      have h3 : (2 : ℚ) ^ (63 : ℤ) ≤ (2 : ℚ) ^ (971 : ℤ) := zpow_le_zpow_right₀ (by norm_num) (by norm_num)
      unfold Fmt.max float64
      simp only
      generalize (2 : ℚ) ^ (971 : ℤ) = z at h3 ⊢
      norm_num at h3 ⊢
      linarith)
    have h1 := le_round hnear (y := (p : ℚ) + 1 / 8589934592) ⟨8589934592 * p + 1, -33, by push_cast; norm_num; ring, by
      rw [abs_lt]; simp [float64]; omega, by norm_num [float64], by norm_num [float64]⟩ hx1
    have h2 := round_le hnear (y := (p : ℚ) + 1) ⟨p + 1, 0, by push_cast; norm_num, by
      rw [abs_lt]; simp [float64]; omega, by norm_num [float64], by norm_num [float64]⟩ hx2
    unfold bitsFloat
    rw [hp]
    have : ⌈roundFloat float64 (n * c)⌉ = (p : ℤ) + 1 := by
      rw [Int.ceil_eq_iff]
      push_cast
      constructor <;> linarith
    rw [this]; omega
  refine ⟨fun p => ?_, key⟩
  rw [key]
  exact (Nat.clog_le_iff_le_pow (by norm_num)).symm

/-- The float64 nearest to log2(10), which math.Log2(10) is. -/
example : bitsFloat (7480317065143153 / 2251799813685248) 20 = 67 := by
  rw [(c79_bits _ (by rw [abs_le]; constructor <;> norm_num) 20 (by norm_num)).2]
  decide

end Micro.Conv
