import Verif.Conv.FloatModel
import Mathlib.Tactic.Linarith
import Mathlib.Tactic.Positivity
import Mathlib.Tactic.FieldSimp
import Mathlib.Tactic.Ring
import Mathlib.Tactic.NormNum
import Mathlib.Tactic.Push
import Mathlib.Algebra.Order.Field.Power
/-
Helper lemmas about rounding.
-/
set_option linter.unusedSimpArgs false
namespace Micro.Conv
open Micro

theorem rne_int (n : ℤ) : rne (n : ℚ) = n := by
  simp [rne]

theorem rne_near (x : ℚ) (n : ℤ) : |(rne x : ℚ) - x| ≤ |(n : ℚ) - x| := by
  have h1 := Int.floor_le x
  have h2 := Int.lt_floor_add_one x
  have hn : n ≤ ⌊x⌋ ∨ ⌊x⌋ + 1 ≤ n := by omega
  have hn' : (n : ℚ) ≤ ⌊x⌋ ∨ (⌊x⌋ : ℚ) + 1 ≤ n := by
    rcases hn with h | h
    · exact Or.inl (by exact_mod_cast h)
    · exact Or.inr (by exact_mod_cast h)
  unfold rne
  split
  · rename_i h
    rw [abs_of_nonpos (by linarith)]
    rcases hn' with h' | h'
    · rw [abs_of_nonpos (by linarith)]; linarith
    · rw [abs_of_nonneg (by linarith)]; linarith
  · split
    · rename_i h h3
      push_cast
      rw [abs_of_nonneg (by linarith)]
      rcases hn' with h' | h'
      · rw [abs_of_nonpos (by linarith)]; linarith
      · rw [abs_of_nonneg (by linarith)]; linarith
    · split
      · rename_i h h3 h4
        rw [abs_of_nonpos (by linarith)]
        rcases hn' with h' | h'
        · rw [abs_of_nonpos (by linarith)]; linarith
        · rw [abs_of_nonneg (by linarith)]; linarith
      · rename_i h h3 h4
        push_cast
        rw [abs_of_nonneg (by linarith)]
        rcases hn' with h' | h'
        · rw [abs_of_nonpos (by linarith)]; linarith
        · rw [abs_of_nonneg (by linarith)]; linarith

theorem rne_mono_int (x : ℚ) (n : ℤ) (h : x ≤ n) : rne x ≤ n := by
  have h1 : ⌊x⌋ ≤ n := by
    have := Int.floor_le x
    exact_mod_cast this.trans h
  have h2 : x ≤ ⌊x⌋ ∨ ⌊x⌋ + 1 ≤ n := by
    by_cases hx : ⌊x⌋ + 1 ≤ n
    · exact Or.inr hx
    · left
      have : n = ⌊x⌋ := by omega
      rw [← this]; exact h
  unfold rne
  rcases h2 with h2 | h2
  · rw [if_pos (by linarith)]; exact h1
  · split
    · exact h1
    · split
      · exact h2
      · split
        · exact h1
        · exact h2

theorem rne_mono_int' (x : ℚ) (n : ℤ) (h : (n : ℚ) ≤ x) : n ≤ rne x := by
  have h1 : n ≤ ⌊x⌋ := Int.le_floor.2 h
  unfold rne
  repeat' split
  all_goals omega

theorem pow_pos_base {b : ℕ} (hb : 1 < b) (e : ℤ) : (0 : ℚ) < (b : ℚ) ^ e := by
  have : (0 : ℚ) < b := by exact_mod_cast (by omega : 0 < b)
  positivity

theorem roundAt_mul {b : ℕ} (hb : 1 < b) (e m : ℤ) : roundAt b e (m * (b : ℚ) ^ e) = m * (b : ℚ) ^ e := by
  have := pow_pos_base hb e
  unfold roundAt
  rw [mul_div_assoc, div_self this.ne', mul_one, rne_int]

/-- Multiples of a larger power are multiples of a smaller one. -/
theorem mul_of_le {b : ℕ} (hb : 1 < b) {e e' : ℤ} (h : e' ≤ e) (m : ℤ) :
    ∃ m' : ℤ, (m : ℚ) * (b : ℚ) ^ e = m' * (b : ℚ) ^ e' := by
  have hb0 : (b : ℚ) ≠ 0 := by have : (0 : ℚ) < b := by exact_mod_cast (by omega : 0 < b)
                               exact this.ne'
  obtain ⟨k, hk⟩ := Int.eq_ofNat_of_zero_le (show 0 ≤ e - e' by omega)
  refine ⟨m * b ^ k, ?_⟩
  have : e = e' + k := by omega
  rw [this, zpow_add₀ hb0]
  push_cast
  rw [zpow_natCast]; ring

theorem log_lt_of {b : ℕ} (hb : 1 < b) {m e : ℤ} {n : ℕ} (hm : |m| < (b : ℤ) ^ n) (h0 : (m : ℚ) * (b : ℚ) ^ e ≠ 0) :
    Int.log b |(m : ℚ) * (b : ℚ) ^ e| < n + e := by
  have hb0 : (b : ℚ) ≠ 0 := by have : (0 : ℚ) < b := by exact_mod_cast (by omega : 0 < b)
                               exact this.ne'
  rw [← Int.lt_zpow_iff_log_lt hb (abs_pos.2 h0), abs_mul, abs_of_pos (pow_pos_base hb e), zpow_add₀ hb0]
  have : |(m : ℚ)| < (b : ℚ) ^ (n : ℤ) := by
    rw [zpow_natCast]
    exact_mod_cast hm
  exact mul_lt_mul_of_pos_right this (pow_pos_base hb e)

theorem roundSig_exact {b : ℕ} (hb : 1 < b) {n : ℕ} {m e : ℤ} (hm : |m| < (b : ℤ) ^ n) :
    roundSig b n (m * (b : ℚ) ^ e) = m * (b : ℚ) ^ e := by
  unfold roundSig
  split
  · rename_i h; exact h.symm
  · rename_i h
    have hl := log_lt_of hb hm h
    obtain ⟨m', hm'⟩ := mul_of_le hb (e' := Int.log b |(m : ℚ) * (b : ℚ) ^ e| - (n - 1)) (e := e) (by omega) m
    rw [hm', ← hm', ]
    conv_lhs => rw [hm']
    conv_rhs => rw [hm']
    rw [← hm']
    generalize Int.log b |(m : ℚ) * (b : ℚ) ^ e| - (n - 1) = e' at hm' ⊢
    rw [hm', roundAt_mul hb]

theorem roundFloat_exact {f : Fmt} {q : ℚ} (h : f.Has q) : roundFloat f q = q := by
  obtain ⟨m, e, hq, hm, he, _⟩ := h
  unfold roundFloat
  split
  · rename_i h; exact h.symm
  · rename_i h0
    have hl : Int.log 2 |q| < f.prec + e := by
      rw [hq] at h0 ⊢
      exact_mod_cast log_lt_of (b := 2) (by omega) (n := f.prec) (by exact_mod_cast hm) (by exact_mod_cast h0)
    obtain ⟨m', hm'⟩ := mul_of_le (b := 2) (by omega) (e' := max (Int.log 2 |q| - (f.prec - 1)) f.emin) (e := e) (by omega) m
    generalize max (Int.log 2 |q| - (f.prec - 1)) f.emin = e' at hm' ⊢
    rw [hq]
    have h2 : (m : ℚ) * (2 : ℚ) ^ e = m' * ((2 : ℕ) : ℚ) ^ e' := by rw [← hm']; norm_num
    rw [h2, roundAt_mul (by omega)]

/-- What rounding to a multiple gives: nothing is nearer. -/
theorem roundAt_near {b : ℕ} (hb : 1 < b) (e : ℤ) (q : ℚ) (n : ℤ) : |roundAt b e q - q| ≤ |(n : ℚ) * (b : ℚ) ^ e - q| := by
  have hp := pow_pos_base hb e
  have h := rne_near (q / (b : ℚ) ^ e) n
  have key : ∀ z : ℚ, |z * (b : ℚ) ^ e - q| = |z - q / (b : ℚ) ^ e| * (b : ℚ) ^ e := by
    intro z
    rw [← abs_of_pos hp, ← abs_mul, abs_of_pos hp]
    congr 1
    rw [sub_mul, div_mul_cancel₀ _ hp.ne']
  unfold roundAt
  rw [key, key]
  exact mul_le_mul_of_nonneg_right h hp.le

/-- The exponent used when rounding to a format. -/
theorem roundFloat_bound (f : Fmt) (hp : 1 ≤ f.prec) {q : ℚ} (h0 : q ≠ 0) (hmax : |q| ≤ f.max) (hle : f.emin ≤ f.emax) :
    max (Int.log 2 |q| - ((f.prec : ℤ) - 1)) f.emin ≤ f.emax := by
  have hpos : (0 : ℚ) < 2 ^ f.emax := by positivity
  have hlt : |q| < (2 : ℚ) ^ ((f.prec : ℤ) + f.emax) := by
    refine lt_of_le_of_lt hmax ?_
    unfold Fmt.max
    rw [zpow_add₀ (by norm_num), zpow_natCast]
    exact mul_lt_mul_of_pos_right (by linarith) hpos
  have := (Int.lt_zpow_iff_log_lt (b := 2) (by omega) (abs_pos.2 h0)).1 (by exact_mod_cast hlt)
  omega

theorem roundFloat_has (f : Fmt) (hp : 1 ≤ f.prec) (hle : f.emin ≤ f.emax) {q : ℚ} (hmax : |q| ≤ f.max) :
    f.Has (roundFloat f q) := by
  unfold roundFloat
  split
  · exact ⟨0, f.emin, by simp, by simp, le_refl _, hle⟩
  · rename_i h0
    have hb := roundFloat_bound f hp h0 hmax hle
    have hlog := Int.lt_zpow_succ_log_self (b := 2) (by omega) |q|
    have hpos : 0 < |q| := abs_pos.2 h0
    generalize hE : max (Int.log 2 |q| - ((f.prec : ℤ) - 1)) f.emin = e at hb ⊢
    have he1 : Int.log 2 |q| - ((f.prec : ℤ) - 1) ≤ e := by omega
    have he2 : f.emin ≤ e := by omega
    have hpe : (0 : ℚ) < (2 : ℚ) ^ e := by positivity
    have habs : |q / (2 : ℚ) ^ e| < 2 ^ f.prec := by
      rw [abs_div, abs_of_pos hpe, div_lt_iff₀ hpe]
      calc |q| < (2 : ℚ) ^ (Int.log 2 |q| + 1) := by exact_mod_cast hlog
        _ ≤ (2 : ℚ) ^ ((f.prec : ℤ) + e) := zpow_le_zpow_right₀ (by norm_num) (by omega)
        _ = _ := by rw [zpow_add₀ (by norm_num), zpow_natCast]
    have hr1 : rne (q / (2 : ℚ) ^ e) ≤ 2 ^ f.prec := rne_mono_int _ _ (by push_cast; exact (le_abs_self _).trans habs.le)
    have hr2 : -2 ^ f.prec ≤ rne (q / (2 : ℚ) ^ e) :=
      rne_mono_int' _ _ (by push_cast; linarith [neg_abs_le (q / (2 : ℚ) ^ e)])
    by_cases hin : |rne (q / (2 : ℚ) ^ e)| < 2 ^ f.prec
    · exact ⟨rne (q / (2 : ℚ) ^ e), e, by simp [roundAt], hin, he2, hb⟩
    · -- the significand is a power of two, one exponent higher
      have hEq : |rne (q / (2 : ℚ) ^ e)| = 2 ^ f.prec := le_antisymm (abs_le.2 ⟨hr2, hr1⟩) (not_lt.1 hin)
      have hlt : e < f.emax := by
        rcases lt_or_eq_of_le hb with h | h
        · exact h
        · exfalso
          -- at the largest exponent the significand is at most 2^prec - 1
          have hq : |q / (2 : ℚ) ^ e| ≤ 2 ^ f.prec - 1 := by
            rw [abs_div, abs_of_pos hpe, div_le_iff₀ hpe, h]; exact hmax
          have h1 : rne (q / (2 : ℚ) ^ e) ≤ 2 ^ f.prec - 1 := rne_mono_int _ _ (by push_cast; exact (le_abs_self _).trans hq)
          have h2 : -(2 ^ f.prec - 1) ≤ rne (q / (2 : ℚ) ^ e) :=
            rne_mono_int' _ _ (by push_cast; linarith [neg_abs_le (q / (2 : ℚ) ^ e)])
          have := abs_le.2 ⟨h2, h1⟩
          omega
      obtain ⟨k, hk⟩ : ∃ k, f.prec = k + 1 := ⟨f.prec - 1, by omega⟩
      have hcase : rne (q / (2 : ℚ) ^ e) = 2 ^ f.prec ∨ rne (q / (2 : ℚ) ^ e) = -2 ^ f.prec := by
        rcases abs_choice (rne (q / (2 : ℚ) ^ e)) with h | h <;> rw [h] at hEq
        · exact Or.inl hEq
        · right; omega
      have h2k : |(2 : ℤ) ^ k| < 2 ^ f.prec := by
        rw [abs_of_pos (by positivity), hk, pow_succ]
        have : (0 : ℤ) < 2 ^ k := by positivity
        omega
      rcases hcase with h | h
      · refine ⟨2 ^ k, e + 1, ?_, h2k, by omega, by omega⟩
        simp only [roundAt, Nat.cast_ofNat, h, hk]
        push_cast
        rw [zpow_add_one₀ (by norm_num), pow_succ]; ring
      · refine ⟨-2 ^ k, e + 1, ?_, by rwa [abs_neg], by omega, by omega⟩
        simp only [roundAt, Nat.cast_ofNat, h, hk]
        push_cast
        rw [zpow_add_one₀ (by norm_num), pow_succ]; ring

theorem roundFloat_nearest (f : Fmt) (hp : 1 ≤ f.prec) (hle : f.emin ≤ f.emax) {q : ℚ} (hmax : |q| ≤ f.max) :
    f.Nearest q (roundFloat f q) := by
  refine ⟨roundFloat_has f hp hle hmax, ?_⟩
  rintro r' ⟨m', e', hr', hm', he', _⟩
  unfold roundFloat
  split
  · rename_i h0; simp [h0]
  · rename_i h0
    have hpos : 0 < |q| := abs_pos.2 h0
    have hlog := Int.zpow_log_le_self (b := 2) (by omega) hpos
    rcases lt_or_ge e' (max (Int.log 2 |q| - ((f.prec : ℤ) - 1)) f.emin) with hlt | hge
    · -- r' is small: the power of two below q is nearer
      have hE : max (Int.log 2 |q| - ((f.prec : ℤ) - 1)) f.emin = Int.log 2 |q| - ((f.prec : ℤ) - 1) := by omega
      rw [hE] at hlt ⊢
      generalize hL : Int.log 2 |q| = L at *
      have hr'abs : |r'| < (2 : ℚ) ^ L := by
        rw [hr', abs_mul, abs_of_pos (show (0 : ℚ) < 2 ^ e' by positivity)]
        calc |(m' : ℚ)| * 2 ^ e' < (2 : ℚ) ^ (f.prec : ℤ) * 2 ^ e' := by
              refine mul_lt_mul_of_pos_right ?_ (by positivity)
              rw [zpow_natCast]; exact_mod_cast hm'
          _ = (2 : ℚ) ^ ((f.prec : ℤ) + e') := by rw [zpow_add₀ (by norm_num)]
          _ ≤ _ := zpow_le_zpow_right₀ (by norm_num) (by omega)
      have hlog' : (2 : ℚ) ^ L ≤ |q| := by exact_mod_cast hlog
      obtain ⟨n, hn⟩ := mul_of_le (b := 2) (by omega) (e' := L - ((f.prec : ℤ) - 1)) (e := L) (by omega) 1
      have hn' : (2 : ℚ) ^ L = n * ((2 : ℕ) : ℚ) ^ (L - ((f.prec : ℤ) - 1)) := by rw [← hn]; norm_num
      rcases le_or_gt 0 q with hq | hq
      · rw [abs_of_nonneg hq] at hlog'
        refine (roundAt_near (b := 2) (by omega) _ q n).trans ?_
        rw [← hn', abs_of_nonpos (by linarith), abs_of_nonpos (by linarith [le_abs_self r'])]
        linarith [le_abs_self r']
      · rw [abs_of_neg hq] at hlog'
        refine (roundAt_near (b := 2) (by omega) _ q (-n)).trans ?_
        have : ((-n : ℤ) : ℚ) * ((2 : ℕ) : ℚ) ^ (L - ((f.prec : ℤ) - 1)) = -(2 : ℚ) ^ L := by rw [hn']; push_cast; ring
        rw [this, abs_of_nonneg (by linarith), abs_of_nonneg (by linarith [neg_abs_le r'])]
        linarith [neg_abs_le r']
    · obtain ⟨n, hn⟩ := mul_of_le (b := 2) (by omega) hge m'
      have : r' = n * ((2 : ℕ) : ℚ) ^ (max (Int.log 2 |q| - ((f.prec : ℤ) - 1)) f.emin) := by
        rw [hr', ← hn]; norm_num
      rw [this]
      exact roundAt_near (by omega) _ _ _

end Micro.Conv
