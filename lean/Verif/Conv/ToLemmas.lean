import Verif.Conv.ToSpec
import Verif.Conv.Props
import Verif.Conv.SharpProps
import Mathlib.Tactic.LinearCombination
set_option linter.unusedSimpArgs false
/-
Lemmas for C118.
-/
namespace Micro.Conv
open Micro

theorem bigFloatTo_fin (k : Kind) (q : ℚ) (cur : Int) :
    (∀ i : ℤ, q = i → bigFloatTo k (.fin q) cur = bigIntTo k i cur ∧ bigRatTo k q cur = bigIntTo k i cur) ∧
    ((¬ ∃ i : ℤ, q = i) → bigFloatTo k (.fin q) cur = ⟨cur, true⟩ ∧ bigRatTo k q cur = ⟨cur, true⟩) := by
  constructor
  · rintro i rfl
    have h1 : ∀ c, bigFloatToInt64 (.fin (i : ℚ)) c = bigIntToInt64 i c := by intro c; simp [bigFloatToInt64, bigFloatToBigInt]
    have h2 : ∀ c, bigFloatToUint64 (.fin (i : ℚ)) c = bigIntToUint64 i c := by intro c; simp [bigFloatToUint64, bigFloatToBigInt]
    have h3 : ∀ c, bigRatToInt64 (i : ℚ) c = bigIntToInt64 i c := by
      intro c; by_cases h : Kind.int64.InRange i <;> simp [bigRatToInt64, bigIntToInt64, h]
    have h4 : ∀ c, bigRatToUint64 (i : ℚ) c = bigIntToUint64 i c := by
      intro c; by_cases h : Kind.uint64.InRange i <;> simp [bigRatToUint64, bigIntToUint64, h]
    cases k <;> simp only [bigFloatTo, bigRatTo, bigIntTo, h1, h2, h3, h4, and_self]
  · intro h
    have hd : ¬ q.den = 1 := fun hd => h ((den_one_iff q).1 hd)
    have h1 : ∀ c, bigFloatToInt64 (.fin q) c = ⟨c, true⟩ := by intro c; simp [bigFloatToInt64, bigFloatToBigInt, hd]
    have h2 : ∀ c, bigFloatToUint64 (.fin q) c = ⟨c, true⟩ := by intro c; simp [bigFloatToUint64, bigFloatToBigInt, hd]
    have h3 : ∀ c, bigRatToInt64 q c = ⟨c, true⟩ := by intro c; simp [bigRatToInt64, hd]
    have h4 : ∀ c, bigRatToUint64 q c = ⟨c, true⟩ := by intro c; simp [bigRatToUint64, hd]
    cases k <;> simp [bigFloatTo, bigRatTo, h1, h2, h3, h4]

theorem bigFloatTo_special (k : Kind) (x : Flt) (cur : Int) (h : ∀ q, x ≠ .fin q) : bigFloatTo k x cur = ⟨cur, true⟩ := by
  have h0 : bigFloatToBigInt x = none := by
    cases x with
    | fin q => exact absurd rfl (h q)
    | nan => rfl
    | inf n => rfl
  cases k <;> simp [bigFloatTo, bigFloatToInt64, bigFloatToUint64, h0]

theorem has32_64 {q : ℚ} (h : float32.Has q) : float64.Has q := by
  obtain ⟨m, e, hq, hm, h1, h2⟩ := h
  refine ⟨m, e, hq, lt_trans hm (by norm_num [float32, float64]), ?_, ?_⟩
  · simp [float32, float64] at *; omega
  · simp [float32, float64] at *; omega

/-- The rounding error is at most half of the tenth digit. -/
theorem roundSig_error (q : ℚ) : |roundSig 10 10 q - q| * (2 * 10 ^ 9) ≤ |q| := by
  by_cases h0 : q = 0
  · simp [h0, roundSig]
  have hb : (1 : ℕ) < 10 := by omega
  set E : ℤ := Int.log 10 |q| - ((10 : ℕ) - 1) with hE
  have hp := pow_pos_base hb E
  have hlog := Int.zpow_log_le_self hb (abs_pos.2 h0)
  have e1 : Int.log 10 |q| = (9 : ℕ) + E := by rw [hE]; push_cast; ring
  rw [e1, zpow_add₀ (by norm_num), zpow_natCast] at hlog
  unfold roundSig
  rw [if_neg h0]
  change |roundAt 10 E q - q| * _ ≤ _
  clear_value E
  have hr : |(rne (q / ((10 : ℕ) : ℚ) ^ E) : ℚ) - q / ((10 : ℕ) : ℚ) ^ E| ≤ 1 / 2 := by
    set x := q / ((10 : ℕ) : ℚ) ^ E
    have h1 := rne_near x ⌊x⌋
    have h2 := rne_near x (⌊x⌋ + 1)
    have h3 := Int.floor_le x
    have h4 := Int.lt_floor_add_one x
    rw [abs_of_nonpos (a := (⌊x⌋ : ℚ) - x) (by linarith)] at h1
    push_cast at h2
    rw [abs_of_nonneg (a := (⌊x⌋ : ℚ) + 1 - x) (by linarith)] at h2
    linarith
  have hx : roundAt 10 E q - q = ((rne (q / ((10 : ℕ) : ℚ) ^ E) : ℚ) - q / ((10 : ℕ) : ℚ) ^ E) * ((10 : ℕ) : ℚ) ^ E := by
    unfold roundAt; rw [sub_mul, div_mul_cancel₀ _ hp.ne']
  rw [hx, abs_mul, abs_of_pos hp]
  push_cast at *
  nlinarith

/-- An integer below 10^10 has at most ten digits. -/
theorem sig10_small {i : ℤ} (h : |i| < 10 ^ 10) : SigDigits 10 (i : ℚ) := ⟨i, 0, by simp, h⟩

/-- Rounding a float32 to ten digits gives an integer below 10^10 only if the float is that integer. -/
theorem float32_round_int {q : ℚ} (hq : float32.Has q) {i : ℤ} (hi : |i| < 10 ^ 10) (h : roundSig 10 10 q = i) : q = i := by
  have herr := roundSig_error q
  rw [h] at herr
  obtain ⟨m, e, hm, hlt, -, -⟩ := hq
  simp only [float32] at hlt
  rcases le_or_gt 0 e with he | he
  · -- an integer
    obtain ⟨a, rfl⟩ := Int.eq_ofNat_of_zero_le he
    have hj : q = ((m * 2 ^ a : ℤ) : ℚ) := by rw [hm]; push_cast; simp
    set j := m * 2 ^ a
    by_cases hjs : |j| < 10 ^ 10
    · rw [hj, roundSig10 (sig10_small hjs)] at h
      rw [hj, h]
    · exfalso
      have h1 : (10 : ℚ) ^ 10 ≤ |q| := by rw [hj]; push_neg at hjs; exact_mod_cast hjs
      have hn := roundSig_near10 q (if 0 ≤ q then 1 else -1) 10 (by split <;> norm_num)
      have hi' : |(i : ℚ)| < 10 ^ 10 := by exact_mod_cast hi
      rw [h] at hn
      split at hn
      · rename_i h0
        rw [abs_of_nonneg h0] at h1
        have := abs_lt.1 hi'
        rw [abs_of_nonpos (by linarith), abs_of_nonpos (by push_cast; linarith)] at hn
        push_cast at hn
        norm_num at hn
        linarith
      · rename_i h0
        rw [abs_of_neg (not_le.1 h0)] at h1
        have := abs_lt.1 hi'
        have h2 : (10 : ℚ) ^ (10 : ℤ) = 10 ^ 10 := by norm_num
        rw [abs_of_nonneg (by linarith), abs_of_nonneg (by rw [h2]; push_cast; linarith)] at hn
        norm_num at hn
        linarith
  · -- a fraction
    by_contra hne
    obtain ⟨a, ha⟩ := Int.eq_ofNat_of_zero_le (show 0 ≤ -e by omega)
    have hp : (0 : ℚ) < 2 ^ e := by positivity
    have hpa : (2 : ℚ) ^ e * 2 ^ a = 1 := by
      rw [← zpow_natCast, ← zpow_add₀ (by norm_num), show e + ((a : ℕ) : ℤ) = 0 by omega, zpow_zero]
    have hd : (i : ℚ) - q = ((i * 2 ^ a - m : ℤ) : ℚ) * 2 ^ e := by
      rw [hm]; push_cast
      have : (i : ℚ) = i * (2 ^ e * 2 ^ a) := by rw [hpa, mul_one]
      linear_combination this
    have hz : i * 2 ^ a - m ≠ 0 := by
      intro hz; rw [hz] at hd; apply hne; push_cast at hd; linarith
    have h1 : (1 : ℚ) ≤ |((i * 2 ^ a - m : ℤ) : ℚ)| := by
      have := Int.one_le_abs hz; exact_mod_cast this
    have h2 : |(m : ℚ)| < 2 ^ 24 := by exact_mod_cast hlt
    rw [hd, abs_mul, abs_of_pos hp, hm, abs_mul, abs_of_pos hp] at herr
    have : |((i * 2 ^ a - m : ℤ) : ℚ)| * (2 * 10 ^ 9) ≤ |(m : ℚ)| := by
      by_contra hc
      push_neg at hc
      have := mul_lt_mul_of_pos_right hc hp
      nlinarith
    norm_num at h2
    nlinarith

/-- The range of the types of at most 32 bits is below 10^10. -/
theorem small_range {k : Kind} (hk : k.bits ≤ 32) {i : ℤ} (h : k.InRange i) : |i| < 10 ^ 10 := by
  rw [abs_lt]
  cases k <;> simp [Kind.bits] at hk <;> kind_norm <;> omega

/-- The largest values of the wide types are rounded up to a power of two. -/
theorem maxV_round (f : Fmt) (n : ℕ) (hp : f.prec + 2 ≤ n) (h1 : 1 ≤ f.prec) (he : f.emin ≤ 0) :
    roundFloat f ((2 : ℚ) ^ n - 1) = 2 ^ n := by
  have hpos : (1 : ℚ) ≤ 2 ^ (n - 1) := one_le_pow₀ (by norm_num)
  have h2 : (2 : ℚ) ^ n = 2 * 2 ^ (n - 1) := by rw [← pow_succ']; congr 1; omega
  have hlog : Int.log 2 |(2 : ℚ) ^ n - 1| = (n - 1 : ℕ) := by
    rw [abs_of_nonneg (by linarith)]
    refine log_eq_of (by omega) (by linarith) ?_ ?_
    · push_cast; rw [zpow_natCast]; linarith
    · push_cast
      rw [zpow_add₀ (by norm_num), zpow_natCast, zpow_one]; linarith
  unfold roundFloat
  rw [if_neg (by linarith), hlog]
  have hmax : max (((n - 1 : ℕ) : ℤ) - ((f.prec : ℤ) - 1)) f.emin = ((n - f.prec : ℕ) : ℤ) := by omega
  rw [hmax]
  unfold roundAt
  have hq : (0 : ℚ) < 2 ^ (n - f.prec) := by positivity
  have h4 : (4 : ℚ) ≤ 2 ^ (n - f.prec) := by
    calc (4 : ℚ) = 2 ^ 2 := by norm_num
      _ ≤ _ := pow_le_pow_right₀ (by norm_num) (by omega)
  have hs : (2 : ℚ) ^ n = 2 ^ f.prec * 2 ^ (n - f.prec) := by rw [← pow_add]; congr 1; omega
  have hx : ((2 : ℚ) ^ n - 1) / ((2 : ℕ) : ℚ) ^ ((n - f.prec : ℕ) : ℤ) = 2 ^ f.prec - 1 / 2 ^ (n - f.prec) := by
    push_cast; rw [zpow_natCast, hs]; field_simp
  rw [hx, rne_up (n := 2 ^ f.prec)]
  · push_cast; rw [zpow_natCast, hs]
  · push_cast
    have : 1 / (2 : ℚ) ^ (n - f.prec) ≤ 1 / 4 := one_div_le_one_div_of_le (by norm_num) h4
    linarith
  · push_cast
    have : 0 < 1 / (2 : ℚ) ^ (n - f.prec) := by positivity
    linarith

end Micro.Conv
