import Verif.Conv.FormatLemmas
import Mathlib.Data.Nat.Prime.Basic
import Mathlib.Data.Rat.Lemmas
set_option linter.unusedSimpArgs false
/-
C134: the texts of floats.
-/
namespace Micro.Conv
open Micro

theorem decimalOf_eq (d k : ℤ) (hd : ¬ (10 : ℤ) ∣ d) (hl : |d| < 10 ^ 10) :
    decimalOf ((d : ℚ) * 10 ^ k) = ⟨natChars d.natAbs, (natChars d.natAbs).length + k⟩ := by
  have hd0 : d ≠ 0 := by rintro rfl; exact hd (dvd_zero _)
  have hp : (0 : ℚ) < 10 ^ k := by positivity
  unfold decimalOf
  rw [if_neg (mul_ne_zero (by exact_mod_cast hd0) hp.ne'), lastPlace_eq d k hd hl, mul_div_assoc, div_self hp.ne', mul_one]
  simp

theorem fmtG_cases (ds : List Char) (k : ℤ) (hn1 : 0 < ds.length) (hn2 : ds.length ≤ 10) :
    fmtG 10 ⟨ds, ds.length + k⟩ = fmtE ⟨ds, ds.length + k⟩ (ds.length - 1) ∨
    ((-14 ≤ k ∧ k ≤ 9) ∧ fmtG 10 ⟨ds, ds.length + k⟩ = fmtF ⟨ds, ds.length + k⟩ (-k).toNat) := by
  have hep : ∃ ep : ℕ, (if 10 > ds.length ∧ (ds.length : Int) ≥ ds.length + k then ds.length else 10) = ep ∧ (ep = 10 ∨ (k ≤ 0 ∧ ep = ds.length)) := by
    split
    · exact ⟨_, rfl, Or.inr ⟨by omega, rfl⟩⟩
    · exact ⟨_, rfl, Or.inl rfl⟩
  obtain ⟨ep, hep, hep2⟩ := hep
  unfold fmtG
  simp only
  rw [hep]
  by_cases h : (ds.length : Int) + k - 1 < -4 ∨ (ds.length : Int) + k - 1 ≥ ep
  · left
    rw [if_pos h]
    congr 1
    split <;> omega
  · right
    refine ⟨by omega, ?_⟩
    rw [if_neg h]
    congr 1
    split <;> omega

theorem fmtF_length (d : Digs) (prec : ℕ) : (fmtF d prec).length ≤ d.mant.length + d.exp.toNat + prec + 2 := by
  unfold fmtF
  split <;> split <;> simp <;> omega

/-- The text of a number with at most ten significant digits, by its digits. -/
theorem fmtG_scientific (neg : Bool) (d : ℕ) (k : ℤ) (hl : d < 10 ^ 10) :
    (∃ e n, Scientific ((if neg then ['-'] else []) ++ fmtG 10 ⟨natChars d, (natChars d).length + k⟩) ((if neg then -1 else 1) * d) e n ∧ e - n = k ∧
      e = (natChars d).length + k - 1) ∨
    ((-14 ≤ k ∧ k ≤ 9) ∧ ((if neg then ['-'] else []) ++ fmtG 10 ⟨natChars d, (natChars d).length + k⟩).length ≤ 100 ∧
      Decimal ((if neg then ['-'] else []) ++ fmtG 10 ⟨natChars d, (natChars d).length + k⟩) (sgn neg * (d * 10 ^ k))) := by
  have hn1 : 0 < (natChars d).length := natChars_length_pos d
  have hn2 : (natChars d).length ≤ 10 := (natChars_length_le d 10 (by omega)).mpr hl
  have hdig := natChars_digits d
  have hne := natChars_ne_nil d
  have hv := digitsVal_natChars d
  generalize natChars d = ds at *
  subst hv
  rcases fmtG_cases ds k hn1 hn2 with h | ⟨hk, h⟩
  · left
    rw [h]
    exact ⟨_, _, fmtE_scientific neg ds hdig hne (ds.length + k), by omega, by omega⟩
  · right
    rw [h]
    refine ⟨hk, ?_, fmtF_decimal neg ds hdig hne k⟩
    have := fmtF_length ⟨ds, ds.length + k⟩ (-k).toNat
    simp only at this
    have h1 : (if neg then ['-'] else [] : List Char).length ≤ 1 := by split <;> simp
    rw [List.length_append]
    omega

/-- C134: BigFloatToString writes the number of ten significant digits nearest to the value; a value of at most ten significant digits is written
exactly. -/
theorem c134_bigFloat (q : ℚ) : ∃ x : ℚ, (∃ (m e : Int) (n : Nat), Scientific (bigFloatToString (.fin q)) m e n ∧ x = (m : ℚ) * 10 ^ (e - n)) ∧ SigDigits 10 x ∧
    (∀ d j : ℤ, |d| < 10 ^ 10 → |x - q| ≤ |(d : ℚ) * 10 ^ j - q|) ∧ (SigDigits 10 q → x = q) := by
  refine ⟨roundSig 10 10 q, ?_, ?_, fun d j h => roundSig_near10 q d j h, roundSig10⟩
  · by_cases h0 : q = 0
    · subst h0
      refine ⟨0, 0, 0, ⟨[], ['0'], [], [], by decide, by decide, by decide, Or.inr ⟨rfl, ?_⟩, Or.inl ⟨rfl, rfl⟩, rfl, by decide⟩, by simp [roundSig]⟩
      simp only [bigFloatToString, roundSig, if_true, decimalOf]
      decide
    · obtain ⟨d, k, hx, h10, hl, hneg⟩ := ten_digits q h0
      have hd0 : d ≠ 0 := by rintro rfl; exact h10 (dvd_zero _)
      have hs : (if q < 0 then ['-'] else [] : List Char) = if decide (d < 0) = true then ['-'] else [] := by simp [hneg]
      have hval : ((if decide (d < 0) = true then -1 else 1 : ℤ)) * (d.natAbs : ℤ) = d := by
        by_cases h : d < 0
        · simp only [h, decide_true, if_true]; omega
        · simp only [h, decide_false, Bool.false_eq_true, if_false]; omega
      have hvalq : sgn (decide (d < 0)) * (d.natAbs : ℚ) = d := by
        have : ((((if decide (d < 0) = true then -1 else 1 : ℤ)) * (d.natAbs : ℤ) : ℤ) : ℚ) = d := by rw [hval]
        rw [← this]; unfold sgn; push_cast; split <;> simp
      have hdn : d.natAbs < 10 ^ 10 := by
        have : (d.natAbs : ℤ) < 10 ^ 10 := by rw [Int.natCast_natAbs]; exact hl
        exact_mod_cast this
      simp only [bigFloatToString, hx, decimalOf_eq d k h10 hl, hs]
      rcases fmtG_scientific (decide (d < 0)) d.natAbs k hdn with ⟨e, n, h, hk, -⟩ | ⟨-, -, h⟩
      · rw [hval] at h
        exact ⟨d, e, n, h, by rw [hk]⟩
      · rw [← mul_assoc, hvalq] at h
        obtain ⟨m, n, h, hq, -⟩ := scientific_of_decimal h
        exact ⟨m, 0, n, h, hq⟩
  · obtain ⟨m, e, h, hm⟩ := roundSig_sig (b := 10) (by omega) (n := 10) (by omega) q
    exact ⟨m, e, by rw [h]; push_cast; rfl, by exact_mod_cast hm⟩

example : bigFloatToString (.fin (-3 / 2)) = "-1.5".toList := by
  have h := roundSig10 (q := -3 / 2) ⟨-15, -1, by norm_num, by norm_num⟩
  have h2 := decimalOf_eq (-15) (-1) (by decide) (by decide)
  rw [show ((-15 : ℤ) : ℚ) * 10 ^ (-1 : ℤ) = -3 / 2 by norm_num] at h2
  have h3 : natChars (-15 : ℤ).natAbs = ['1', '5'] := by
    show natChars 15 = _
    rw [natChars, if_neg (by omega), natChars, if_pos (by omega)]; rfl
  simp only [bigFloatToString, h, h2, h3]
  rw [if_pos (by norm_num)]
  decide

example : bigFloatToString (.fin 12345678901) = "1.23456789e+10".toList := by
  have h : roundSig 10 10 12345678901 = 12345678900 := by
    have := (c79_rat_refuted).1
    simpa [floatToBigRat] using this
  have h2 := decimalOf_eq 123456789 2 (by decide) (by decide)
  rw [show ((123456789 : ℤ) : ℚ) * 10 ^ (2 : ℤ) = 12345678900 by norm_num] at h2
  have h3 : natChars (123456789 : ℤ).natAbs = "123456789".toList := by
    show natChars 123456789 = _
    iterate 8 rw [natChars, if_neg (by omega)]
    rw [natChars, if_pos (by omega)]; decide
  simp only [bigFloatToString, h, h2, h3]
  rw [if_neg (by norm_num)]
  have h4 : natChars 10 = ['1', '0'] := by rw [natChars, if_neg (by omega), natChars, if_pos (by omega)]; rfl
  simp [fmtG, fmtE, h4]

theorem sig10_log_bounds (q : ℚ) (E : ℕ) (h1 : (10 : ℚ) ^ (-E : ℤ) ≤ |q|) (h2 : |q| ≤ 10 ^ (E : ℤ)) :
    -(E : ℤ) ≤ Int.log 10 |roundSig 10 10 q| ∧ Int.log 10 |roundSig 10 10 q| < E + 1 := by
  have hz : (0 : ℚ) < 10 ^ (-E : ℤ) := by positivity
  have hx : (10 : ℚ) ^ (-E : ℤ) ≤ |roundSig 10 10 q| ∧ |roundSig 10 10 q| ≤ 2 * |q| := by
    rcases le_total 0 q with hq | hq
    · rw [abs_of_nonneg hq] at h1 ⊢
      have := roundSig_near10 q 1 (-E) (by norm_num)
      have h3 : |((1 : ℤ) : ℚ) * 10 ^ (-E : ℤ) - q| = q - 10 ^ (-E : ℤ) := by
        rw [abs_of_nonpos (by push_cast; linarith)]; push_cast; ring
      rw [h3] at this
      obtain ⟨ha, hb⟩ := abs_le.mp this
      rw [abs_of_nonneg (by linarith)]
      exact ⟨by linarith, by linarith⟩
    · rw [abs_of_nonpos hq] at h1 ⊢
      have := roundSig_near10 q (-1) (-E) (by norm_num)
      have h3 : |((-1 : ℤ) : ℚ) * 10 ^ (-E : ℤ) - q| = -q - 10 ^ (-E : ℤ) := by
        rw [abs_of_nonneg (by push_cast; linarith)]; push_cast; ring
      rw [h3] at this
      obtain ⟨ha, hb⟩ := abs_le.mp this
      rw [abs_of_nonpos (by linarith)]
      exact ⟨by linarith, by linarith⟩
  set x := roundSig 10 10 q with hxd
  have hx0 : 0 < |x| := lt_of_lt_of_le hz hx.1
  refine ⟨?_, ?_⟩
  · rw [← Int.zpow_le_iff_le_log (b := 10) (by omega) hx0]; exact_mod_cast hx.1
  · rw [← Int.lt_zpow_iff_log_lt (b := 10) (by omega) hx0]
    push_cast
    rw [zpow_add₀ (by norm_num)]
    have : (0 : ℚ) < 10 ^ (E : ℤ) := by positivity
    nlinarith [hx.2]

/-- C134: BigFloatToBigRat, which reads the text of BigFloatToString, has the result given for it in the model of C79; for all numbers a *big.Float can
hold (its exponent is an int32). -/
theorem c134_rat (lib : TextLib) (q : ℚ) (h : q = 0 ∨ ((10 : ℚ) ^ (-1000000000 : ℤ) ≤ |q| ∧ |q| ≤ 10 ^ (1000000000 : ℤ))) :
    bigFloatToBigRat (.fin q) = some (parseRatText lib (bigFloatToString (.fin q))) := by
  by_cases h0 : q = 0
  · subst h0
    have ht : bigFloatToString (.fin 0) = ['0'] := by
      simp only [bigFloatToString, roundSig, if_true, decimalOf]
      decide
    rw [ht]
    have hs : Scientific ['0'] 0 0 0 := ⟨[], ['0'], [], [], by decide, by decide, by decide, Or.inr ⟨rfl, rfl⟩, Or.inl ⟨rfl, rfl⟩, rfl, by decide⟩
    rw [parseRatText_sci lib hs (by decide)]
    simp [bigFloatToBigRat, roundSig]
  · have h := h.resolve_left h0
    obtain ⟨d, k, hx, h10, hl, hneg⟩ := ten_digits q h0
    have hd0 : d ≠ 0 := by rintro rfl; exact h10 (dvd_zero _)
    have hs : (if q < 0 then ['-'] else [] : List Char) = if decide (d < 0) = true then ['-'] else [] := by simp [hneg]
    have hval : ((if decide (d < 0) = true then -1 else 1 : ℤ)) * (d.natAbs : ℤ) = d := by
      by_cases h : d < 0
      · simp only [h, decide_true, if_true]; omega
      · simp only [h, decide_false, Bool.false_eq_true, if_false]; omega
    have hvalq : sgn (decide (d < 0)) * (d.natAbs : ℚ) = d := by
      have : ((((if decide (d < 0) = true then -1 else 1 : ℤ)) * (d.natAbs : ℤ) : ℤ) : ℚ) = d := by rw [hval]
      rw [← this]; unfold sgn; push_cast; split <;> simp
    have hdn : d.natAbs < 10 ^ 10 := by
      have : (d.natAbs : ℤ) < 10 ^ 10 := by rw [Int.natCast_natAbs]; exact hl
      exact_mod_cast this
    have hx0 : (d : ℚ) * 10 ^ k ≠ 0 := mul_ne_zero (by exact_mod_cast hd0) (by positivity)
    have hlog := sig10_log_bounds q 1000000000 h.1 h.2
    have hlp := lastPlace_near (roundSig 10 10 q)
    rw [hx, lastPlace_eq d k h10 hl] at hlp
    rw [hx] at hlog
    have hn1 : 0 < (natChars d.natAbs).length := natChars_length_pos _
    have hn2 : (natChars d.natAbs).length ≤ 10 := (natChars_length_le _ 10 (by omega)).mpr hdn
    simp only [bigFloatToBigRat, bigFloatToString, hx, decimalOf_eq d k h10 hl, hs, lastPlace_eq d k h10 hl, hx0, false_or]
    rcases fmtG_scientific (decide (d < 0)) d.natAbs k hdn with ⟨e, n, h, hk, he⟩ | ⟨hk, hlen, h⟩
    · rw [hval] at h
      rw [parseRatText_sci lib h (by rw [he]; constructor <;> simp [Kind.minV, Kind.maxV, Kind.signed, Kind.bits] <;> omega), if_neg hd0, hk]
      split <;> rfl
    · rw [← mul_assoc, hvalq] at h
      obtain ⟨m, n, h, hq, hn⟩ := scientific_of_decimal h
      rw [parseRatText_sci lib h (by decide), if_pos (by omega)]
      have hm0 : m ≠ 0 := by rintro rfl; apply hx0; rw [hq]; simp
      rw [if_neg hm0, if_pos (by omega), hq]

example : bigFloatToBigRat (.fin (3 / 2)) = some (some (3 / 2)) :=
  (c79_rat_iff _).2.mpr (Or.inr ⟨15, -1, by norm_num, by norm_num, by norm_num, by norm_num⟩)

/-- C134: BigRatToNormalizedString writes whole numbers exactly, however large, and all others as BigFloatToString writes the *big.Float of
BigRatToBigFloat: with ten significant digits. -/
theorem c134_normalized (q : ℚ) : (∀ i : ℤ, q = i → Spells true (bigRatToNormalizedString q) i) ∧
    (q.den ≠ 1 → ∃ x : ℚ, (∃ (m e : Int) (n : Nat), Scientific (bigRatToNormalizedString q) m e n ∧ x = (m : ℚ) * 10 ^ (e - n)) ∧ SigDigits 10 x) := by
  constructor
  · rintro i rfl
    unfold bigRatToNormalizedString
    rw [if_pos (by simp)]
    simp only [Rat.num_intCast]
    exact (scanInt_iff _ _).mp (by
      have := c95_bigInt_roundtrip i none
      unfold stringToBigInt bigIntToString at this
      split at this
      · rename_i v h; simp at this; rw [h, this]
      · simp at this)
  · intro h
    unfold bigRatToNormalizedString
    rw [if_neg h]
    obtain ⟨x, h1, h2, -⟩ := c134_bigFloat (bigRatToBigFloat q)
    exact ⟨x, h1, h2⟩

/-! ### FloatToString and back -/

theorem rne_of_close {x : ℚ} {m : ℤ} (h : |(m : ℚ) - x| < 1 / 2) : rne x = m := by
  have h1 := rne_near x m
  have h2 : |((rne x - m : ℤ) : ℚ)| < 1 := by
    push_cast
    have : (rne x : ℚ) - m = ((rne x : ℚ) - x) - (m - x) := by ring
    rw [this]
    have := abs_sub ((rne x : ℚ) - x) ((m : ℚ) - x)
    linarith
  have h3 : |rne x - m| < 1 := by exact_mod_cast h2
  have := abs_lt.mp h3
  omega

theorem rne_half (x : ℚ) : |(rne x : ℚ) - x| ≤ 1 / 2 := by
  have h1 := rne_near x ⌊x⌋
  have h2 := rne_near x (⌊x⌋ + 1)
  have h3 := Int.floor_le x
  have h4 := Int.lt_floor_add_one x
  rw [abs_of_nonpos (a := (⌊x⌋ : ℚ) - x) (by linarith)] at h1
  push_cast at h2
  rw [abs_of_nonneg (a := (⌊x⌋ : ℚ) + 1 - x) (by linarith)] at h2
  linarith

/-- Rounding to at least the precision of the format and finding a float is rounding to the nearest float. -/
theorem roundFloat_of_roundSig (f : Fmt) (p : ℕ) (hp : 1 ≤ f.prec) (hpp : f.prec ≤ p) (q : ℚ) (h : f.Has (roundSig 2 p q)) :
    roundFloat f q = roundSig 2 p q := by
  by_cases h0 : q = 0
  · simp [h0, roundFloat, roundSig]
  obtain ⟨m, e, hy, hm, he, -⟩ := h
  set L := Int.log 2 |q| with hL
  have hlow : (2 : ℚ) ^ L ≤ |roundSig 2 p q| := by
    have hlog := Int.zpow_log_le_self (b := 2) (by omega) (abs_pos.mpr h0)
    rw [← hL] at hlog
    push_cast at hlog
    have h1p : (1 : ℤ) < 2 ^ p := by
      have : (2 : ℤ) ^ 1 ≤ 2 ^ p := pow_le_pow_right₀ (by norm_num) (by omega)
      omega
    rcases lt_or_gt_of_ne h0 with hq | hq
    · have := roundSig_near (p := p) (by omega) q (-1) L (by simpa using h1p)
      rw [abs_of_neg hq] at hlog
      push_cast at this
      rw [abs_of_nonneg (a := -1 * (2 : ℚ) ^ L - q) (by linarith)] at this
      have := abs_le.mp this
      rw [abs_of_neg (by have : (0 : ℚ) < 2 ^ L := by positivity
                         linarith)]
      linarith
    · have := roundSig_near (p := p) (by omega) q 1 L (by simpa using h1p)
      rw [abs_of_pos hq] at hlog
      push_cast at this
      rw [abs_of_nonpos (a := 1 * (2 : ℚ) ^ L - q) (by linarith)] at this
      have := abs_le.mp this
      refine le_trans ?_ (le_abs_self _)
      linarith
  set E1 : ℤ := L - (p - 1) with hE1
  set E2 : ℤ := max (L - (f.prec - 1)) f.emin with hE2
  have hE12 : E1 ≤ E2 := by rw [hE1, hE2]; have := le_max_left (L - ((f.prec : ℤ) - 1)) f.emin; omega
  have hrs : roundSig 2 p q = rne (q / 2 ^ E1) * 2 ^ E1 := by
    unfold roundSig roundAt; rw [if_neg h0]; push_cast; rfl
  have hrf : roundFloat f q = rne (q / 2 ^ E2) * 2 ^ E2 := by
    unfold roundFloat roundAt; rw [if_neg h0]; push_cast; rfl
  rcases eq_or_lt_of_le hE12 with heq | hlt
  · rw [hrs, hrf, heq]
  · have he2 : E2 ≤ e := by
      by_contra hc
      push_neg at hc
      have hE2L : E2 = L - (f.prec - 1) := by
        rcases max_choice (L - ((f.prec : ℤ) - 1)) f.emin with h | h
        · exact h
        · rw [← hE2] at h; omega
      have h1 : |roundSig 2 p q| < 2 ^ L := by
        rw [hy, abs_mul, abs_of_pos (by positivity : (0 : ℚ) < 2 ^ e)]
        have hm' : |(m : ℚ)| < 2 ^ f.prec := by exact_mod_cast hm
        have h3 : (2 : ℚ) ^ f.prec * 2 ^ e ≤ 2 ^ L := by
          rw [← zpow_natCast, ← zpow_add₀ (by norm_num)]
          exact zpow_le_zpow_right₀ (by norm_num) (by omega)
        have h4 : (0 : ℚ) < 2 ^ e := by positivity
        nlinarith
      linarith
    have hp2 : (0 : ℚ) < 2 ^ E2 := by positivity
    obtain ⟨j, hj⟩ : ∃ j : ℕ, e = E2 + j := ⟨(e - E2).toNat, by omega⟩
    have hyM : roundSig 2 p q = ((m * 2 ^ j : ℤ) : ℚ) * 2 ^ E2 := by
      rw [hy, hj, zpow_add₀ (by norm_num), zpow_natCast]; push_cast; ring
    rw [hrf, hyM]
    congr 2
    apply rne_of_close
    have hd : |roundSig 2 p q - q| ≤ 1 / 2 * 2 ^ E1 := by
      have := rne_half (q / 2 ^ E1)
      have hp1 : (0 : ℚ) < 2 ^ E1 := by positivity
      have e3 : roundSig 2 p q - q = (rne (q / 2 ^ E1) - q / 2 ^ E1) * 2 ^ E1 := by
        rw [hrs, sub_mul, div_mul_cancel₀ _ hp1.ne']
      rw [e3, abs_mul, abs_of_pos hp1]
      exact mul_le_mul_of_nonneg_right this hp1.le
    have e4 : ((m * 2 ^ j : ℤ) : ℚ) - q / 2 ^ E2 = (roundSig 2 p q - q) / 2 ^ E2 := by
      rw [hyM, sub_div, mul_div_cancel_right₀ _ hp2.ne']
    rw [e4, abs_div, abs_of_pos hp2, div_lt_iff₀ hp2]
    refine lt_of_le_of_lt hd ?_
    have : (2 : ℚ) ^ E1 < 2 ^ E2 := zpow_lt_zpow_right₀ (by norm_num) hlt
    linarith

theorem floatToString_decimal {f : Fmt} (sd : ShortestDigits f) (q : ℚ) (hq : f.Has q) :
    ∃ v, Decimal (floatToString sd (.fin q)) v ∧ roundFloat f v = q := by
  by_cases h0 : q = 0
  · subst h0
    refine ⟨0, ⟨[], ['0'], [], by decide, by decide, by decide, Or.inr ⟨rfl, ?_⟩, by simp [digitsVal, digitVal]⟩, by simp [roundFloat]⟩
    simp only [floatToString, abs_zero, sd.zero]
    decide
  · have h := fmtF_decimal (decide (q < 0)) (sd.digits |q|).mant (sd.isDigits _) (sd.nonempty q hq h0) ((sd.digits |q|).exp - (sd.digits |q|).mant.length)
    refine ⟨_, ?_, sd.identify q hq h0⟩
    have e1 : ((sd.digits |q|).mant.length : ℤ) + ((sd.digits |q|).exp - (sd.digits |q|).mant.length) = (sd.digits |q|).exp := by ring
    have e2 : -((sd.digits |q|).exp - ((sd.digits |q|).mant.length : ℤ)) = (sd.digits |q|).mant.length - (sd.digits |q|).exp := by ring
    rw [e1, e2] at h
    have e3 : sgn (decide (q < 0)) = if q < 0 then -1 else 1 := by unfold sgn; by_cases h : q < 0 <;> simp [h]
    rw [e3] at h
    have e4 : (if decide (q < 0) = true then ['-'] else [] : List Char) = if q < 0 then ['-'] else [] := by by_cases h : q < 0 <;> simp [h]
    rw [e4] at h
    exact h

/-- C134, partial: StringToFloat32/64 of the text FloatToString wrote for a float of the type is that float, or an error (which it can be, c96_float64_refuted): never another
float. -/
theorem c134_float_partial (lib : TextLib) (f : Fmt) (hf : IsGo f) (sd : ShortestDigits f) (q : ℚ) (hq : f.Has q) (cur : Flt) :
    (stringToFloat lib f (floatToString sd (.fin q)) cur).failed = true ∨ stringToFloat lib f (floatToString sd (.fin q)) cur = ⟨.fin q, false⟩ := by
  obtain ⟨v, hv, hr⟩ := floatToString_decimal sd q hq
  have hpp : f.prec ≤ 53 := by rcases hf with rfl | rfl <;> decide
  have hacc := (c96_accepts_iff lib f hf _ v cur (Or.inl hv)).1
  by_cases hhas : f.Has (roundSig 2 (textBits (floatToString sd (.fin q))) v)
  · right
    have e := roundFloat_of_roundSig f (textBits (floatToString sd (.fin q))) (by have := hf.facts; omega) (le_trans hpp (le_max_left _ _)) v hhas
    rw [stringToFloat_number lib f cur (Or.inl hv)]
    have := ((c81_big f hf _ 0).1 hhas).1
    rw [← e, hr] at this
    change bigFloatToFloat f (.fin (roundSig 2 (textBits (floatToString sd (.fin q))) v)) = _
    rw [← e, hr]
    exact this
  · left
    by_contra hc
    exact hhas (hacc.mp (by simpa using hc))

/-- C134: a float64 whose text has at most 15 characters is read back. -/
theorem c134_short (lib : TextLib) (sd : ShortestDigits float64) (q : ℚ) (hq : float64.Has q) (cur : Flt)
    (hl : (floatToString sd (.fin q)).length ≤ 15) : stringToFloat lib float64 (floatToString sd (.fin q)) cur = ⟨.fin q, false⟩ := by
  obtain ⟨v, hv, hr⟩ := floatToString_decimal sd q hq
  rw [(c96_short_partial lib _ v cur (Or.inl hv) hl).1, hr]

/-- C134: NaN and the infinities are read back. -/
theorem c134_special (lib : TextLib) (f : Fmt) (sd : ShortestDigits f) (cur : Flt) (x : Flt) (hx : ∀ q, x ≠ .fin q) :
    stringToFloat lib f (floatToString sd x) cur = ⟨x, false⟩ ∧ (x ≠ .nan → stringToBigFloat lib (bigFloatToString x) none = ⟨some x, false⟩) := by
  have h := c96_special lib f cur
  rcases x with _ | (_ | _) | q
  · exact ⟨h.1, fun hn => absurd rfl hn⟩
  · refine ⟨h.2.1, fun _ => ?_⟩
    unfold stringToBigFloat parseFloatText bigFloatToString
    rw [if_pos (by decide)]
  · refine ⟨h.2.2, fun _ => ?_⟩
    unfold stringToBigFloat parseFloatText bigFloatToString
    rw [if_neg (by decide), if_pos (by decide)]
  · exact absurd rfl (hx q)

theorem natChars_head (n : ℕ) (h : 0 < n) : (natChars n).head? ≠ some '0' := by
  intro hh
  have hc := natChars_canonical n
  unfold canonical at hc
  rw [decide_eq_true_iff] at hc
  have hl := hc.2.2 hh
  obtain ⟨c, hcs⟩ := List.length_eq_one_iff.mp hl
  rw [hcs] at hh
  simp at hh
  have := digitsVal_natChars n
  rw [hcs, hh] at this
  simp [digitsVal, digitVal] at this
  omega

/-- Digits as the theorems take them exist: the exact expansions of the floats (not the shortest ones). -/
def exactDigits (f : Fmt) : ShortestDigits f where
  digits q := if q = 0 then ⟨[], 0⟩ else
    let ds := natChars (q.num.natAbs * 5 ^ Nat.log 2 q.den)
    ⟨ds, ds.length - Nat.log 2 q.den⟩
  isDigits q := by
    split
    · simp
    · exact natChars_digits _
  leading q := by
    split
    · simp
    · rename_i h0
      refine natChars_head _ (Nat.mul_pos ?_ (by positivity))
      exact Int.natAbs_pos.mpr (Rat.num_ne_zero.mpr h0)
  zero := by simp
  nonempty q _ h0 := by
    rw [if_neg (by simpa using h0)]
    exact natChars_ne_nil _
  identify q hq h0 := by
    have hden : ∃ j, q.den = 2 ^ j := by
      obtain ⟨m, e, h, -⟩ := hq
      rcases le_or_gt 0 e with he | he
      · obtain ⟨j, rfl⟩ : ∃ j : ℕ, e = j := ⟨e.toNat, by omega⟩
        refine ⟨0, ?_⟩
        rw [h, zpow_natCast, show (m : ℚ) * 2 ^ j = ((m * 2 ^ j : ℤ) : ℚ) by push_cast; rfl]
        exact Rat.den_intCast _
      · obtain ⟨j, rfl⟩ : ∃ j : ℕ, e = -j := ⟨(-e).toNat, by omega⟩
        rw [zpow_neg, zpow_natCast, ← div_eq_mul_inv] at h
        have : (q.den : ℤ) ∣ 2 ^ j := by
          have := Rat.den_dvd m (2 ^ j)
          rw [Rat.divInt_eq_div] at this
          push_cast at this
          rw [h]; exact this
        have : q.den ∣ 2 ^ j := by exact_mod_cast this
        obtain ⟨i, -, hi⟩ := (Nat.dvd_prime_pow Nat.prime_two).mp this
        exact ⟨i, hi⟩
    obtain ⟨j, hj⟩ := hden
    have habs : |q|.den = 2 ^ j ∧ |q|.num.natAbs = q.num.natAbs := by
      rcases abs_choice q with h | h <;> rw [h] <;> simp [hj]
    rw [if_neg (show ¬ |q| = 0 by simpa using h0)]
    simp only [habs.1, habs.2, digitsVal_natChars, Nat.log_pow (by omega : 1 < 2)]
    have e : (if q < 0 then (-1 : ℚ) else 1) * ((q.num.natAbs * 5 ^ j : ℕ) * 10 ^ (((natChars (q.num.natAbs * 5 ^ j)).length : ℤ) - j - (natChars (q.num.natAbs * 5 ^ j)).length)) = q := by
      rw [show ((natChars (q.num.natAbs * 5 ^ j)).length : ℤ) - j - (natChars (q.num.natAbs * 5 ^ j)).length = -(j : ℤ) by ring, zpow_neg, zpow_natCast]
      have h10 : ((10 : ℚ) ^ j) = 2 ^ j * 5 ^ j := by rw [← mul_pow]; norm_num
      have hq' : q = q.num / 2 ^ j := by
        have := Rat.num_div_den q
        rw [hj] at this; push_cast at this; exact this.symm
      have hsn : (if q < 0 then (-1 : ℚ) else 1) * (q.num.natAbs : ℚ) = q.num := by
        have h1 : (q.num.natAbs : ℚ) = |(q.num : ℚ)| := by rw [Nat.cast_natAbs]; push_cast; rfl
        rw [h1]
        split
        · rename_i h
          have : (q.num : ℚ) < 0 := by exact_mod_cast Rat.num_neg.mpr h
          rw [abs_of_neg this]; ring
        · rename_i h
          have : (0 : ℚ) ≤ q.num := by exact_mod_cast Rat.num_nonneg.mpr (not_lt.mp h)
          rw [abs_of_nonneg this]; ring
      rw [h10]
      push_cast
      have h5 : (5 : ℚ) ^ j ≠ 0 := by positivity
      have h2 : (2 : ℚ) ^ j ≠ 0 := by positivity
      calc (if q < 0 then (-1 : ℚ) else 1) * ((q.num.natAbs : ℚ) * 5 ^ j * (2 ^ j * 5 ^ j)⁻¹)
          = ((if q < 0 then (-1 : ℚ) else 1) * (q.num.natAbs : ℚ)) / 2 ^ j := by field_simp
        _ = q := by rw [hsn]; exact hq'.symm
    rw [e]
    exact roundFloat_exact hq

example : floatToString (exactDigits float64) (.fin (-5 / 4)) = "-1.25".toList := by
  have h : |(-5 / 4 : ℚ)| = 5 / 4 := by norm_num
  have h1 : ((5 / 4 : ℚ)).num = 5 ∧ ((5 / 4 : ℚ)).den = 4 := by
    constructor
    · have := Rat.num_div_eq_of_coprime (a := 5) (b := 4) (by decide) (by decide)
      rw [show ((5 : ℚ) / 4) = ((5 : ℤ) : ℚ) / ((4 : ℤ) : ℚ) by norm_num]; exact this
    · have := Rat.den_div_eq_of_coprime (a := 5) (b := 4) (by decide) (by decide)
      rw [show ((5 : ℚ) / 4) = ((5 : ℤ) : ℚ) / ((4 : ℤ) : ℚ) by norm_num]; exact_mod_cast this
  have h3 : natChars 125 = ['1', '2', '5'] := by
    rw [natChars, if_neg (by omega), natChars, if_neg (by omega), natChars, if_pos (by omega)]; rfl
  have h4 : Nat.log 2 4 = 2 := by decide
  simp only [floatToString, exactDigits, h, h1.1, h1.2, h4]
  rw [if_pos (by norm_num), if_neg (by norm_num)]
  simp only [show (5 : ℤ).natAbs * 5 ^ 2 = 125 from rfl, h3]
  decide

end Micro.Conv
