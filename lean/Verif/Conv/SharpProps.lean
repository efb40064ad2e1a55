import Verif.Conv.FloatProps
import Verif.Conv.TextProps
set_option linter.unusedSimpArgs false
/-
C78, C79, C81, C96: the numbers left out of the partial theorems are exactly those that the code changes.
-/
namespace Micro.Conv
open Micro

theorem roundSig_fixed {b : ℕ} (hb : 1 < b) {n : ℕ} (hn : 1 ≤ n) (q : ℚ) :
    roundSig b n q = q ↔ ∃ m e : ℤ, q = m * (b : ℚ) ^ e ∧ |m| < (b : ℤ) ^ n := by
  constructor
  · intro h
    by_cases h0 : q = 0
    · exact ⟨0, 0, by simp [h0], by simp only [abs_zero]; positivity⟩
    · unfold roundSig roundAt at h
      rw [if_neg h0] at h
      refine ⟨_, _, h.symm, ?_⟩
      set e : ℤ := Int.log b |q| - (n - 1) with he
      generalize rne (q / (b : ℚ) ^ e) = m at h
      have hp := pow_pos_base hb e
      have hlt := Int.lt_zpow_succ_log_self hb |q|
      have hq : |q| = |(m : ℚ)| * (b : ℚ) ^ e := by rw [← h, abs_mul, abs_of_pos hp]
      have e1 : Int.log b |q| + 1 = n + e := by rw [he]; ring
      have hb0 : (b : ℚ) ≠ 0 := by positivity
      rw [e1, zpow_add₀ hb0, hq] at hlt
      have := lt_of_mul_lt_mul_right hlt hp.le
      rw [zpow_natCast] at this
      exact_mod_cast this
  · rintro ⟨m, e, rfl, hm⟩
    exact roundSig_exact hb hm

/-- A number rounded to n significant digits has n significant digits. -/
theorem roundSig_sig {b : ℕ} (hb : 1 < b) {n : ℕ} (hn : 1 ≤ n) (q : ℚ) :
    ∃ m e : ℤ, roundSig b n q = m * (b : ℚ) ^ e ∧ |m| < (b : ℤ) ^ n := by
  by_cases h0 : q = 0
  · exact ⟨0, 0, by simp [roundSig, h0], by simp only [abs_zero]; positivity⟩
  unfold roundSig
  rw [if_neg h0]
  set e : ℤ := Int.log b |q| - ((n : ℕ) - 1) with he
  have hp := pow_pos_base hb e
  have hlt := Int.lt_zpow_succ_log_self hb |q|
  have e1 : Int.log b |q| + 1 = (n : ℕ) + e := by rw [he]; ring
  have hb0 : (b : ℚ) ≠ 0 := by positivity
  rw [e1, zpow_add₀ hb0] at hlt
  have hx : |q / (b : ℕ) ^ e| ≤ (b : ℚ) ^ n := by
    rw [abs_div, abs_of_pos hp, div_le_iff₀ hp]
    exact_mod_cast hlt.le
  have hx' := abs_le.1 hx
  have u := rne_mono_int (q / (b : ℕ) ^ e) (b ^ n) (by exact_mod_cast hx'.2)
  have l := rne_mono_int' (q / (b : ℕ) ^ e) (-(b ^ n)) (by push_cast; exact hx'.1)
  unfold roundAt
  generalize rne (q / (b : ℕ) ^ e) = m at u l
  by_cases hm : |m| < (b : ℤ) ^ n
  · exact ⟨m, e, by push_cast; ring, hm⟩
  · have hpos : (0 : ℤ) < (b : ℤ) ^ n := by positivity
    have : m = b ^ n ∨ m = -(b ^ n) := by
      rcases abs_cases m with ⟨h, _⟩ | ⟨h, _⟩ <;> omega
    have hlt : (b : ℤ) ^ (n - 1) < (b : ℤ) ^ n := pow_lt_pow_right₀ (by exact_mod_cast hb) (by omega)
    have hz : (b : ℚ) ^ n * (b : ℚ) ^ e = (b : ℚ) ^ (n - 1) * (b : ℚ) ^ (e + 1) := by
      rw [zpow_add₀ hb0, zpow_one, mul_comm ((b : ℚ) ^ e) (b : ℚ), ← mul_assoc, ← pow_succ, Nat.sub_add_cancel hn]
    have ha : |(b : ℤ) ^ (n - 1)| = (b : ℤ) ^ (n - 1) := abs_of_nonneg (by positivity)
    rcases this with rfl | rfl
    · refine ⟨b ^ (n - 1), e + 1, ?_, by rw [ha]; exact hlt⟩
      push_cast; exact hz
    · refine ⟨-(b ^ (n - 1)), e + 1, ?_, by rw [abs_neg, ha]; exact hlt⟩
      push_cast; rw [neg_mul, neg_mul, hz]

theorem roundSig10_iff (q : ℚ) : roundSig 10 10 q = q ↔ SigDigits 10 q := by
  rw [roundSig_fixed (by omega) (by omega)]; unfold SigDigits; norm_num

/-- C79: FloatToBigRat keeps a number exactly if it has at most ten significant digits; BigFloatToBigRat, if in addition the last of them is at
most 10^6 places away from the point. -/
theorem c79_rat_iff (q : ℚ) :
    (floatToBigRat (.fin q) = some q ↔ SigDigits 10 q) ∧
    (bigFloatToBigRat (.fin q) = some (some q) ↔
      q = 0 ∨ ∃ d k : ℤ, q = d * 10 ^ k ∧ |d| < 10 ^ 10 ∧ ¬ (10 : ℤ) ∣ d ∧ k.natAbs ≤ 1000000) := by
  constructor
  · simp [floatToBigRat, roundSig10_iff]
  · constructor
    · intro h
      simp only [bigFloatToBigRat] at h
      split at h
      · rename_i hc
        simp only [Option.some.injEq] at h
        rw [h] at hc
        by_cases h0 : q = 0
        · exact Or.inl h0
        · right
          obtain ⟨m, e, hq, hm⟩ := (roundSig10_iff q).mp h
          have hm0 : m ≠ 0 := by rintro rfl; simp at hq; exact h0 hq
          obtain ⟨d, k, h1, h2, h3⟩ := last_digit m e hm0
          have hd : |d| < 10 ^ 10 := lt_of_le_of_lt h2 hm
          refine ⟨d, k, hq.trans h3, hd, h1, ?_⟩
          have := hc.resolve_left h0
          rwa [hq, h3, lastPlace_eq d k h1 hd] at this
      · simp at h
    · rintro (rfl | ⟨d, k, rfl, hd, h1, hk⟩)
      · simp [bigFloatToBigRat, roundSig]
      · rw [c79_far_refuted d k h1 hd, if_pos hk]

example : SigDigits 10 (1 / 8) ∧ ¬ SigDigits 10 12345678901 := by
  refine ⟨⟨125, -3, by norm_num, by norm_num⟩, ?_⟩
  rw [← roundSig10_iff, sig10_log]; norm_num

/-- C79: UintToBigFloat keeps a value of an unsigned type exactly if it has at most 53 significant bits. -/
theorem c79_uint_iff (k : Kind) (i : Int) (hk : k.signed = false) (hi : k.InRange i) : uintToBigFloat k i = i ↔ SigBits 53 i := by
  have hw : Kind.uint64.wrap i = i := Kind.wrap_of_inRange (by cases k <;> simp [Kind.signed] at hk <;> kind_norm <;> omega)
  unfold uintToBigFloat
  rw [hw, roundSig_fixed (by omega) (by omega)]
  unfold SigBits
  norm_num

example : SigBits 53 ((18446744073709549568 : Int) : ℚ) ∧ Kind.uint64.InRange 18446744073709549568 :=
  ⟨⟨9007199254740991, 11, by norm_num, by norm_num⟩, by decide⟩

/-- C79: BigRatToBigFloat changes every *big.Rat that is no binary fraction, and never reports it: it has no error result. -/
theorem c79_ratFloat_dyadic (q : ℚ) : Dyadic (bigRatToBigFloat q) ∧ (¬ Dyadic q → bigRatToBigFloat q ≠ q) := by
  suffices h : Dyadic (bigRatToBigFloat q) from ⟨h, fun hn he => hn (he ▸ h)⟩
  unfold bigRatToBigFloat
  simp only
  unfold roundSig
  split
  · exact ⟨0, 0, by simp⟩
  · unfold roundAt
    exact ⟨_, _, rfl⟩

example : ¬ Dyadic (1 / 3) := by
  rintro ⟨m, e, h⟩
  have h3 : (2 : ℚ) ^ (-e) = 3 * m := by
    rw [zpow_neg]; field_simp; linarith
  rcases le_or_gt 0 (-e) with he | he
  · obtain ⟨n, hn⟩ := Int.eq_ofNat_of_zero_le he
    rw [hn] at h3
    have h3' : ((2 : ℤ) ^ n) = 3 * m := by
      simp only [zpow_natCast] at h3
      exact_mod_cast h3
    have : ∀ n : ℕ, (2 : ℤ) ^ n % 3 ≠ 0 := by
      intro n
      induction n with
      | zero => decide
      | succ n ih => rw [pow_succ]; omega
    have := this n
    omega
  · have h1 : (2 : ℚ) ^ (-e) < 1 := zpow_lt_one_of_neg₀ (by norm_num) he
    have h2 : (0 : ℚ) < (2 : ℚ) ^ (-e) := by positivity
    rw [h3] at h1 h2
    have h1' : 3 * m < 1 := by exact_mod_cast h1
    have h2' : 0 < 3 * m := by exact_mod_cast h2
    omega

/-! ### C78 -/

/-- Nothing of ten significant digits is nearer to q than q rounded to ten significant digits. -/
theorem roundSig_near10 (q : ℚ) (n e : ℤ) (hn : |n| < 10 ^ 10) : |roundSig 10 10 q - q| ≤ |(n : ℚ) * 10 ^ e - q| := by
  by_cases h0 : q = 0
  · simp [roundSig, h0]; positivity
  unfold roundSig
  rw [if_neg h0]
  have hb : (1 : ℕ) < 10 := by omega
  set E : ℤ := Int.log 10 |q| - ((10 : ℕ) - 1) with hE
  rcases le_or_gt E e with he | he
  · obtain ⟨m, hm⟩ : ∃ m : ℤ, (n : ℚ) * ((10 : ℕ) : ℚ) ^ e = m * ((10 : ℕ) : ℚ) ^ E := by
      obtain ⟨d, hd⟩ := Int.eq_ofNat_of_zero_le (sub_nonneg.2 he)
      refine ⟨n * 10 ^ d, ?_⟩
      have : e = d + E := by omega
      rw [this, zpow_add₀ (by norm_num), zpow_natCast]; push_cast; ring
    have := roundAt_near hb E q m
    rw [← hm] at this
    exact_mod_cast this
  · have hp := pow_pos_base hb E
    have hlog := Int.zpow_log_le_self hb (abs_pos.2 h0)
    have e1 : Int.log 10 |q| = (9 : ℕ) + E := by rw [hE]; push_cast; ring
    rw [e1, zpow_add₀ (by norm_num), zpow_natCast] at hlog
    have hc : |(n : ℚ) * 10 ^ e| ≤ 10 ^ 9 * 10 ^ E := by
      rw [abs_mul, abs_of_pos (by positivity : (0 : ℚ) < 10 ^ e)]
      have h1 : |(n : ℚ)| ≤ 10 ^ 10 := by exact_mod_cast hn.le
      have h2 : (10 : ℚ) ^ e ≤ 10 ^ (E - 1) := zpow_le_zpow_right₀ (by norm_num) (by omega)
      have h3 : (10 : ℚ) ^ 9 * 10 ^ E = 10 ^ 10 * 10 ^ (E - 1) := by
        clear_value E
        rw [zpow_sub₀ (by norm_num)]; ring
      rw [h3]
      exact mul_le_mul h1 h2 (by positivity) (by norm_num)
    have hlog' : (10 : ℚ) ^ 9 * 10 ^ E ≤ |q| := by exact_mod_cast hlog
    rcases lt_or_gt_of_ne h0 with hq | hq
    · have := roundAt_near hb E q (-(10 ^ 9))
      refine this.trans ?_
      push_cast
      rw [abs_of_neg hq] at hlog'
      have hc' := abs_le.1 hc
      generalize (10 : ℚ) ^ E = z at *
      rw [abs_of_nonneg (by linarith), abs_of_nonneg (by linarith)]
      linarith
    · have := roundAt_near hb E q (10 ^ 9)
      refine this.trans ?_
      push_cast
      rw [abs_of_pos hq] at hlog'
      have hc' := abs_le.1 hc
      generalize (10 : ℚ) ^ E = z at *
      rw [abs_of_nonpos (by linarith), abs_of_nonpos (by linarith)]
      linarith

/-- C79: BigFloatToBigRat rounds every number between 10^-999000 and 10^999000 to ten digits. -/
theorem c79_moderate (q : ℚ) (E : ℕ) (hE : E ≤ 999000) (h1 : (10 : ℚ) ^ (-E : ℤ) ≤ |q|) (h2 : |q| ≤ 10 ^ (E : ℤ)) :
    bigFloatToBigRat (.fin q) = some (some (roundSig 10 10 q)) := by
  have hz : (0 : ℚ) < 10 ^ (-E : ℤ) := by positivity
  have hx : (10 : ℚ) ^ (-E : ℤ) ≤ |roundSig 10 10 q| ∧ |roundSig 10 10 q| ≤ 2 * |q| := by
    rcases le_total 0 q with hq | hq
    · rw [abs_of_nonneg hq] at h1 ⊢
      have := roundSig_near10 q 1 (-E) (by norm_num)
      have h3 : |((1 : ℤ) : ℚ) * 10 ^ (-E : ℤ) - q| = q - 10 ^ (-E : ℤ) := by
        rw [abs_of_nonpos (by push_cast; linarith)]; push_cast; ring
      rw [h3] at this
      obtain ⟨ha, hb⟩ := abs_le.mp this
      rw [abs_of_nonneg (by linarith)]
      exact ⟨by linarith, by linarith⟩
    · rw [abs_of_nonpos hq] at h1 ⊢
      have := roundSig_near10 q (-1) (-E) (by norm_num)
      have h3 : |((-1 : ℤ) : ℚ) * 10 ^ (-E : ℤ) - q| = -q - 10 ^ (-E : ℤ) := by
        rw [abs_of_nonneg (by push_cast; linarith)]; push_cast; ring
      rw [h3] at this
      obtain ⟨ha, hb⟩ := abs_le.mp this
      rw [abs_of_nonpos (by linarith)]
      exact ⟨by linarith, by linarith⟩
  set x := roundSig 10 10 q with hxd
  have hx0 : 0 < |x| := lt_of_lt_of_le hz hx.1
  have hl1 : (-E : ℤ) ≤ Int.log 10 |x| := by
    rw [← Int.zpow_le_iff_le_log (b := 10) (by omega) hx0]; exact_mod_cast hx.1
  have hl2 : Int.log 10 |x| < E + 1 := by
    rw [← Int.lt_zpow_iff_log_lt (b := 10) (by omega) hx0]
    push_cast
    rw [zpow_add₀ (by norm_num)]
    have : (0 : ℚ) < 10 ^ (E : ℤ) := by positivity
    rw [zpow_one]
    nlinarith [hx.2]
  have hlp := lastPlace_near x
  simp only [bigFloatToBigRat]
  rw [← hxd, if_pos (Or.inr (by omega))]

example := c79_moderate 12345678901 11 (by decide) (by norm_num) (by norm_num)

/-- C79: no float64 (so no float32 either) reaches the numbers BigFloatToBigRat turns into nil. -/
theorem c79_float64_rat (q : ℚ) (h : float64.Has q) :
    bigFloatToBigRat (.fin q) = (floatToBigRat (.fin q)).map some := by
  show _ = some (some (roundSig 10 10 q))
  by_cases h0 : q = 0
  · subst h0; simp [bigFloatToBigRat, roundSig]
  obtain ⟨m, e, hq, hm, he1, he2⟩ := h
  have hm0 : m ≠ 0 := by rintro rfl; simp at hq; exact h0 hq
  have hm1 : (1 : ℚ) ≤ |(m : ℚ)| := by
    rw [← Int.cast_abs]; exact_mod_cast Int.one_le_abs hm0
  have hm2 : |(m : ℚ)| < 2 ^ 53 := by
    rw [← Int.cast_abs]; exact_mod_cast hm
  have hz : (0 : ℚ) < 2 ^ e := by positivity
  have he1' : (2 : ℚ) ^ (-1074 : ℤ) ≤ 2 ^ e := zpow_le_zpow_right₀ (by norm_num) he1
  have he2' : (2 : ℚ) ^ e ≤ 2 ^ (971 : ℤ) := zpow_le_zpow_right₀ (by norm_num) he2
  have habs : |q| = |(m : ℚ)| * 2 ^ e := by rw [hq, abs_mul, abs_of_pos hz]
  have h400 : (2 : ℚ) ^ 1200 ≤ 10 ^ 400 := by
    have h1 : (2 : ℚ) ^ 1200 = (2 ^ 3) ^ 400 := by rw [← pow_mul]
    rw [h1]
    exact pow_le_pow_left₀ (by norm_num) (by norm_num) 400
  refine c79_moderate q 400 (by omega) ?_ ?_
  · rw [habs]
    have : (10 : ℚ) ^ (-((400 : ℕ) : ℤ)) ≤ 2 ^ (-1074 : ℤ) := by
      have h2 : (2 : ℚ) ^ (-1074 : ℤ) = ((2 : ℚ) ^ 1074)⁻¹ := by rw [zpow_neg]; rfl
      rw [h2, zpow_neg, zpow_natCast]
      exact inv_anti₀ (by positivity) (le_trans (pow_le_pow_right₀ (by norm_num) (by norm_num)) h400)
    nlinarith
  · rw [habs]
    have : (2 : ℚ) ^ 53 * 2 ^ (971 : ℤ) ≤ 10 ^ ((400 : ℕ) : ℤ) := by
      have h2 : (2 : ℚ) ^ (971 : ℤ) = (2 : ℚ) ^ 971 := rfl
      rw [h2, ← pow_add, zpow_natCast]
      exact le_trans (pow_le_pow_right₀ (by norm_num) (by norm_num)) h400
    calc _ ≤ (2 : ℚ) ^ 53 * 2 ^ (971 : ℤ) := mul_le_mul hm2.le he2' hz.le (by positivity)
      _ ≤ _ := this

example : float64.Has (1 / 8) := ⟨1, -3, by norm_num, by norm_num [float64], by norm_num [float64], by norm_num [float64]⟩

/-- The number with at most ten significant digits nearest to q, as decimal text of a *big.Float gives it. -/
theorem sig10_idem (q : ℚ) : SigDigits 10 (roundSig 10 10 q) := by
  obtain ⟨m, e, h, hm⟩ := roundSig_sig (b := 10) (by omega) (n := 10) (by omega) q
  exact ⟨m, e, by exact_mod_cast h, by exact_mod_cast hm⟩

theorem floatToInt_round (k : Kind) (q : ℚ) (cur : Int) : floatToInt k (.fin q) cur = floatToInt k (.fin (roundSig 10 10 q)) cur ∧
    floatToUint k (.fin q) cur = floatToUint k (.fin (roundSig 10 10 q)) cur := by
  simp only [floatToInt, floatToUint, floatToBigRat, roundSig10 (sig10_idem q)]
  exact ⟨trivial, trivial⟩

/-- C78: FloatToInt gives an integer of the type exactly if it has at most ten significant digits; any other one becomes another integer
or an error. -/
theorem c78_int_iff (k : Kind) (hk : k.signed = true) (i cur : Int) (hi : k.InRange i) :
    floatToInt k (.fin i) cur = ⟨i, false⟩ ↔ SigDigits 10 i := by
  refine ⟨?_, fun h => (c78_int_partial k hk i cur h).1 i rfl hi⟩
  intro h
  rw [(floatToInt_round k i cur).1] at h
  have hs := sig10_idem i
  by_cases hex : ∃ j : ℤ, roundSig 10 10 (i : ℚ) = j ∧ k.InRange j
  · obtain ⟨j, hj, hr⟩ := hex
    rw [(c78_int_partial k hk _ cur hs).1 j hj hr] at h
    simp only [Res.mk.injEq, and_true] at h
    rw [hj, h] at hs
    exact hs
  · rw [(c78_int_partial k hk _ cur hs).2 hex] at h
    simp at h

example := c78_int_iff .int64 rfl 12345678901 0 (by decide)

/-- C78: the same for FloatToUint. -/
theorem c78_uint_iff (k : Kind) (hk : k.signed = false) (i cur : Int) (hi : k.InRange i) :
    floatToUint k (.fin i) cur = ⟨i, false⟩ ↔ SigDigits 10 i := by
  refine ⟨?_, fun h => (c78_uint_partial k hk i cur h).1 i rfl hi⟩
  intro h
  rw [(floatToInt_round k i cur).2] at h
  have hs := sig10_idem i
  by_cases hex : ∃ j : ℤ, roundSig 10 10 (i : ℚ) = j ∧ k.InRange j
  · obtain ⟨j, hj, hr⟩ := hex
    rw [(c78_uint_partial k hk _ cur hs).1 j hj hr] at h
    simp only [Res.mk.injEq, and_true] at h
    rw [hj, h] at hs
    exact hs
  · rw [(c78_uint_partial k hk _ cur hs).2 hex] at h
    simp at h

example : Kind.int64.InRange 12345678901 ∧ Kind.uint32.InRange 4294967295 := by decide

/-- C78: for a number that is no integer of the type, FloatToInt and FloatToUint report the error, and leave the target alone, exactly if the
nearest number with ten significant digits is no integer of the type either. -/
theorem c78_error_iff (k : Kind) (q : ℚ) (cur : Int) :
    (k.signed = true → ((floatToInt k (.fin q) cur).failed = true ↔ ¬ ∃ j : ℤ, roundSig 10 10 q = j ∧ k.InRange j)) ∧
    (k.signed = false → ((floatToUint k (.fin q) cur).failed = true ↔ ¬ ∃ j : ℤ, roundSig 10 10 q = j ∧ k.InRange j)) ∧
    (∀ n e : ℤ, |n| < 10 ^ 10 → |roundSig 10 10 q - q| ≤ |(n : ℚ) * 10 ^ e - q|) := by
  have hs := sig10_idem q
  refine ⟨fun hk => ?_, fun hk => ?_, ?_⟩
  · rw [(floatToInt_round k q cur).1]
    constructor
    · rintro h ⟨j, hj, hr⟩
      rw [(c78_int_partial k hk _ cur hs).1 j hj hr] at h
      simp at h
    · intro h; rw [(c78_int_partial k hk _ cur hs).2 h]
  · rw [(floatToInt_round k q cur).2]
    constructor
    · rintro h ⟨j, hj, hr⟩
      rw [(c78_uint_partial k hk _ cur hs).1 j hj hr] at h
      simp at h
    · intro h; rw [(c78_uint_partial k hk _ cur hs).2 h]
  · intro n e hn
    exact roundSig_near10 q n e hn

/-! ### C81 -/

/-- C81: To from *big.Int to float32, for every integer: an error, with the target left alone, exactly if the integer is no float64 or lies beyond
the range of float32; otherwise a nearest float32, and so another number, without an error, for every float64 that is no float32. -/
theorem c81_to_exact (i : Int) (cur : Flt) :
    (float64.Has i ∧ |(i : ℚ)| ≤ float32.max → ∃ r, bigIntToFloat32Entry i cur = ⟨.fin r, false⟩ ∧ float32.Nearest i r) ∧
    (¬ (float64.Has i ∧ |(i : ℚ)| ≤ float32.max) → bigIntToFloat32Entry i cur = ⟨cur, true⟩) ∧
    (bigIntToFloat32Entry i cur = ⟨.fin i, false⟩ ↔ float32.Has i) := by
  have hsmall : (i : ℚ) = 0 ∨ float32.smallest ≤ |(i : ℚ)| := by
    by_cases h0 : i = 0
    · left; simp [h0]
    · right
      have h1 : float32.smallest ≤ 1 := zpow_le_one_of_nonpos₀ (by norm_num) (by simp [float32])
      have h2 : (1 : ℚ) ≤ |(i : ℚ)| := by
        have : (1 : ℤ) ≤ |i| := Int.one_le_abs h0
        exact_mod_cast this
      exact h1.trans h2
  have hA : float64.Has i ∧ |(i : ℚ)| ≤ float32.max → ∃ r, bigIntToFloat32Entry i cur = ⟨.fin r, false⟩ ∧ float32.Nearest i r := by
    rintro ⟨h64, hmax⟩
    simp only [bigIntToFloat32Entry, (c81_big float64 (Or.inr rfl) 0 i).2.2.1 h64]
    simpa using (c80_narrow i cur).1 ⟨hsmall, hmax⟩
  have hB : ¬ (float64.Has i ∧ |(i : ℚ)| ≤ float32.max) → bigIntToFloat32Entry i cur = ⟨cur, true⟩ := by
    intro h
    by_cases h64 : float64.Has i
    · simp only [bigIntToFloat32Entry, (c81_big float64 (Or.inr rfl) 0 i).2.2.1 h64]
      simpa using (c80_narrow i cur).2 (fun hh => h ⟨h64, hh.2⟩)
    · simp only [bigIntToFloat32Entry, (c81_big float64 (Or.inr rfl) 0 i).2.2.2 h64]
      simp
  refine ⟨hA, hB, ?_, c81_to_partial i cur⟩
  intro h
  by_cases hc : float64.Has i ∧ |(i : ℚ)| ≤ float32.max
  · obtain ⟨r, hr, hn⟩ := hA hc
    rw [hr] at h
    simp only [Res.mk.injEq, Flt.fin.injEq, and_true] at h
    rw [← h]; exact hn.1
  · rw [hB hc] at h
    simp at h

example : float64.Has ((16777217 : Int) : ℚ) ∧ |((16777217 : Int) : ℚ)| ≤ float32.max :=
  ⟨⟨16777217, 0, by norm_num, by norm_num [float64], by norm_num [float64], by norm_num [float64]⟩, by
    rw [abs_of_nonneg (by norm_num)]; norm_num [Fmt.max, float32]⟩

/-! ### C96 -/

/-- The precision StringToBigFloat computes for a text: at least 53, and enough bits for as many decimal digits as the text has characters. -/
def textBits (s : List Char) : ℕ := max 53 (Nat.clog 2 (10 ^ s.length))

/-- C96: the text of a number is accepted exactly if a float is nearest to it among all numbers of the precision computed from its length, that is if
rounding to many more bits happens to give a float; shorter texts of the same number can be accepted while longer ones are not. -/
theorem c96_accepts_iff (lib : TextLib) (f : Fmt) (hf : IsGo f) (s : List Char) (q : ℚ) (cur : Flt) (h : Number s q) :
    ((stringToFloat lib f s cur).failed = false ↔ f.Has (roundSig 2 (textBits s) q)) ∧
    (∀ m e : ℤ, |m| < 2 ^ textBits s → |roundSig 2 (textBits s) q - q| ≤ |(m : ℚ) * 2 ^ e - q|) := by
  constructor
  · rw [stringToFloat_number lib f cur h]
    change (bigFloatToFloat f (.fin (roundSig 2 (textBits s) q))).failed = false ↔ _
    by_cases hh : f.Has (roundSig 2 (textBits s) q)
    · simp [((c81_big f hf _ 0).1 hh).1, hh]
    · simp [((c81_big f hf _ 0).2.1 hh).1, hh]
  · intro m e hm
    exact roundSig_near (by unfold textBits; omega) q m e hm

example : Number "0.5".toList (1 / 2) := Or.inl ⟨[], ['0'], ['5'], by decide, by decide, by decide, Or.inl rfl, by
    rw [show digitsVal (['0'] ++ ['5']) = 5 from rfl]; norm_num⟩

end Micro.Conv
