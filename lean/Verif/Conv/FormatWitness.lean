import Verif.Conv.FormatProps
/-
C134: the text of a float32 that is not read back.
-/
namespace Micro.Conv

/-- The float32 that is nearest to 1/10. -/
def tenth32 : ℚ := 13421773 / 2 ^ 27

theorem tenth32_has : float32.Has tenth32 :=
  ⟨13421773, -27, by unfold tenth32; norm_num, by norm_num [float32], by norm_num [float32], by norm_num [float32]⟩

theorem round_tenth (q : ℚ) (h : |q| = 1 / 10) (m : ℤ) (hm : rne (q / 2 ^ (-27 : ℤ)) = m) : roundFloat float32 q = m * 2 ^ (-27 : ℤ) := by
  have hlog : Int.log 2 |q| = -4 := by
    rw [h]
    exact log_eq_of (by omega) (by norm_num) (by norm_num) (by norm_num)
  have h0 : q ≠ 0 := by rintro rfl; norm_num at h
  unfold roundFloat
  rw [if_neg h0, hlog]
  have he : max ((-4 : ℤ) - (float32.prec - 1)) float32.emin = -27 := by decide
  rw [he]
  unfold roundAt
  rw [show ((2 : ℕ) : ℚ) = 2 by norm_num, hm]

theorem round_tenth_pos : roundFloat float32 (1 / 10) = tenth32 := by
  rw [round_tenth (1 / 10) (by norm_num) 13421773 (rne_up (n := 13421773) (by norm_num) (by norm_num))]
  unfold tenth32; norm_num

theorem round_tenth_neg : roundFloat float32 (-(1 / 10)) = -tenth32 := by
  rw [round_tenth (-(1 / 10)) (by norm_num) (-13421773) (by
    have := rne_down (x := -(1 / 10) / 2 ^ (-27 : ℤ)) (n := -13421773) (by norm_num) (by norm_num)
    simpa using this)]
  unfold tenth32; norm_num

/-- Digits in which the float32 nearest to 1/10 is written 0.1, as strconv does; the others exactly. -/
def tenthDigits : ShortestDigits float32 where
  digits q := if q = tenth32 then ⟨['1'], 0⟩ else (exactDigits float32).digits q
  isDigits q := by
    split
    · decide
    · exact (exactDigits float32).isDigits q
  leading q := by
    split
    · decide
    · exact (exactDigits float32).leading q
  zero := by
    rw [if_neg (by unfold tenth32; norm_num)]
    exact (exactDigits float32).zero
  nonempty q hq h0 := by
    split
    · simp
    · exact (exactDigits float32).nonempty q hq h0
  identify q hq h0 := by
    by_cases h : |q| = tenth32
    · simp only [if_pos h]
      have hp : (0 : ℚ) < tenth32 := by unfold tenth32; norm_num
      have e : (digitsVal ['1'] : ℚ) * 10 ^ ((0 : ℤ) - (['1'] : List Char).length) = 1 / 10 := by
        rw [show digitsVal ['1'] = 1 from rfl]; norm_num
      rw [e]
      rcases abs_choice q with h1 | h1
      · have hq : q = tenth32 := by rw [← h1, h]
        rw [if_neg (by rw [hq]; exact not_lt.mpr hp.le), one_mul, round_tenth_pos, hq]
      · have hq : q = -tenth32 := by rw [← h, h1, neg_neg]
        rw [if_pos (by rw [hq]; exact neg_lt_zero.mpr hp), neg_one_mul, round_tenth_neg, hq]
    · simp only [if_neg h]
      exact (exactDigits float32).identify q hq h0

/-- C134 does not hold without "or an error": FloatToString writes the float32 nearest to 1/10 as 0.1 if strconv does, and StringToFloat32 of 0.1 is
an error. -/
theorem c134_float32_refuted : ∃ (sd : ShortestDigits float32) (q : ℚ), float32.Has q ∧ floatToString sd (.fin q) = "0.1".toList ∧
    ∀ lib cur, (stringToFloat lib float32 (floatToString sd (.fin q)) cur).failed = true := by
  have h : floatToString tenthDigits (.fin tenth32) = "0.1".toList := by
    have h1 : tenthDigits.digits |tenth32| = ⟨['1'], 0⟩ := by
      rw [abs_of_pos (by unfold tenth32; norm_num)]
      exact if_pos rfl
    unfold floatToString
    simp only [h1]
    rw [if_neg (by unfold tenth32; norm_num)]
    decide
  exact ⟨tenthDigits, tenth32, tenth32_has, h, fun lib cur => by rw [h]; exact c96_float32_refuted lib cur⟩

end Micro.Conv
