import Verif.Decimal.AlgProps
import Verif.Decimal.MulExactProps
set_option linter.unusedSimpArgs false
/-
C123: exactly when multiplying by one changes nothing.
-/
namespace Micro.Dec
open Micro

/-- The number 1 as a Decimal of k fractional digits. -/
theorem num_one_iff (o : Decimal) : o.num = 1 ↔ o.value = 10 ^ o.scale := by
  unfold Decimal.num
  rw [div_eq_one_iff_eq (pow10_pos _).ne']
  norm_cast

/-- to18 does nothing to a number whose digits after the 18th are zeros. -/
theorem to18_exact (m s k : Nat) (hs : s ≤ 18) : to18 (m * 10 ^ k) (s + k) = (m : ℚ) / 10 ^ s := by
  rw [to18_mul]
  unfold to18
  rw [Nat.sub_eq_zero_of_le hs, roundOff_zero, Nat.min_eq_left hs]

/-- C123, one, exactly: multiplying by a Decimal that denotes 1 gives the number itself, for all Decimals but those whose unscaled value
times that of the one is from 10^18 up to 2^63. -/
theorem c123_one_iff (d o : Decimal) (hd : d.Valid) (ho : o.Valid) (h1 : o.num = 1) :
    outNum (d.mul o) = .ok d.num ↔
      ¬ (1000000000000000000 ≤ d.value.natAbs * 10 ^ o.scale ∧ d.value.natAbs * 10 ^ o.scale < 9223372036854775808) := by
  have hv := (num_one_iff o).1 h1
  have hn : o.value.natAbs = 10 ^ o.scale := by
    rw [hv]; norm_cast
  have hdn : d.num = mulSgn d o * ((d.value.natAbs : ℚ) / 10 ^ d.scale) := by
    have := prod_num d o
    rw [h1, mul_one, hn, pow_add] at this
    rw [this]
    have := pow10_pos o.scale
    have := pow10_pos d.scale
    push_cast
    congr 1
    field_simp
  rw [← hn]
  constructor
  · rintro h ⟨g1, g2⟩
    have hs : 0 < d.scale + o.scale := by
      rcases Nat.eq_zero_or_pos o.scale with e | e
      · rw [e] at hn
        have := hd.1
        unfold Fits at this
        rw [hn] at g1
        omega
      · omega
    obtain ⟨r, hr, hle, hne⟩ := c09_tenfold_refuted d o hd ho hs g1 g2
    rw [hr] at h
    simp only [outNum] at h
    have e : r.num = d.num := by injection h
    rw [h1, mul_one] at hle hne
    rw [e] at hle
    have := abs_pos.2 hne
    linarith
  · intro h
    rcases Nat.lt_or_ge (d.value.natAbs * o.value.natAbs) 1000000000000000000 with g | g
    · rw [mul_core_small d o hd ho g]
      obtain ⟨r, hr, -, hrn⟩ := mulFinish_ok d o (d.value.natAbs * o.value.natAbs) (d.scale + o.scale) (by omega)
      rw [hr]
      simp only [outNum, hrn, hn, to18_exact _ _ _ hd.2, hdn]
    · have g' : 9223372036854775808 ≤ d.value.natAbs * o.value.natAbs := by
        by_contra hc
        exact h ⟨g, by omega⟩
      obtain ⟨E, e1, e2⟩ := split18 _ g'
      have hfit := hd.1
      unfold Fits at hfit
      have hE : E ≤ o.scale := by
        by_contra hc
        have : d.value.natAbs * o.value.natAbs / 10 ^ E < 100000000000000000 := by
          rw [Nat.div_lt_iff_lt_mul (by positivity), hn]
          calc d.value.natAbs * 10 ^ o.scale < 1000000000000000000 * 10 ^ o.scale := Nat.mul_lt_mul_of_pos_right (by omega) (by positivity)
            _ = 100000000000000000 * 10 ^ (o.scale + 1) := by rw [pow_succ]; omega
            _ ≤ 100000000000000000 * 10 ^ E := Nat.mul_le_mul_left _ (Nat.pow_le_pow_right (by norm_num) (by omega))
        omega
      obtain ⟨j, hj⟩ : ∃ j, o.scale = E + j := ⟨o.scale - E, by omega⟩
      have hprod : d.value.natAbs * o.value.natAbs = d.value.natAbs * 10 ^ j * 10 ^ E := by rw [hn, hj, pow_add]; ring
      have hdiv : d.value.natAbs * o.value.natAbs / 10 ^ E = d.value.natAbs * 10 ^ j := by
        rw [hprod, Nat.mul_div_cancel _ (by positivity)]
      have hs : 0 < d.scale + o.scale := by
        rcases Nat.eq_zero_or_pos o.scale with e | e
        · rw [e] at hn
          rw [hn] at g
          omega
        · omega
      have := ((c09_value d o hd ho hs g' E _ rfl e1 e2).2 (d.scale + j) (by omega)).1 (by
        rintro ⟨hup, -⟩
        rw [hdiv, hprod] at hup
        have : roundOff (d.value.natAbs * 10 ^ j * 10 ^ E) E = d.value.natAbs * 10 ^ j := by
          have := roundOff_mul (d.value.natAbs * 10 ^ j) E 0
          rwa [Nat.add_zero, roundOff_zero] at this
        omega)
      obtain ⟨r, hr, -, hrn⟩ := this
      rw [hr]
      simp only [outNum, hrn, hdiv, to18_exact _ _ _ hd.2, hdn]

/-- A case on either side: 123.45 times 1.000 is 123.45; 5 times 1.00000000000000000 (10^17) is right, 50 times it is not. -/
example : (⟨12345, 2, false⟩ : Decimal).mul ⟨1000, 3, false⟩ = .ok ⟨12345, 2, false⟩ := by decide

end Micro.Dec
