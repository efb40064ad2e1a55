import Verif.Decimal.AddProps
/-
C08: Sub undoes an exact Add.
-/
namespace Micro.Dec
open Micro

/-- C08. Sub undoes an exact Add: if the operand with fewer fractional digits has room for the zeros and the sum fits, then x.Add(y) followed by
Sub(y) returns x, unless the sum is zero and y has 18 fractional digits (`c08_add_sub_refuted`). -/
theorem c08_add_sub_partial (d o : Decimal) (hd : d.Valid) (ho : o.Valid) (hr : Room d o) (hf : FitsAt (d.num + o.num) (max d.scale o.scale))
    (h0 : d.num + o.num ≠ 0 ∨ o.scale ≤ 17) : ∃ p r, d.add o = .ok p ∧ p.sub o = .ok r ∧ r.num = d.num := by
  have hfa := room_fits_at d o hd ho hr
  have ha := add_eq d o _ _ (room_adjust d o hd ho hr) hfa.1 hfa.2
  obtain ⟨p, hp, hpn, hpv⟩ := (c07_add d o hd ho hr).1 hf
  have hsc : p.scale ≤ max d.scale o.scale := by
    rw [hp] at ha
    simp only at ha
    by_cases g1 : d.at (max d.scale o.scale) + o.at (max d.scale o.scale) > 999999999999999999
    · rw [if_pos g1] at ha; cases ha
    · rw [if_neg g1] at ha
      by_cases g2 : d.at (max d.scale o.scale) + o.at (max d.scale o.scale) < -999999999999999999
      · rw [if_pos g2] at ha; cases ha
      · rw [if_neg g2, Out.ok.injEq] at ha
        rw [ha]
        exact (applyNormalization_valid _ (by unfold Fits; simp only; omega)).2
  have hpf : Fits (p.at (max d.scale o.scale)) := by
    rw [← hpn] at hf
    refine (fitsAt_iff _ _ _ ?_).mp hf
    exact (num_extend p _ hsc false).symm
  have hle : ∀ k, k ≤ max d.scale o.scale → p.scale ≤ k → Fits (p.at k) := by
    intro k hk hpk
    have e : p.at (max d.scale o.scale) = p.at k * 10 ^ (max d.scale o.scale - k) := by
      unfold Decimal.at
      rw [mul_assoc, ← pow_add]; congr 2; omega
    rw [e] at hpf
    have hq : (1 : Int) ≤ 10 ^ (max d.scale o.scale - k) := one_le_pow₀ (by norm_num)
    unfold Fits at *
    constructor <;> nlinarith
  have hroom : Room p o := by
    unfold Room at hr ⊢
    by_cases hs : p.scale ≤ o.scale
    · rw [if_pos hs, Nat.max_eq_right hs, Nat.min_eq_left hs]
      have hfit := hle o.scale (by omega) hs
      have hos := ho.2
      by_cases hz : p.value = 0
      · rw [hz]
        have h17 : o.scale ≤ 17 := by
          rcases h0 with h0 | h0
          · exact absurd (by rw [← hpn]; unfold Decimal.num; rw [hz]; simp) h0
          · exact h0
        have : numDigits 0 ≤ 1 := (natChars_length_le _ _ (by omega)).mpr (by decide)
        omega
      · have hkl : 10 ^ (o.scale - p.scale) ≤ p.value.natAbs * 10 ^ (o.scale - p.scale) := Nat.le_mul_of_pos_left _ (by omega)
        have hna : (p.at o.scale).natAbs = p.value.natAbs * 10 ^ (o.scale - p.scale) := by
          unfold Decimal.at; rw [Int.natAbs_mul, Int.natAbs_pow]; rfl
        have hlt : p.value.natAbs * 10 ^ (o.scale - p.scale) < 10 ^ 18 := by
          rw [← hna]; unfold Fits at hfit; omega
        have hk17 : o.scale - p.scale < 18 := by
          by_contra hk
          have : 10 ^ 18 ≤ 10 ^ (o.scale - p.scale) := Nat.pow_le_pow_right (by norm_num) (by omega)
          omega
        have : p.value.natAbs < 10 ^ (18 - (o.scale - p.scale)) := by
          have e : 10 ^ 18 = 10 ^ (18 - (o.scale - p.scale)) * 10 ^ (o.scale - p.scale) := by rw [← pow_add]; congr 1; omega
          rw [e] at hlt
          exact lt_of_mul_lt_mul_right hlt (Nat.zero_le _)
        have := (natChars_length_le p.value.natAbs (18 - (o.scale - p.scale)) (by omega)).mpr this
        unfold numDigits
        omega
    · rw [if_neg hs]
      rw [if_neg (by omega)] at hr
      omega
  obtain ⟨r, h1, h2, _⟩ := (c07_sub p o hpv ho hroom).1 (by
    rw [hpn, add_sub_cancel_right]
    have hd1 : d.num = ((p.at (max p.scale o.scale) - o.at (max p.scale o.scale) : Int) : ℚ) / 10 ^ max p.scale o.scale := by
      have e1 := num_extend p (max p.scale o.scale) (by omega) false
      have e2 := num_extend o (max p.scale o.scale) (by omega) false
      have e3 : d.num = p.num - o.num := by rw [hpn]; ring
      rw [e3, ← e1, ← e2]
      unfold Decimal.num Decimal.at
      push_cast; ring
    refine ⟨_, ?_, hd1⟩
    have hd2 : d.at (max d.scale o.scale) = (p.at (max p.scale o.scale) - o.at (max p.scale o.scale)) * 10 ^ (max d.scale o.scale - max p.scale o.scale) := by
      have e := num_extend d (max d.scale o.scale) (by omega) false
      have hq := fun k => (pow10_pos k).ne'
      have e' : ((d.at (max d.scale o.scale) : Int) : ℚ) / 10 ^ max d.scale o.scale = d.num := e
      rw [hd1, div_eq_div_iff (hq _) (hq _)] at e'
      have hpow : (10 : ℚ) ^ max d.scale o.scale = 10 ^ (max d.scale o.scale - max p.scale o.scale) * 10 ^ max p.scale o.scale := by
        rw [← pow_add]; congr 1; omega
      rw [hpow, ← mul_assoc] at e'
      exact_mod_cast mul_right_cancel₀ (hq _) e'
    have hfd := hfa.1
    rw [hd2] at hfd
    have hq : (1 : Int) ≤ 10 ^ (max d.scale o.scale - max p.scale o.scale) := one_le_pow₀ (by norm_num)
    unfold Fits at *
    constructor <;> nlinarith)
  refine ⟨p, r, hp, h1, ?_⟩
  rw [h2, hpn, add_sub_cancel_right]

example := c08_add_sub_partial ⟨15, 1, false⟩ ⟨-225, 2, false⟩ (by decide) (by decide) room_case ⟨-75, by decide, by norm_num [Decimal.num]⟩ (.inr (by decide))

/-- C08. The case left out: -0.5 and 0.5 with 18 fractional digits add up to 0, and 0 less the second is -1. -/
theorem c08_add_sub_refuted : ∃ p r : Decimal,
    (⟨-500000000000000000, 18, true⟩ : Decimal).add ⟨500000000000000000, 18, true⟩ = .ok p ∧ p.sub ⟨500000000000000000, 18, true⟩ = .ok r ∧
    (⟨-500000000000000000, 18, true⟩ : Decimal).num = -1 / 2 ∧ r.num = -1 := by
  refine ⟨⟨0, 0, true⟩, ⟨-1, 0, true⟩, by decide +kernel, by decide +kernel, by norm_num [Decimal.num], by norm_num [Decimal.num]⟩

end Micro.Dec
