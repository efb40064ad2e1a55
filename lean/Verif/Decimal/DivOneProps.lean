import Verif.Decimal.DivExactProps
import Verif.Decimal.OneProps
import Verif.Decimal.DivAlgProps
set_option linter.unusedSimpArgs false
/-
C13 and C125: what the exact description of Div says about the scale of the result, and about division by one.
-/
namespace Micro.Dec
open Micro

/-- Unscaled division by a power of ten. -/
theorem longDivision_pow (D s n : Nat) (hD : D ≤ 999999999999999999) (hs : s ≤ 17) (hn : n ≤ s) :
    LongDivision D (10 ^ s) n ↔ D % 10 ^ s * 10 ^ n < 9223372036854775808 := by
  classical
  refine ⟨fun h => h.1, fun h => ⟨h, ?_⟩⟩
  have hO : 0 < 10 ^ s := by positivity
  have hex : ∃ k, D * 10 ^ n * 10 ^ k % 10 ^ s = 0 := ⟨s, Nat.mul_mod_left _ _⟩
  have hO17 : 10 ^ s ≤ 100000000000000000 := by
    calc 10 ^ s ≤ 10 ^ 17 := Nat.pow_le_pow_right (by norm_num) hs
      _ = 100000000000000000 := by norm_num
  have hnz : ∀ j, D * 10 ^ n * 10 ^ j % 10 ^ s ≠ 0 → n + j < s := by
    intro j hj
    by_contra hc
    apply hj
    obtain ⟨t, ht⟩ := Nat.exists_eq_add_of_le (not_lt.mp hc)
    rw [mul_assoc, ← pow_add, ht, pow_add, mul_comm (10 ^ s), ← mul_assoc]
    exact Nat.mul_mod_left _ _
  have hquo : ∀ j, n + j ≤ s → D * 10 ^ n * 10 ^ j / 10 ^ s = D / 10 ^ (s - (n + j)) := by
    intro j hj
    have e : 10 ^ s = 10 ^ (s - (n + j)) * 10 ^ (n + j) := by rw [← pow_add]; congr 1; omega
    rw [mul_assoc, ← pow_add, e, Nat.mul_div_mul_right _ _ (by positivity)]
  refine ⟨Nat.find hex, fun j hj => ?_, .inl ⟨Nat.find_spec hex, ?_⟩⟩
  · have h1 := Nat.find_min hex hj
    have h2 := hnz j h1
    refine ⟨h1, lt_of_lt_of_le (Nat.mod_lt _ hO) hO17, ?_⟩
    rw [hquo j (by omega)]
    have : D / 10 ^ (s - (n + j)) ≤ D / 10 := Nat.div_le_div_left (by
      calc 10 = 10 ^ 1 := by norm_num
        _ ≤ 10 ^ (s - (n + j)) := Nat.pow_le_pow_right (by norm_num) (by omega)) (by norm_num)
    omega
  · have hk : n + Nat.find hex ≤ s := by
      rcases Nat.eq_zero_or_pos (Nat.find hex) with h0 | h0
      · omega
      · have := hnz (Nat.find hex - 1) (Nat.find_min hex (by omega))
        omega
    rw [hquo _ hk]
    exact lt_of_le_of_lt (Nat.div_le_self _ _) (by omega)

/-- C125, dividing by one, exactly: dividing by a Decimal that denotes 1 and has s fractional digits gives the dividend, for all Decimals but those whose unscaled value modulo
10^s, brought to s fractional digits, does not fit in an int64. -/
theorem c125_one_iff (d o : Decimal) (hd : d.Valid) (ho : o.Valid) (h1 : o.num = 1) :
    (∃ r, d.div o = some (.ok r) ∧ r.num = d.num) ↔ d.value.natAbs % 10 ^ o.scale * 10 ^ (o.scale - d.scale) < 9223372036854775808 := by
  have hov : o.value = 10 ^ o.scale := by
    unfold Decimal.num at h1
    rw [div_eq_one_iff_eq (pow10_pos _).ne'] at h1
    exact_mod_cast h1
  have hon : o.value.natAbs = 10 ^ o.scale := by rw [hov, Int.natAbs_pow]; rfl
  have h0 : o.value ≠ 0 := by rw [hov]; positivity
  have hs : o.scale ≤ 17 := by
    by_contra hc
    have h18 : o.scale = 18 := by have := ho.2; omega
    have := ho.1
    rw [hov, h18] at this
    unfold Fits at this
    norm_num at this
  have hdf := hd.1
  have hD : d.value.natAbs ≤ 999999999999999999 := by unfold Fits at hdf; omega
  obtain ⟨hiff, hfull⟩ := c12_ok_iff d o hd ho h0
  have hq : d.num / o.num = d.num := by rw [h1, div_one]
  rw [hq, hon] at hiff
  rw [hq] at hfull
  rw [← longDivision_pow _ _ _ hD hs (Nat.sub_le _ _), ← hiff]
  constructor
  · rintro ⟨r, e1, e2⟩
    refine ⟨r, e1, ?_⟩
    rw [e2, sub_self, abs_zero]
    unfold ulp
    have := pow10_pos r.scale
    positivity
  · rintro ⟨r, e1, e2⟩
    exact ⟨r, e1, (hfull r e1 e2).2.2.2 ⟨d.value, d.scale, hdf, rfl⟩⟩

/-- 1.00 is a one for 5.5, and 1.00000000000000000 is none for 99999999999999999. -/
example : (⟨100, 2, true⟩ : Decimal).num = 1 ∧ (55 : Int).natAbs % 10 ^ 2 * 10 ^ (2 - 1) < 9223372036854775808 ∧
    ¬ (99999999999999999 : Int).natAbs % 10 ^ 17 * 10 ^ (17 - 0) < 9223372036854775808 := by
  refine ⟨?_, by decide, by decide⟩
  unfold Decimal.num; norm_num

/-- C13 for Div: where its result is right (`c12_ok_iff`), it has at most 18 digits, and is a valid Decimal exactly if the long division ends soon enough: after k digits for
which the dividend has, with those it has more than the divisor, at most 18 fractional digits. -/
theorem c13_div_iff (d o : Decimal) (hd : d.Valid) (ho : o.Valid) (h0 : o.value ≠ 0)
    (hr : d.value.natAbs % o.value.natAbs * 10 ^ (o.scale - d.scale) < 9223372036854775808) (k : Nat)
    (hB : Before o.value.natAbs (d.value.natAbs * 10 ^ (o.scale - d.scale)) k) (hE : Ends o.value.natAbs (d.value.natAbs * 10 ^ (o.scale - d.scale)) k) :
    ∃ r, d.div o = some (.ok r) ∧ Fits r.value ∧ r.scale = d.scale - o.scale + k ∧ (r.Valid ↔ d.scale - o.scale + k ≤ 18) := by
  have hdf := hd.1
  have hof := ho.1
  have hO : 0 < o.value.natAbs := by omega
  have hO2 : o.value.natAbs ≤ 999999999999999999 := by unfold Fits at hof; omega
  have hD : d.value.natAbs ≤ 999999999999999999 := by unfold Fits at hdf; omega
  have hn : o.scale - d.scale ≤ 18 := le_trans (Nat.sub_le _ _) ho.2
  obtain ⟨hiff, hfull⟩ := c12_ok_iff d o hd ho h0
  obtain ⟨r, e1, e2⟩ := hiff.mpr ⟨hr, k, hB, hE⟩
  have hfit := (hfull r e1 e2).1
  have hsc : r.scale = d.scale - o.scale + k := by
    have hfq : d.value.natAbs * 10 ^ (o.scale - d.scale) / o.value.natAbs ≤ 999999999999999999 := by
      rcases Nat.eq_zero_or_pos k with rfl | hk
      · unfold Ends at hE
        rw [pow_zero, mul_one] at hE
        rcases hE with hE | hE <;> omega
      · have := (hB 0 hk).2.2
        rw [pow_zero, mul_one] at this
        omega
    have hm := divMag_before d.value.natAbs o.value.natAbs (o.scale - d.scale) k ((d.scale - o.scale : Nat) : Int) hD hO hr hfq hB
    have hs : Sync o.value.natAbs (d.value.natAbs * 10 ^ (o.scale - d.scale)) k false
        ((d.value.natAbs * 10 ^ (o.scale - d.scale) * 10 ^ k / o.value.natAbs : Nat) : Int)
        ((d.value.natAbs * 10 ^ (o.scale - d.scale) * 10 ^ k % o.value.natAbs : Nat) : Int) := by
      have hlt := Nat.mod_lt (d.value.natAbs * 10 ^ (o.scale - d.scale) * 10 ^ k) hO
      refine ⟨hB, _, _, rfl, rfl, Nat.div_add_mod' _ _, by omega, ?_, by simp⟩
      unfold Ends at hE
      rcases hE with hE | hE <;> omega
    obtain ⟨q', hq', _⟩ := divLoop_sync _ _ k ((d.scale - o.scale : Nat) : Int) hO hO2 hB hE 0 k (by omega) false _ _ hs
    rw [div_eq_mag d o hdf hof h0, hm, hq'] at e1
    simp only [Option.some.injEq, Out.ok.injEq] at e1
    rw [← e1]
    simp only
    omega
  refine ⟨r, e1, hfit, hsc, ?_⟩
  unfold Decimal.Valid
  rw [hsc]
  exact ⟨fun h => h.2, fun h => ⟨hfit, h⟩⟩

/-- 1 / 8 ends after 3 digits; 1 / 30000 after 22. -/
example : (Before 8 1 3 ∧ Ends 8 1 3) ∧ Before 30000 1 22 ∧ Ends 30000 1 22 := by
  refine ⟨⟨by unfold Before; decide, .inl (by decide)⟩, by unfold Before; decide, .inr ⟨by decide, by decide, by decide, 3, by decide⟩⟩

end Micro.Dec
