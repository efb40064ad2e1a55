import Verif.Decimal.MulExactProps
import Verif.Decimal.DivExactProps
import Verif.Decimal.AlgProps
/-
C123 and C125, sharpened: how far Mul can be from keeping the order, for all operands for which Mul is right at all (`c09_iff`), and when Div undoes
Mul.
-/
namespace Micro.Dec
open Micro

/-- Half the spread allowed by `MulRight` around the product: one unit of the 18th fractional digit, or one part in 10^17 of the product. -/
def slack (x : ℚ) : ℚ := max (1 / 10 ^ 18) (|x| / 10 ^ 17)

theorem not_wrong_of_small (a c : Decimal) (h : a.value.natAbs * c.value.natAbs < 1000000000000000000) : ¬ MulWrong a c := by
  rintro ⟨_, h' | h'⟩ <;> omega

/-- C123. What Mul returns is within `slack` of the product, unless the operands are of the kind `MulWrong`, for which it never is. -/
theorem c123_close (a c r : Decimal) (ha : a.Valid) (hc : c.Valid) (h : a.mul c = .ok r) :
    (|a.num * c.num| < 10 ^ 18 ∧ |r.num - a.num * c.num| < slack (a.num * c.num)) ↔ ¬ MulWrong a c := by
  constructor
  · rintro ⟨h1, h2⟩
    rw [← c09_iff a c ha hc]
    refine ⟨fun h' => absurd h1 (not_lt.mpr h'), fun _ => ⟨r, h, ?_, h2⟩⟩
    obtain ⟨_, _, _, _, _, _, _, _, hv⟩ := mul_ok a c r ha hc h
    exact hv
  · intro hw
    obtain ⟨h1, h2⟩ := (c09_iff a c ha hc).mpr hw
    have hlt : |a.num * c.num| < 10 ^ 18 := by
      by_contra hn
      rw [h1 (not_lt.mp hn)] at h
      cases h
    obtain ⟨r', e, _, h3⟩ := h2 hlt
    rw [h] at e
    cases e
    exact ⟨hlt, h3⟩

/-- 1.5 * 2.5 and its slack: the operands are not of the kind MulWrong. -/
example : ∃ r, (⟨15, 1, false⟩ : Decimal).mul ⟨25, 1, false⟩ = .ok r ∧ |r.num - (⟨15, 1, false⟩ : Decimal).num * (⟨25, 1, false⟩ : Decimal).num| <
    slack ((⟨15, 1, false⟩ : Decimal).num * (⟨25, 1, false⟩ : Decimal).num) := by
  obtain ⟨r, hr, _⟩ := c09_exact ⟨15, 1, false⟩ ⟨25, 1, false⟩ (by decide) (by decide) (by decide) (by decide)
  exact ⟨r, hr, ((c123_close _ _ r (by decide) (by decide) hr).2 (not_wrong_of_small _ _ (by decide))).2⟩

/-- C123. The order is kept up to the rounding: multiplying two ordered Decimals by the same non-negative one gives results that are in order but for
at most the slack of both products. -/
theorem c123_mono_close (a b c r s : Decimal) (ha : a.Valid) (hb : b.Valid) (hc : c.Valid) (hac : ¬ MulWrong a c) (hbc : ¬ MulWrong b c)
    (hle : a.num ≤ b.num) (h0 : 0 ≤ c.num) (hr : a.mul c = .ok r) (hs : b.mul c = .ok s) :
    r.num < s.num + (slack (a.num * c.num) + slack (b.num * c.num)) := by
  have h1 := abs_lt.1 ((c123_close a c r ha hc hr).mpr hac).2
  have h2 := abs_lt.1 ((c123_close b c s hb hc hs).mpr hbc).2
  have h3 := mul_le_mul_of_nonneg_right hle h0
  linarith [h1.1, h1.2, h2.1, h2.2]

example : ∃ r s, (⟨15, 1, false⟩ : Decimal).mul ⟨25, 1, false⟩ = .ok r ∧ (⟨16, 1, false⟩ : Decimal).mul ⟨25, 1, false⟩ = .ok s ∧
    ¬ MulWrong ⟨15, 1, false⟩ ⟨25, 1, false⟩ ∧ ¬ MulWrong ⟨16, 1, false⟩ ⟨25, 1, false⟩ := by
  obtain ⟨r, hr, _⟩ := c09_exact ⟨15, 1, false⟩ ⟨25, 1, false⟩ (by decide) (by decide) (by decide) (by decide)
  obtain ⟨s, hs, _⟩ := c09_exact ⟨16, 1, false⟩ ⟨25, 1, false⟩ (by decide) (by decide) (by decide) (by decide)
  exact ⟨r, s, hr, hs, not_wrong_of_small _ _ (by decide), not_wrong_of_small _ _ (by decide)⟩

/-- C123. In particular the order is kept whenever the products are far enough apart. -/
theorem c123_mono_apart (a b c r s : Decimal) (ha : a.Valid) (hb : b.Valid) (hc : c.Valid) (hac : ¬ MulWrong a c) (hbc : ¬ MulWrong b c)
    (hle : slack (a.num * c.num) + slack (b.num * c.num) ≤ (b.num - a.num) * c.num) (hr : a.mul c = .ok r) (hs : b.mul c = .ok s) :
    r.num < s.num := by
  have h1 := abs_lt.1 ((c123_close a c r ha hc hr).mpr hac).2
  have h2 := abs_lt.1 ((c123_close b c s hb hc hs).mpr hbc).2
  rw [sub_mul] at hle
  linarith [h1.1, h1.2, h2.1, h2.2]

example : ∃ r s, (⟨15, 1, false⟩ : Decimal).mul ⟨25, 1, false⟩ = .ok r ∧ (⟨16, 1, false⟩ : Decimal).mul ⟨25, 1, false⟩ = .ok s ∧ r.num < s.num := by
  obtain ⟨r, hr, _⟩ := c09_exact ⟨15, 1, false⟩ ⟨25, 1, false⟩ (by decide) (by decide) (by decide) (by decide)
  obtain ⟨s, hs, _⟩ := c09_exact ⟨16, 1, false⟩ ⟨25, 1, false⟩ (by decide) (by decide) (by decide) (by decide)
  exact ⟨r, s, hr, hs, c123_mono_apart _ _ _ r s (by decide) (by decide) (by decide) (not_wrong_of_small _ _ (by decide))
    (not_wrong_of_small _ _ (by decide)) (by norm_num [slack, Decimal.num]) hr hs⟩

/-- C125. If the dividend with some zeros appended is a multiple of the divisor and still has at most 18 digits, Div is exact: what it returns is the
quotient. -/
theorem c125_short (d o : Decimal) (hd : d.Valid) (ho : o.Valid) (h0 : o.value ≠ 0) (K : Nat)
    (hm : o.value ∣ d.value * 10 ^ (o.scale - d.scale + K)) (hK : |d.value| * 10 ^ (o.scale - d.scale + K) < 1000000000000000000) :
    ∃ r, d.div o = some (.ok r) ∧ r.num = d.num / o.num := by
  obtain ⟨v, hv⟩ := hm
  have hO : 0 < o.value.natAbs := by omega
  have habs : d.value.natAbs * 10 ^ (o.scale - d.scale + K) = o.value.natAbs * v.natAbs := by
    have := congrArg Int.natAbs hv
    rw [Int.natAbs_mul, Int.natAbs_mul, Int.natAbs_pow] at this
    exact this
  have hK' : d.value.natAbs * 10 ^ (o.scale - d.scale + K) < 1000000000000000000 := by
    have : ((d.value.natAbs * 10 ^ (o.scale - d.scale + K) : Nat) : Int) = |d.value| * 10 ^ (o.scale - d.scale + K) := by
      push_cast; rfl
    omega
  have hex : ∃ k, d.value.natAbs * 10 ^ (o.scale - d.scale) * 10 ^ k % o.value.natAbs = 0 := by
    refine ⟨K, ?_⟩
    rw [mul_assoc, ← pow_add, habs, Nat.mul_mod_right]
  have hmono : ∀ j, j ≤ K → d.value.natAbs * 10 ^ (o.scale - d.scale) * 10 ^ j * 10 ^ (K - j) < 1000000000000000000 := by
    intro j hj
    rw [mul_assoc, mul_assoc, ← pow_add, ← pow_add, show o.scale - d.scale + (j + (K - j)) = o.scale - d.scale + K by omega]
    exact hK'
  have hN1 : ∀ j, j < K → d.value.natAbs * 10 ^ (o.scale - d.scale) * 10 ^ j < 100000000000000000 := by
    intro j hj
    have h1 := hmono j hj.le
    have h2 : 10 ^ 1 ≤ 10 ^ (K - j) := Nat.pow_le_pow_right (by norm_num) (by omega)
    have h3 := Nat.mul_le_mul_left (d.value.natAbs * 10 ^ (o.scale - d.scale) * 10 ^ j) h2
    omega
  have hN2 : ∀ j, j ≤ K → d.value.natAbs * 10 ^ (o.scale - d.scale) * 10 ^ j < 1000000000000000000 := by
    intro j hj
    have h1 := hmono j hj
    have h3 := Nat.mul_le_mul_left (d.value.natAbs * 10 ^ (o.scale - d.scale) * 10 ^ j) (Nat.one_le_pow (K - j) 10 (by norm_num))
    omega
  have hlong : LongDivision d.value.natAbs o.value.natAbs (o.scale - d.scale) := by
    classical
    have hle : Nat.find hex ≤ K := Nat.find_min' hex (by rw [mul_assoc, ← pow_add, habs, Nat.mul_mod_right])
    refine ⟨?_, Nat.find hex, ?_, .inl ⟨Nat.find_spec hex, ?_⟩⟩
    · have h1 := Nat.mul_le_mul_right (10 ^ (o.scale - d.scale)) (Nat.mod_le d.value.natAbs o.value.natAbs)
      have h2 := hN2 0 (by omega)
      rw [pow_zero, mul_one] at h2
      omega
    · intro j hj
      have h1 := hN1 j (by omega)
      refine ⟨Nat.find_min hex hj, lt_of_le_of_lt (Nat.mod_le _ _) h1, lt_of_le_of_lt (Nat.div_le_self _ _) h1⟩
    · exact lt_of_le_of_lt (Nat.div_le_self _ _) (hN2 _ hle)
  obtain ⟨hiff, hall⟩ := c12_ok_iff d o hd ho h0
  obtain ⟨r, hr, hlt⟩ := hiff.mpr hlong
  refine ⟨r, hr, (hall r hr hlt).2.2.2 ?_⟩
  have hvf : Fits v := by
    have h1 := Nat.le_mul_of_pos_left v.natAbs hO
    unfold Fits
    omega
  have hp := fun k => (pow10_pos k).ne'
  have hoq : (o.value : ℚ) ≠ 0 := by exact_mod_cast h0
  have hvq : (d.value : ℚ) * 10 ^ (o.scale - d.scale + K) = o.value * v := by exact_mod_cast hv
  refine ⟨v, K + (d.scale - o.scale), hvf, ?_⟩
  unfold Decimal.num
  rw [div_div_div_eq, div_eq_div_iff (mul_ne_zero (hp _) hoq) (hp _)]
  have e : (10 : ℚ) ^ o.scale * 10 ^ (K + (d.scale - o.scale)) = 10 ^ (o.scale - d.scale + K) * 10 ^ d.scale := by
    rw [← pow_add, ← pow_add]; congr 1; omega
  rw [mul_assoc, e, ← mul_assoc, hvq]
  ring

example := c125_short ⟨1, 0, false⟩ ⟨4, 1, false⟩ (by decide) (by decide) (by decide) 1 (by decide) (by decide)

/-- C125. Div undoes an exact Mul: if the product of the unscaled values has at most 18 digits and the fractional digits add up to at most 18, then
x.Mul(y) followed by Div(y) returns x, for every y but zero, whether or not the Decimals drop trailing zeros. -/
theorem c125_roundtrip (d o : Decimal) (hd : d.Valid) (ho : o.Valid) (h0 : o.num ≠ 0)
    (hp : |d.value * o.value| < 1000000000000000000) (hs : d.scale + o.scale ≤ 18) :
    ∃ p r, d.mul o = .ok p ∧ p.div o = some (.ok r) ∧ r.num = d.num := by
  have h0' : o.value ≠ 0 := fun h => h0 (by unfold Decimal.num; rw [h]; simp)
  obtain ⟨p, hpm, hpn, hpv⟩ := c09_exact d o hd ho hp hs
  have hps : p.scale ≤ d.scale + o.scale := by
    have hp' : d.value.natAbs * o.value.natAbs < 1000000000000000000 := by
      have : ((d.value.natAbs * o.value.natAbs : Nat) : Int) = |d.value * o.value| := by rw [abs_mul]; push_cast; rfl
      omega
    have hm := mul_core_small d o hd ho hp'
    rw [hpm] at hm
    simp only [mulFinish, show d.scale + o.scale - 18 = 0 by omega, mulScaleDown, Out.ok.injEq] at hm
    rw [hm]
    refine le_trans (applyNormalization_valid _ ?_).2 (Nat.min_le_left _ _)
    generalize d.value.natAbs * o.value.natAbs = q at *
    show Fits (if _ then _ else _)
    have hq0 : (0 : Int) ≤ (q : Int) := Int.natCast_nonneg q
    have hq1 : (q : Int) < 1000000000000000000 := by exact_mod_cast hp'
    rw [w_id (x := -(q : Int)) (by linarith) (by linarith)]
    unfold Fits
    by_cases hc : decide (d.value ≥ 0) = decide (o.value ≥ 0)
    · rw [if_pos hc]; constructor <;> linarith
    · rw [if_neg hc]; constructor <;> linarith
  obtain ⟨t, ht⟩ : ∃ t, d.scale + o.scale = p.scale + t := ⟨_, (Nat.add_sub_cancel' hps).symm⟩
  have hval : p.value * 10 ^ t = d.value * o.value := by
    have hq := fun k => (pow10_pos k).ne'
    unfold Decimal.num at hpn
    rw [div_mul_div_comm, ← pow_add, ht, div_eq_div_iff (hq _) (hq _), pow_add] at hpn
    have : ((p.value * 10 ^ t : Int) : ℚ) = ((d.value * o.value : Int) : ℚ) := by
      push_cast
      have h3 : ((p.value : ℚ) * 10 ^ t) * 10 ^ p.scale = (d.value * o.value) * 10 ^ p.scale := by rw [← hpn]; ring
      exact mul_right_cancel₀ (hq _) h3
    exact_mod_cast this
  obtain ⟨r, hr, hn⟩ := c125_short p o hpv ho h0' (t - (o.scale - p.scale)) (by
    rw [Nat.add_sub_cancel' (by omega), hval]; exact Dvd.intro_left _ rfl) (by
    rw [Nat.add_sub_cancel' (by omega)]
    have : |p.value| * 10 ^ t = |p.value * 10 ^ t| := by rw [abs_mul, abs_pow]; norm_num
    rw [this, hval]; exact hp)
  refine ⟨p, r, hpm, hr, ?_⟩
  rw [hn, hpn, mul_div_assoc, div_self h0, mul_one]

example := c125_roundtrip ⟨25, 1, false⟩ ⟨4, 1, false⟩ (by decide) (by decide) (by norm_num [Decimal.num]) (by decide) (by decide)

end Micro.Dec
