import Verif.Decimal.AlgProps
set_option linter.unusedSimpArgs false
/-
C07 and C124, sharpened: what Add does for the operands without room for zeros, exactly; and how far off a sum of many Decimals can be.
-/
namespace Micro.Dec
open Micro

theorem outNum_comm (d o : Decimal) (hd : d.Valid) (ho : o.Valid) : outNum (d.add o) = outNum (o.add d) := by
  rcases c08_comm d o hd ho with ⟨r, s, h1, h2, h3⟩ | ⟨e, h1, h2⟩ | ⟨h1, h2⟩
  · rw [h1, h2]; simp only [outNum, h3]
  · rw [h1, h2]
  · rw [h1, h2]

/-- C07. Add of operands c and f where f has more fractional digits and c no room for the zeros (the case left out of `c07_add`), exactly and in
either order: an error if c has 18 digits and is within 5 of the largest, a panic if f has fewer digits than would have to be cut off; otherwise f is
rounded to the scale of c, halves away from zero, and the sum is that of c and the rounded number, or an error if it does not fit. -/
theorem c07_add_exact (c f : Decimal) (hc : c.Valid) (hf : f.Valid) (hs : c.scale < f.scale) (hr : ¬ Room c f) :
    outNum (f.add c) = outNum (c.add f) ∧ ∃ v : Int, IsRoundHalfAway (f.num * 10 ^ c.scale) v ∧
      outNum (c.add f) =
        if c.value > 999999999999999994 then .err .tooLargeToRound
        else if c.value < -999999999999999994 then .err .tooSmallToRound
        else if numDigits f.value < f.scale - c.scale then .panic
        else if c.value + v > 999999999999999999 then .err .overflow
        else if c.value + v < -999999999999999999 then .err .underflow
        else .ok ((c.value + v : Int) / 10 ^ c.scale) := by
  refine ⟨outNum_comm f c hf hc, roundHalfAway f.value (f.scale - c.scale), ?_, ?_⟩
  · rw [num_scaled f c hs]
    exact roundHalfAway_spec _ _
  · unfold Room at hr
    rw [if_pos (by omega), Nat.max_eq_right (by omega), Nat.min_eq_left (by omega)] at hr
    have hspec := adjustLarger_spec f c hf.1 hc.1 hs
    rw [if_neg hr] at hspec
    have hadj : adjustDecimalScale c f = (adjustLarger f c).map fun x => (x.1, x.2.2, x.2.1) := by
      unfold adjustDecimalScale
      rw [if_neg (by omega), if_pos hs]
      cases adjustLarger f c with
      | none => rfl
      | some x => rfl
    by_cases g1 : c.value > 999999999999999994
    · rw [if_pos g1] at hspec ⊢
      rw [hspec] at hadj
      unfold Decimal.add addDecimal
      rw [hadj]; rfl
    · rw [if_neg g1] at hspec ⊢
      by_cases g2 : c.value < -999999999999999994
      · rw [if_pos g2] at hspec ⊢
        rw [hspec] at hadj
        unfold Decimal.add addDecimal
        rw [hadj]; rfl
      · rw [if_neg g2] at hspec ⊢
        by_cases g3 : numDigits f.value < f.scale - c.scale
        · rw [if_pos g3] at hspec ⊢
          rw [hspec] at hadj
          unfold Decimal.add addDecimal
          rw [hadj]; rfl
        · rw [if_neg g3] at hspec ⊢
          rw [hspec] at hadj
          simp only [Option.map_some] at hadj
          rw [add_eq c f _ _ hadj hc.1 (roundHalfAway_fits _ _ (by omega) hf.1)]
          simp only
          by_cases g4 : c.value + roundHalfAway f.value (f.scale - c.scale) > 999999999999999999
          · rw [if_pos g4, if_pos g4]; rfl
          · rw [if_neg g4, if_neg g4]
            by_cases g5 : c.value + roundHalfAway f.value (f.scale - c.scale) < -999999999999999999
            · rw [if_pos g5, if_pos g5]; rfl
            · rw [if_neg g5, if_neg g5]
              simp only [outNum]
              rw [applyNormalization_num _ (by simp only; omega) (by simp only; omega)]
              rfl

/-- 12345678901234567 and 0.15: 17 digits have no room for two zeros. -/
example := c07_add_exact ⟨12345678901234567, 0, false⟩ ⟨15, 2, false⟩ (by decide) (by decide) (by decide) (by
  unfold Room
  have h : 17 ≤ numDigits 12345678901234567 := by
    by_contra hlt
    have := (natChars_length_le (12345678901234567 : Int).natAbs 16 (by omega)).1 (by unfold numDigits at hlt; omega)
    revert this; decide
  simp only [Nat.zero_le, if_true]
  rw [Nat.max_eq_right (by omega), Nat.min_eq_left (by omega)]
  omega)

/-- C07. When the sum returned is exact, for all valid operands: if there is room, when the sum has at most 18 digits; if there is none, when the
digits that are cut off are zeros, there are enough of them, the coarser operand is not within 5 of the largest, and the sum has at most 18 digits. -/
theorem c07_exact_iff (c f : Decimal) (hc : c.Valid) (hf : f.Valid) (hs : c.scale ≤ f.scale) :
    outNum (c.add f) = .ok (c.num + f.num) ↔
      (Room c f ∧ FitsAt (c.num + f.num) f.scale) ∨
      (¬ Room c f ∧ (∃ v : Int, f.value = v * 10 ^ (f.scale - c.scale)) ∧ f.scale - c.scale ≤ numDigits f.value ∧
        |c.value| ≤ 999999999999999994 ∧ FitsAt (c.num + f.num) c.scale) := by
  by_cases hr : Room c f
  · simp only [hr, true_and, not_true, false_and, or_false]
    have h := c07_add c f hc hf hr
    rw [Nat.max_eq_right hs] at h
    constructor
    · intro he
      by_contra hn
      rcases h.2 hn with ⟨-, h'⟩ | ⟨-, h'⟩ <;> rw [h'] at he <;> cases he
    · intro hfit
      obtain ⟨r, h1, h2, -⟩ := h.1 hfit
      rw [h1]; simp only [outNum, h2]
  · simp only [hr, false_and, not_false_iff, true_and, false_or]
    have hlt : c.scale < f.scale := by
      rcases Nat.lt_or_eq_of_le hs with h | h
      · exact h
      · exfalso; apply hr
        unfold Room
        rw [h]
        simp only [le_refl, if_true, Nat.max_self, Nat.min_self, Nat.sub_self, Nat.add_zero]
        exact fits_digits hc.1
    obtain ⟨-, v, hv, he⟩ := c07_add_exact c f hc hf hlt hr
    obtain ⟨k, hk⟩ : ∃ k, f.scale = c.scale + k := ⟨f.scale - c.scale, by omega⟩
    have hp : (0 : ℚ) < 10 ^ c.scale := by positivity
    have hpk : (0 : ℚ) < 10 ^ k := by positivity
    -- the exact case
    have hexact : ((c.value + v : Int) : ℚ) / 10 ^ c.scale = c.num + f.num ↔ f.num * 10 ^ c.scale = v := by
      unfold Decimal.num
      rw [div_eq_iff hp.ne', add_mul, div_mul_cancel₀ _ hp.ne']
      push_cast
      constructor
      · intro h; linarith
      · intro h; linarith
    have hzero : f.num * 10 ^ c.scale = v ↔ f.value = v * 10 ^ k := by
      rw [num_scaled f c hlt, hk, Nat.add_sub_cancel_left, div_eq_iff hpk.ne']
      constructor
      · intro h; exact_mod_cast h
      · intro h; rw [h]; push_cast; ring
    have huniq : ∀ v' : Int, f.value = v' * 10 ^ k → v' = v := by
      intro v' h'
      have hx : f.num * 10 ^ c.scale = (v' : ℚ) := by
        rw [num_scaled f c hlt, hk, Nat.add_sub_cancel_left, div_eq_iff hpk.ne', h']; push_cast; ring
      rw [hx] at hv
      have h1 := hv.1
      have h2 : |((v' - v : Int) : ℚ)| ≤ 1 / 2 := by push_cast; exact h1
      have h3 : |v' - v| < 1 := by
        have : ((|v' - v| : Int) : ℚ) < 1 := by rw [Int.cast_abs]; linarith
        exact_mod_cast this
      have := abs_lt.1 h3
      omega
    rw [hk, Nat.add_sub_cancel_left] at he ⊢
    rw [he, abs_le]
    constructor
    · intro h
      by_cases g1 : c.value > 999999999999999994
      · rw [if_pos g1] at h; cases h
      · rw [if_neg g1] at h
        by_cases g2 : c.value < -999999999999999994
        · rw [if_pos g2] at h; cases h
        · rw [if_neg g2] at h
          by_cases g3 : numDigits f.value < k
          · rw [if_pos g3] at h; cases h
          · rw [if_neg g3] at h
            by_cases g4 : c.value + v > 999999999999999999
            · rw [if_pos g4] at h; cases h
            · rw [if_neg g4] at h
              by_cases g5 : c.value + v < -999999999999999999
              · rw [if_pos g5] at h; cases h
              · rw [if_neg g5] at h
                simp only [Out.ok.injEq] at h
                refine ⟨⟨v, hzero.1 (hexact.1 h)⟩, by omega, by omega, c.value + v, by unfold Fits; omega, h.symm⟩
    · rintro ⟨⟨v', hv'⟩, g3, g12, g45⟩
      have e := huniq v' hv'
      rw [e] at hv'
      have hx := hexact.2 (hzero.2 hv')
      rw [fitsAt_iff (c.value + v) _ _ hx.symm] at g45
      unfold Fits at g45
      rw [if_neg (by omega), if_neg (by omega), if_neg (by omega), if_neg (by omega), if_neg (by omega), hx]

example := (c07_exact_iff ⟨5, 0, false⟩ ⟨25, 2, false⟩ (by decide) (by decide) (by decide)).2 (.inl ⟨by unfold Room; decide +kernel, 525, by unfold Fits; decide, by norm_num [Decimal.num]⟩)

theorem ulp_le_one (s : Nat) : ulp s ≤ 1 := by
  unfold ulp
  rw [div_le_one (by positivity)]
  exact one_le_pow₀ (by norm_num)

/-- C124. How far off a sum of many Decimals can be, whatever their digits and their order: if every Add returns a number, each addition is wrong by
at most one half, so the result is wrong by at most half the number of additions, and two orders differ by at most that number. -/
theorem c124_error (z : Decimal) (xs : List Decimal) (hz : z.Valid) (hxs : ∀ x ∈ xs, x.Valid) (r : Decimal) (h : addAll z xs = .ok r) :
    r.Valid ∧ |r.num - (z.num + (xs.map Decimal.num).sum)| ≤ xs.length / 2 := by
  induction xs generalizing z with
  | nil => simp only [addAll, Out.ok.injEq] at h; subst h; exact ⟨hz, by simp⟩
  | cons x xs ih =>
    simp only [addAll] at h
    cases hadd : z.add x with
    | err e => rw [hadd] at h; cases h
    | panic => rw [hadd] at h; cases h
    | ok y =>
      rw [hadd] at h
      obtain ⟨hy, he⟩ := c07_add_error z x y hz (hxs x (by simp)) hadd
      obtain ⟨hr, hb⟩ := ih y hy (fun x hx => hxs x (by simp [hx])) h
      refine ⟨hr, ?_⟩
      have hu := ulp_le_one (min z.scale x.scale)
      simp only [List.map_cons, List.sum_cons, List.length_cons]
      push_cast
      rw [abs_le] at he hb ⊢
      constructor <;> linarith [he.1, he.2, hb.1, hb.2]

example : ∃ r, addAll ⟨1, 1, false⟩ [⟨25, 2, false⟩, ⟨-3, 0, false⟩] = .ok r := ⟨⟨-265, 2, false⟩, by decide +kernel⟩

/-- C124. Two orders of the same additions, when both return a number, differ by at most the number of additions. -/
theorem c124_orders (z : Decimal) (xs ys : List Decimal) (hp : xs.Perm ys) (hz : z.Valid) (hxs : ∀ x ∈ xs, x.Valid) (r s : Decimal)
    (h : addAll z xs = .ok r) (h' : addAll z ys = .ok s) : |r.num - s.num| ≤ xs.length := by
  have h1 := (c124_error z xs hz hxs r h).2
  have h2 := (c124_error z ys hz (fun y hy => hxs y (hp.mem_iff.mpr hy)) s h').2
  rw [← (hp.map Decimal.num).sum_eq, ← hp.length_eq] at h2
  rw [abs_le] at h1 h2 ⊢
  constructor <;> linarith [h1.1, h1.2, h2.1, h2.2]

example := c124_orders ⟨1, 1, false⟩ [⟨25, 2, false⟩, ⟨-3, 0, false⟩] [⟨-3, 0, false⟩, ⟨25, 2, false⟩] (List.Perm.swap _ _ _) (by decide) (by decide)

end Micro.Dec
