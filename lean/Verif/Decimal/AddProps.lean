import Verif.Decimal.AddLemmas
set_option linter.unusedSimpArgs false
/-
C06-C08: AdjustDecimalScale, Add and Sub.
-/
namespace Micro.Dec
open Micro

theorem IsRoundHalfAway.neg {x : ℚ} {r : Int} (h : IsRoundHalfAway x r) : IsRoundHalfAway (-x) (-r) := by
  unfold IsRoundHalfAway at *
  push_cast
  have e : -x - -(r : ℚ) = -(x - r) := by ring
  rw [e, abs_neg, abs_neg, abs_neg]
  exact h

theorem roundHalfUp_nat (n k : Nat) :
    IsRoundHalfAway ((n : ℚ) / 10 ^ k) (((2 * n + 10 ^ k) / (2 * 10 ^ k) : Nat) : Int) := by
  set r := (2 * n + 10 ^ k) / (2 * 10 ^ k) with hr
  have hp : 0 < 10 ^ k := by positivity
  have h1 : r * (2 * 10 ^ k) ≤ 2 * n + 10 ^ k := Nat.div_mul_le_self _ _
  have h2 : 2 * n + 10 ^ k < (r + 1) * (2 * 10 ^ k) := by
    rw [← Nat.div_lt_iff_lt_mul (by omega)]; omega
  have hp' : (0 : ℚ) < 10 ^ k := by positivity
  have h1' : (r : ℚ) * (2 * 10 ^ k) ≤ 2 * n + 10 ^ k := by exact_mod_cast h1
  have h2' : (2 * n + 10 ^ k : ℚ) < (r + 1) * (2 * 10 ^ k) := by exact_mod_cast h2
  have hx : (n : ℚ) = (n : ℚ) / 10 ^ k * 10 ^ k := by field_simp
  set x := (n : ℚ) / 10 ^ k with hxd
  have hx0 : 0 ≤ x := by positivity
  rw [hx] at h1' h2'
  have g1 : (r : ℚ) - x ≤ 1 / 2 := by
    by_contra hc; push Not at hc
    nlinarith
  have g2 : x - r < 1 / 2 := by
    by_contra hc; push Not at hc
    nlinarith
  unfold IsRoundHalfAway
  simp only [Int.cast_natCast]
  refine ⟨by rw [abs_le]; constructor <;> linarith, ?_⟩
  intro he
  rw [abs_of_nonneg hx0, abs_of_nonneg (by positivity)]
  rcases abs_cases (x - (r : ℚ)) with ⟨h, _⟩ | ⟨h, _⟩ <;> linarith

theorem roundHalfAway_spec (v : Int) (k : Nat) : IsRoundHalfAway ((v : ℚ) / 10 ^ k) (roundHalfAway v k) := by
  unfold roundHalfAway
  have h := roundHalfUp_nat v.natAbs k
  split
  · rename_i hv
    have e : (v : ℚ) / 10 ^ k = -((v.natAbs : ℚ) / 10 ^ k) := by
      have : (v.natAbs : ℚ) = -(v : ℚ) := by
        rw [Nat.cast_natAbs, Int.cast_abs, abs_of_neg (by exact_mod_cast hv)]
      rw [this]; ring
    rw [e]; exact h.neg
  · rename_i hv
    have e : (v : ℚ) = (v.natAbs : ℚ) := by
      rw [Nat.cast_natAbs, Int.cast_abs, abs_of_nonneg (by push Not at hv; exact_mod_cast hv)]
    rw [e]; exact h

/-- The symmetric relation between the two operands before and after a successful AdjustDecimalScale:
both keep their number, or the one with the larger scale was rounded to the scale of the other. -/
structure Aligned (d1 d2 a b : Decimal) : Prop where
  sameScale : a.scale = b.scale
  flags : a.denormalized = d1.denormalized ∧ b.denormalized = d2.denormalized
  fits : Fits a.value ∧ Fits b.value
  how : (a.num = d1.num ∧ b.num = d2.num ∧ a.scale = max d1.scale d2.scale) ∨
    (d2.scale < d1.scale ∧ b = d2 ∧ IsRoundHalfAway (d1.num * 10 ^ d2.scale) a.value) ∨
    (d1.scale < d2.scale ∧ a = d1 ∧ IsRoundHalfAway (d2.num * 10 ^ d1.scale) b.value)

theorem num_scaled (d1 d2 : Decimal) (h : d2.scale < d1.scale) :
    d1.num * 10 ^ d2.scale = (d1.value : ℚ) / 10 ^ (d1.scale - d2.scale) := by
  unfold Decimal.num
  obtain ⟨k, hk⟩ : ∃ k, d1.scale = d2.scale + k := ⟨d1.scale - d2.scale, by omega⟩
  rw [hk, Nat.add_sub_cancel_left, pow_add]
  field_simp

theorem num_extend (d : Decimal) (m : Nat) (h : d.scale ≤ m) (b : Bool) :
    (⟨d.value * 10 ^ (m - d.scale), m, b⟩ : Decimal).num = d.num := by
  unfold Decimal.num
  obtain ⟨k, hk⟩ : ∃ k, m = d.scale + k := ⟨m - d.scale, by omega⟩
  simp only [hk, Nat.add_sub_cancel_left, pow_add]
  push_cast
  field_simp

theorem adjustLarger_aligned (d1 d2 : Decimal) (h1 : Fits d1.value) (h2 : Fits d2.value) (hs : d2.scale < d1.scale)
    (e : Option DErr) (a b : Decimal) (h : adjustLarger d1 d2 = some (e, a, b)) :
    (e = none → Aligned d1 d2 a b) ∧ (e ≠ none → a = d1 ∧ b = d2 ∧ (e = some .tooLargeToRound ∨ e = some .tooSmallToRound)) := by
  rw [adjustLarger_spec d1 d2 h1 h2 hs] at h
  split at h
  · rename_i hr
    simp only [Option.some.injEq, Prod.mk.injEq] at h
    obtain ⟨rfl, rfl, rfl⟩ := h
    refine ⟨fun _ => ⟨rfl, ⟨rfl, rfl⟩, ⟨h1, room_fits _ _ hr⟩, .inl ⟨rfl, num_extend _ _ (by omega) _, ?_⟩⟩, by simp⟩
    omega
  · split at h
    · simp only [Option.some.injEq, Prod.mk.injEq] at h
      obtain ⟨rfl, rfl, rfl⟩ := h
      simp
    · split at h
      · simp only [Option.some.injEq, Prod.mk.injEq] at h
        obtain ⟨rfl, rfl, rfl⟩ := h
        simp
      · split at h
        · simp at h
        · simp only [Option.some.injEq, Prod.mk.injEq] at h
          obtain ⟨rfl, rfl, rfl⟩ := h
          refine ⟨fun _ => ⟨rfl, ⟨rfl, rfl⟩, ⟨roundHalfAway_fits _ _ (by omega) h1, h2⟩, .inr (.inl ⟨hs, rfl, ?_⟩)⟩, by simp⟩
          rw [num_scaled d1 d2 hs]
          exact roundHalfAway_spec _ _

theorem Aligned.swap {d1 d2 a b : Decimal} (h : Aligned d1 d2 a b) : Aligned d2 d1 b a := by
  refine ⟨h.sameScale.symm, h.flags.symm, h.fits.symm, ?_⟩
  rcases h.how with ⟨x, y, z⟩ | ⟨x, y, z⟩ | ⟨x, y, z⟩
  · exact .inl ⟨y, x, by rw [← h.sameScale, z, max_comm]⟩
  · exact .inr (.inr ⟨x, y, z⟩)
  · exact .inr (.inl ⟨x, y, z⟩)

/-! ### C06: AdjustDecimalScale -/

/-- C06, the part that holds: whenever AdjustDecimalScale returns (it may panic, see `c06_panic_refuted`),
it either fails and leaves both operands alone, or makes the scales equal, keeping both numbers or rounding
the operand of larger scale half away from zero. Missing from the full statement: "never panics". -/
theorem c06_adjust_partial (d1 d2 : Decimal) (h1 : d1.Valid) (h2 : d2.Valid) (e : Option DErr) (a b : Decimal)
    (h : adjustDecimalScale d1 d2 = some (e, a, b)) :
    (e = none → Aligned d1 d2 a b) ∧
    (e ≠ none → a = d1 ∧ b = d2 ∧ (e = some .tooLargeToRound ∨ e = some .tooSmallToRound)) := by
  unfold adjustDecimalScale at h
  split at h
  · rename_i hs
    simp only [Option.some.injEq, Prod.mk.injEq] at h
    obtain ⟨rfl, rfl, rfl⟩ := h
    exact ⟨fun _ => ⟨hs, ⟨rfl, rfl⟩, ⟨h1.1, h2.1⟩, .inl ⟨rfl, rfl, by omega⟩⟩, by simp⟩
  · split at h
    · rename_i hs
      cases hl : adjustLarger d2 d1 with
      | none => rw [hl] at h; simp at h
      | some x =>
        obtain ⟨e', b', a'⟩ := x
        rw [hl] at h
        simp only [Option.some.injEq, Prod.mk.injEq] at h
        obtain ⟨rfl, rfl, rfl⟩ := h
        have := adjustLarger_aligned d2 d1 h2.1 h1.1 hs _ _ _ hl
        exact ⟨fun h => (this.1 h).swap, fun h => ⟨(this.2 h).2.1, (this.2 h).1, (this.2 h).2.2⟩⟩
    · exact adjustLarger_aligned d1 d2 h1.1 h2.1 (by omega) _ _ _ h

example (e : Option DErr) (a b : Decimal) (h : adjustDecimalScale ⟨15, 1, false⟩ ⟨225, 2, false⟩ = some (e, a, b)) :=
  c06_adjust_partial ⟨15, 1, false⟩ ⟨225, 2, false⟩ (by decide) (by decide) e a b h

/-- C06. The operands for which AdjustDecimalScale panics: the operand with fewer fractional digits has no
room for the missing zeros, and the other one has fewer digits than would have to be cut off. -/
theorem c06_panics_iff (d1 d2 : Decimal) (h1 : d1.Valid) (h2 : d2.Valid) :
    adjustDecimalScale d1 d2 = none ↔
      (d2.scale < d1.scale ∧ 18 < numDigits d2.value + (d1.scale - d2.scale) ∧ |d2.value| ≤ 999999999999999994 ∧
        numDigits d1.value < d1.scale - d2.scale) ∨
      (d1.scale < d2.scale ∧ 18 < numDigits d1.value + (d2.scale - d1.scale) ∧ |d1.value| ≤ 999999999999999994 ∧
        numDigits d2.value < d2.scale - d1.scale) := by
  have key : ∀ d1 d2 : Decimal, Fits d1.value → Fits d2.value → d2.scale < d1.scale →
      (adjustLarger d1 d2 = none ↔ (18 < numDigits d2.value + (d1.scale - d2.scale) ∧ |d2.value| ≤ 999999999999999994 ∧
        numDigits d1.value < d1.scale - d2.scale)) := by
    intro d1 d2 h1 h2 hs
    rw [adjustLarger_spec d1 d2 h1 h2 hs, abs_le]
    split
    · simp; omega
    · split
      · simp; omega
      · split
        · simp; omega
        · split
          · simp; omega
          · simp; omega
  unfold adjustDecimalScale
  split
  · rename_i hs
    simp [hs]
  · split
    · rename_i hs
      have k := key d2 d1 h2.1 h1.1 hs
      have : ¬ d2.scale < d1.scale := by omega
      simp only [this, false_and, false_or, hs, true_and]
      rw [← k]
      cases adjustLarger d2 d1 <;> simp
    · rename_i hs1 hs2
      have hs : d2.scale < d1.scale := by omega
      simp only [hs2, false_and, or_false, hs, true_and]
      exact key d1 d2 h1.1 h2.1 hs

example := c06_panics_iff ⟨123456789012345678, 0, false⟩ ⟨1, 2, false⟩ (by decide) (by decide)

/-- C06 is false as stated: two valid Decimals, 0.000000000000000001 and 0, make AdjustDecimalScale panic. -/
theorem c06_panic_refuted :
    ∃ d1 d2 : Decimal, d1.Valid ∧ d2.Valid ∧ adjustDecimalScale d1 d2 = none := by
  refine ⟨⟨1, 18, false⟩, ⟨0, 0, false⟩, by decide, by decide, ?_⟩
  rw [c06_panics_iff _ _ (by decide) (by decide)]
  left
  have h0 : numDigits 0 = 1 := by unfold numDigits; rw [Int.natAbs_zero, natChars_zero]; rfl
  have h1 : numDigits 1 = 1 := by unfold numDigits; rw [show (1 : Int).natAbs = 1 from rfl, natChars]; rfl
  simp [h0, h1]

/-- Non-vacuity: 1.5 and 2 are aligned as 1.5 and 2.0; 0.15 and 99999999999999999 are aligned by rounding. -/
example : adjustDecimalScale ⟨15, 1, false⟩ ⟨2, 0, false⟩ = some (none, ⟨15, 1, false⟩, ⟨20, 1, false⟩) := by
  have h0 : numDigits 2 = 1 := by unfold numDigits; rw [show (2 : Int).natAbs = 2 from rfl, natChars]; rfl
  unfold adjustDecimalScale
  rw [if_neg (by decide), if_neg (by decide), adjustLarger_spec _ _ (by decide) (by decide) (by decide)]
  simp [h0]

/-! ### C07: Add and Sub -/

theorem add_eq (d o a b : Decimal) (h : adjustDecimalScale d o = some (none, a, b)) (ha : Fits a.value) (hb : Fits b.value) :
    d.add o = if a.value + b.value > 999999999999999999 then .err .overflow
      else if a.value + b.value < -999999999999999999 then .err .underflow
      else .ok (Decimal.applyNormalization ⟨a.value + b.value, a.scale, a.denormalized⟩) := by
  rw [← add_aligned a b ha hb]
  unfold Decimal.add addDecimal
  rw [h]

theorem fitsAt_iff (S : Int) (m : Nat) (x : ℚ) (h : x = S / 10 ^ m) : FitsAt x m ↔ Fits S := by
  constructor
  · rintro ⟨v, hv, hx⟩
    rw [h, div_left_inj' (by positivity)] at hx
    have : S = v := by exact_mod_cast hx
    rw [this]; exact hv
  · intro hS; exact ⟨S, hS, h⟩

theorem room_adjust (d o : Decimal) (hd : d.Valid) (ho : o.Valid) (hr : Room d o) :
    adjustDecimalScale d o = some (none, ⟨d.at (max d.scale o.scale), max d.scale o.scale, d.denormalized⟩,
      ⟨o.at (max d.scale o.scale), max d.scale o.scale, o.denormalized⟩) := by
  unfold Room at hr
  unfold adjustDecimalScale Decimal.at
  split
  · rename_i hs
    cases d; cases o
    simp only at hs
    subst hs
    simp
  · split
    · rename_i hs
      rw [if_pos (by omega)] at hr
      have e1 : max d.scale o.scale = o.scale := by omega
      have e2 : min d.scale o.scale = d.scale := by omega
      rw [e1, e2] at hr
      rw [adjustLarger_spec o d ho.1 hd.1 hs, if_pos hr, e1]
      simp
    · rename_i hs1 hs2
      rw [if_neg (by omega)] at hr
      have e1 : max d.scale o.scale = d.scale := by omega
      have e2 : min d.scale o.scale = o.scale := by omega
      rw [e1, e2] at hr
      rw [adjustLarger_spec d o hd.1 ho.1 (by omega), if_pos hr, e1]
      simp

theorem room_fits_at (d o : Decimal) (hd : d.Valid) (ho : o.Valid) (hr : Room d o) :
    Fits (d.at (max d.scale o.scale)) ∧ Fits (o.at (max d.scale o.scale)) := by
  unfold Room at hr
  unfold Decimal.at
  split at hr
  · rename_i hs
    rw [Nat.max_eq_right hs, Nat.min_eq_left hs] at hr
    rw [Nat.max_eq_right hs, Nat.sub_self, pow_zero, mul_one]
    exact ⟨room_fits _ _ hr, ho.1⟩
  · rename_i hs
    have hs' : o.scale ≤ d.scale := by omega
    rw [Nat.max_eq_left hs', Nat.min_eq_right hs'] at hr
    rw [Nat.max_eq_left hs', Nat.sub_self, pow_zero, mul_one]
    exact ⟨hd.1, room_fits _ _ hr⟩

/-- C07. If the operand with fewer fractional digits has room for the missing zeros, Add returns exactly the
sum when the sum fits in 18 digits at the larger of the two scales, and an overflow or underflow error
otherwise. -/
theorem c07_add (d o : Decimal) (hd : d.Valid) (ho : o.Valid) (hr : Room d o) :
    (FitsAt (d.num + o.num) (max d.scale o.scale) →
      ∃ r, d.add o = .ok r ∧ r.num = d.num + o.num ∧ r.Valid) ∧
    (¬ FitsAt (d.num + o.num) (max d.scale o.scale) →
      (0 < d.num + o.num ∧ d.add o = .err .overflow) ∨ (d.num + o.num < 0 ∧ d.add o = .err .underflow)) := by
  have hf := room_fits_at d o hd ho hr
  have ha := add_eq d o _ _ (room_adjust d o hd ho hr) hf.1 hf.2
  simp only at ha
  set m := max d.scale o.scale with hm
  have hsum : d.num + o.num = ((d.at m + o.at m : Int) : ℚ) / 10 ^ m := by
    have e1 := num_extend d m (by omega) false
    have e2 := num_extend o m (by omega) false
    unfold Decimal.num at e1 e2 ⊢
    simp only at e1 e2
    unfold Decimal.at
    rw [← e1, ← e2]
    push_cast; ring
  rw [fitsAt_iff _ _ _ hsum]
  constructor
  · intro hS
    have hS' := hS
    unfold Fits at hS'
    rw [if_neg (by omega), if_neg (by omega)] at ha
    refine ⟨_, ha, ?_, ?_⟩
    · rw [applyNormalization_num _ (by simp only; omega) (by simp only; omega), hsum]; rfl
    · have := applyNormalization_valid ⟨d.at m + o.at m, m, d.denormalized⟩ hS
      refine ⟨this.1, le_trans this.2 ?_⟩
      have h1 := hd.2; have h2 := ho.2
      simp only; omega
  · intro hS
    unfold Fits at hS
    by_cases hg : d.at m + o.at m > 999999999999999999
    · left
      rw [if_pos hg] at ha
      refine ⟨?_, ha⟩
      rw [hsum]
      apply div_pos _ (by positivity)
      have : 0 < d.at m + o.at m := by omega
      exact_mod_cast this
    · right
      rw [if_neg hg, if_pos (by omega)] at ha
      refine ⟨?_, ha⟩
      rw [hsum]
      apply div_neg_of_neg_of_pos _ (by positivity)
      have : d.at m + o.at m < 0 := by omega
      exact_mod_cast this

/-- 1.5 and -2.25: one zero is added to the first, which has two digits. -/
theorem room_case : Room ⟨15, 1, false⟩ ⟨-225, 2, false⟩ := by
  unfold Room
  have h : numDigits 15 ≤ 2 := by
    unfold numDigits
    rw [natChars_length_le _ _ (by omega)]; decide
  simp only [Nat.reduceLeDiff, if_true]
  omega

example := c07_add ⟨15, 1, false⟩ ⟨-225, 2, false⟩ (by decide) (by decide) room_case

theorem negate_room (d o : Decimal) (ho : o.Valid) (hr : Room d o) : Room d o.negate := by
  unfold Room at *
  have : numDigits o.negate.value = numDigits o.value := by
    unfold numDigits Decimal.negate
    simp only [w_neg ho.1.le63.1 ho.1.le63.2, Int.natAbs_neg]
  have e : o.negate.scale = o.scale := rfl
  rw [e]
  split
  · rename_i h; rw [if_pos h] at hr; exact hr
  · rename_i h; rw [if_neg h] at hr; rw [this]; exact hr

/-- C07. The same for Sub. -/
theorem c07_sub (d o : Decimal) (hd : d.Valid) (ho : o.Valid) (hr : Room d o) :
    (FitsAt (d.num - o.num) (max d.scale o.scale) →
      ∃ r, d.sub o = .ok r ∧ r.num = d.num - o.num ∧ r.Valid) ∧
    (¬ FitsAt (d.num - o.num) (max d.scale o.scale) →
      (0 < d.num - o.num ∧ d.sub o = .err .overflow) ∨ (d.num - o.num < 0 ∧ d.sub o = .err .underflow)) := by
  obtain ⟨h1, h2, h3, _⟩ := c14_negate o ho
  have := c07_add d o.negate hd h2 (negate_room d o ho hr)
  rw [h1, h3, ← sub_eq_add_neg] at this
  exact this

example := c07_sub ⟨15, 1, false⟩ ⟨-225, 2, false⟩ (by decide) (by decide) room_case

theorem aligned_error {d o a b : Decimal} (h : Aligned d o a b) :
    |(a.num + b.num) - (d.num + o.num)| ≤ ulp (min d.scale o.scale) / 2 := by
  have hb : ∀ (x : Decimal) (s : Nat) (v : Int), IsRoundHalfAway (x.num * 10 ^ s) v →
      |(v : ℚ) / 10 ^ s - x.num| ≤ ulp s / 2 := by
    intro x s v hv
    have hp := pow10_pos s
    have e : (v : ℚ) / 10 ^ s - x.num = -((x.num * 10 ^ s - v) / 10 ^ s) := by field_simp; ring
    rw [e, abs_neg, abs_div, abs_of_pos hp, div_le_iff₀ hp]
    unfold ulp
    have := hv.1
    have e2 : 1 / 10 ^ s / 2 * 10 ^ s = (1 : ℚ) / 2 := by field_simp
    rw [e2]; exact this
  rcases h.how with ⟨x, y, z⟩ | ⟨x, y, z⟩ | ⟨x, y, z⟩
  · rw [x, y, sub_self, abs_zero]
    unfold ulp; positivity
  · rw [min_eq_right (le_of_lt x), y]
    have hs := h.sameScale
    rw [y] at hs
    have := hb d o.scale a.value z
    have e : a.num + o.num - (d.num + o.num) = (a.value : ℚ) / 10 ^ o.scale - d.num := by
      unfold Decimal.num; rw [hs]; ring
    rw [e]; exact this
  · rw [min_eq_left (le_of_lt x), y]
    have hs := h.sameScale
    rw [y] at hs
    have := hb o d.scale b.value z
    have e : d.num + b.num - (d.num + o.num) = (b.value : ℚ) / 10 ^ d.scale - o.num := by
      unfold Decimal.num; rw [hs]; ring
    rw [e]; exact this

/-- C07. Whatever the operands: if Add returns a result, it is valid and within half a unit in the last
place of the coarser operand of the exact sum. -/
theorem c07_add_error (d o r : Decimal) (hd : d.Valid) (ho : o.Valid) (h : d.add o = .ok r) :
    r.Valid ∧ |r.num - (d.num + o.num)| ≤ ulp (min d.scale o.scale) / 2 := by
  cases hadj : adjustDecimalScale d o with
  | none => unfold Decimal.add addDecimal at h; rw [hadj] at h; simp at h
  | some x =>
    obtain ⟨e, a, b⟩ := x
    cases e with
    | some e => unfold Decimal.add addDecimal at h; rw [hadj] at h; simp at h
    | none =>
      have hal := (c06_adjust_partial d o hd ho _ _ _ hadj).1 rfl
      rw [add_eq d o a b hadj hal.fits.1 hal.fits.2] at h
      split at h
      · simp at h
      · split at h
        · simp at h
        · rename_i g1 g2
          have hF : Fits (a.value + b.value) := by unfold Fits; omega
          simp only [Out.ok.injEq] at h
          have hv := applyNormalization_valid ⟨a.value + b.value, a.scale, a.denormalized⟩ hF
          have hn := applyNormalization_num ⟨a.value + b.value, a.scale, a.denormalized⟩ hF.le63.1 hF.le63.2
          rw [h] at hv hn
          have hsc : a.scale ≤ 18 := by
            have := hd.2; have := ho.2
            rcases hal.how with ⟨x, y, z⟩ | ⟨x, y, z⟩ | ⟨x, y, z⟩
            · omega
            · rw [hal.sameScale, y]; omega
            · rw [y]; omega
          refine ⟨⟨hv.1, le_trans hv.2 hsc⟩, ?_⟩
          have e : r.num = a.num + b.num := by
            rw [hn]; unfold Decimal.num; simp only [← hal.sameScale]; push_cast; ring
          rw [e]; exact aligned_error hal

example (r : Decimal) (h : (⟨999999999999999, 0, false⟩ : Decimal).add ⟨123456, 5, false⟩ = .ok r) := c07_add_error _ _ r (by decide) (by decide) h

/-- C07. The same for Sub. -/
theorem c07_sub_error (d o r : Decimal) (hd : d.Valid) (ho : o.Valid) (h : d.sub o = .ok r) :
    r.Valid ∧ |r.num - (d.num - o.num)| ≤ ulp (min d.scale o.scale) / 2 := by
  obtain ⟨h1, h2, h3, _⟩ := c14_negate o ho
  have := c07_add_error d o.negate r hd h2 h
  rw [h1, h3, ← sub_eq_add_neg] at this
  exact this

theorem numDigits_one_le (v : Int) : 1 ≤ numDigits v := natChars_length_pos _

theorem numDigits_le_of (v : Int) (k : Nat) (hk : 0 < k) (h : v.natAbs < 10 ^ k) : numDigits v ≤ k :=
  (natChars_length_le _ _ hk).mpr h

/-- Non-vacuity: 1.5 + 2 has room and fits; 999999999999999999 + 1 has room and does not fit. -/
example : Room ⟨15, 1, false⟩ ⟨2, 0, false⟩ ∧ FitsAt ((⟨15, 1, false⟩ : Decimal).num + (⟨2, 0, false⟩ : Decimal).num) 1 ∧
    Room ⟨999999999999999999, 0, false⟩ ⟨1, 0, false⟩ ∧
    (⟨999999999999999999, 0, false⟩ : Decimal).add ⟨1, 0, false⟩ = .err .overflow := by
  refine ⟨?_, ⟨35, by decide, by unfold Decimal.num; norm_num⟩, ?_, by decide⟩
  · have := numDigits_le_of 2 1 (by omega) (by norm_num)
    unfold Room; simp; omega
  · have := numDigits_le_of 999999999999999999 18 (by omega) (by norm_num)
    unfold Room; simp; omega

/-! ### C08: algebraic laws -/

/-- C08 is false as stated: 0.5 written with 18 digits plus 0 is 1 and 0.000000000000000001 plus 0 panics. -/
theorem c08_identity_refuted :
    (∃ x r : Decimal, x.Valid ∧ x.add ⟨0, 0, false⟩ = .ok r ∧ r.num ≠ x.num) ∧
    (∃ x : Decimal, x.Valid ∧ x.add ⟨0, 0, false⟩ = .panic) := by
  have h0 : numDigits 0 = 1 := by unfold numDigits; rw [Int.natAbs_zero, natChars_zero]; rfl
  constructor
  · have h5 : numDigits 500000000000000001 = 18 := by
      apply le_antisymm (numDigits_le_of _ _ (by omega) (by norm_num))
      by_contra hc
      have h17 : numDigits 500000000000000001 ≤ 17 := by omega
      have := (natChars_length_le _ _ (by omega)).mp h17
      norm_num at this
    refine ⟨⟨500000000000000001, 18, false⟩, ⟨1, 0, false⟩, by decide, ?_, by unfold Decimal.num; norm_num⟩
    have hadj : adjustDecimalScale ⟨500000000000000001, 18, false⟩ ⟨0, 0, false⟩ = some (none, ⟨1, 0, false⟩, ⟨0, 0, false⟩) := by
      unfold adjustDecimalScale
      rw [if_neg (by decide), if_neg (by decide), adjustLarger_spec _ _ (by decide) (by decide) (by decide)]
      simp [h0, h5, roundHalfAway]
    rw [add_eq _ _ _ _ hadj (by decide) (by decide)]
    decide
  · refine ⟨⟨1, 18, false⟩, by decide, ?_⟩
    have : adjustDecimalScale ⟨1, 18, false⟩ ⟨0, 0, false⟩ = none := by
      rw [c06_panics_iff _ _ (by decide) (by decide)]
      left
      have h1 : numDigits 1 = 1 := by unfold numDigits; rw [show (1 : Int).natAbs = 1 from rfl, natChars]; rfl
      simp [h0, h1]
    unfold Decimal.add addDecimal
    rw [this]

/-- C08, identity for operands with at most 17 fractional digits, on both sides. Missing: scale 18, where
it fails. -/
theorem c08_identity_partial (x : Decimal) (hx : x.Valid) (hs : x.scale ≤ 17) (b : Bool) :
    (∃ r, x.add ⟨0, 0, b⟩ = .ok r ∧ r.num = x.num) ∧ (∃ r, (⟨0, 0, b⟩ : Decimal).add x = .ok r ∧ r.num = x.num) ∧
    (∃ r, x.sub ⟨0, 0, b⟩ = .ok r ∧ r.num = x.num) := by
  have h0 : numDigits 0 = 1 := by unfold numDigits; rw [Int.natAbs_zero, natChars_zero]; rfl
  have hd := fits_digits hx.1
  have hz : (⟨0, 0, b⟩ : Decimal).Valid := ⟨(by unfold Fits; simp), (by simp)⟩
  have hn : (⟨0, 0, b⟩ : Decimal).num = 0 := by unfold Decimal.num; simp
  have hr1 : Room x ⟨0, 0, b⟩ := by
    unfold Room
    simp only [Nat.max_zero, Nat.min_zero]
    split
    · unfold numDigits; omega
    · rw [h0]; omega
  have hr2 : Room ⟨0, 0, b⟩ x := by
    unfold Room
    simp only [Nat.zero_max, Nat.zero_min, Nat.zero_le, if_true]
    rw [h0]; omega
  have hf : FitsAt x.num x.scale := ⟨x.value, hx.1, rfl⟩
  refine ⟨?_, ?_, ?_⟩
  · obtain ⟨r, h1, h2, _⟩ := (c07_add x ⟨0, 0, b⟩ hx hz hr1).1 (by simpa [hn] using hf)
    exact ⟨r, h1, by rw [h2, hn, add_zero]⟩
  · obtain ⟨r, h1, h2, _⟩ := (c07_add ⟨0, 0, b⟩ x hz hx hr2).1 (by simpa [hn] using hf)
    exact ⟨r, h1, by rw [h2, hn, zero_add]⟩
  · obtain ⟨r, h1, h2, _⟩ := (c07_sub x ⟨0, 0, b⟩ hx hz hr1).1 (by simpa [hn] using hf)
    exact ⟨r, h1, by rw [h2, hn, sub_zero]⟩

example := c08_identity_partial ⟨-5, 17, false⟩ (by decide) (by decide) true

theorem adjust_swap (d o : Decimal) :
    adjustDecimalScale o d = (adjustDecimalScale d o).map (fun x => (x.1, x.2.2, x.2.1)) := by
  unfold adjustDecimalScale
  by_cases h1 : d.scale = o.scale
  · rw [if_pos h1, if_pos h1.symm]; rfl
  · rw [if_neg h1, if_neg (fun h => h1 h.symm)]
    by_cases h2 : d.scale < o.scale
    · rw [if_pos h2, if_neg (by omega)]
      cases adjustLarger o d with
      | none => rfl
      | some x => rfl
    · rw [if_neg h2, if_pos (by omega)]
      cases adjustLarger d o with
      | none => rfl
      | some x => rfl

/-- C08. Add is commutative: both orders return the same number, or the same error, or both panic. -/
theorem c08_comm (d o : Decimal) (hd : d.Valid) (ho : o.Valid) :
    (∃ r s, d.add o = .ok r ∧ o.add d = .ok s ∧ r.num = s.num) ∨
    (∃ e, d.add o = .err e ∧ o.add d = .err e) ∨ (d.add o = .panic ∧ o.add d = .panic) := by
  have hsw := adjust_swap d o
  cases hadj : adjustDecimalScale d o with
  | none =>
    rw [hadj] at hsw
    right; right
    unfold Decimal.add addDecimal
    rw [hadj, hsw]; simp
  | some x =>
    obtain ⟨e, a, b⟩ := x
    rw [hadj] at hsw
    simp only [Option.map_some] at hsw
    cases e with
    | some e =>
      right; left
      refine ⟨e, ?_⟩
      unfold Decimal.add addDecimal
      rw [hadj, hsw]; simp
    | none =>
      have hal := (c06_adjust_partial d o hd ho _ _ _ hadj).1 rfl
      rw [add_eq d o a b hadj hal.fits.1 hal.fits.2, add_eq o d b a hsw hal.fits.2 hal.fits.1, add_comm b.value a.value]
      split
      · right; left; exact ⟨_, rfl, rfl⟩
      · split
        · right; left; exact ⟨_, rfl, rfl⟩
        · left
          rename_i g1 g2
          refine ⟨_, _, rfl, rfl, ?_⟩
          rw [applyNormalization_num _ (by simp only; omega) (by simp only; omega),
            applyNormalization_num _ (by simp only; omega) (by simp only; omega)]
          unfold Decimal.num
          simp only [hal.sameScale]

example := c08_comm ⟨999999999999999999, 0, false⟩ ⟨5, 1, false⟩ (by decide) (by decide)

/-- C08. x - x is zero with scale zero. -/
theorem c08_sub_self (x : Decimal) (hx : x.Valid) : x.sub x = .ok ⟨0, 0, x.denormalized⟩ := by
  have hn : x.negate = ⟨-x.value, x.scale, x.denormalized⟩ := by
    unfold Decimal.negate; rw [w_neg hx.1.le63.1 hx.1.le63.2]
  have hadj : adjustDecimalScale x x.negate = some (none, x, ⟨-x.value, x.scale, x.denormalized⟩) := by
    unfold adjustDecimalScale; rw [hn]; simp
  have hF : Fits (-x.value) := by have := hx.1; unfold Fits at *; omega
  have := add_eq x x.negate _ _ hadj hx.1 hF
  unfold Decimal.add at this
  unfold Decimal.sub
  rw [this]
  simp [Decimal.applyNormalization, Decimal.normalize]

/-- Non-vacuity: a Decimal of scale 17 and 1.05 - 1.05. -/
example : (⟨999999999999999999, 17, false⟩ : Decimal).Valid ∧ (⟨105, 2, true⟩ : Decimal).sub ⟨105, 2, true⟩ = .ok ⟨0, 0, true⟩ :=
  ⟨by decide, c08_sub_self _ (by decide)⟩

end Micro.Dec
