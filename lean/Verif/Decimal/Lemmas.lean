import Verif.Decimal.Spec
import Verif.Conv.Lemmas
set_option linter.unusedSimpArgs false
namespace Micro.Dec
open Micro

theorem w_id {x : Int} (h1 : -9223372036854775808 ≤ x) (h2 : x ≤ 9223372036854775807) : w x = x := by
  apply Kind.wrap_of_inRange
  constructor <;> simp [Kind.minV, Kind.maxV, Kind.signed, Kind.bits] <;> omega

theorem w_range (x : Int) : -9223372036854775808 ≤ w x ∧ w x ≤ 9223372036854775807 := by
  have := Kind.wrap_inRange .int64 x
  simpa [w, Kind.InRange, Kind.minV, Kind.maxV, Kind.signed, Kind.bits] using this

theorem w_def (x : Int) : w x = (x + 9223372036854775808) % 18446744073709551616 - 9223372036854775808 := by
  simp [w, Kind.wrap, Kind.signed, Kind.bits]

theorem w_neg {x : Int} (h1 : -9223372036854775807 ≤ x) (h2 : x ≤ 9223372036854775807) : w (-x) = -x :=
  w_id (by omega) (by omega)

theorem absDigits_eq {v : Int} (h1 : -9223372036854775807 ≤ v) (h2 : v ≤ 9223372036854775807) :
    absDigits v = natChars v.natAbs := by
  have : Conv.integerToString .int64 (if v < 0 then w (-v) else v) = Conv.formatInt (if v < 0 then w (-v) else v) := by
    have hr : Kind.int64.wrap (if v < 0 then w (-v) else v) = (if v < 0 then w (-v) else v) := by
      split
      · exact w_id (w_range _).1 (w_range _).2
      · exact w_id (by omega) (by omega)
    simp only [Conv.integerToString, Kind.signed, if_true, hr]
  unfold absDigits
  rw [this]
  by_cases h : v < 0
  · rw [if_pos h, w_neg h1 h2]
    simp only [Conv.formatInt]
    rw [if_neg (by omega)]; congr 1; omega
  · rw [if_neg h]; simp only [Conv.formatInt]; rw [if_neg h]

theorem Fits.le63 {v : Int} (h : Fits v) : -9223372036854775807 ≤ v ∧ v ≤ 9223372036854775807 := by
  unfold Fits at h; omega

theorem fits_digits {v : Int} (h : Fits v) : (natChars v.natAbs).length ≤ 18 := by
  rw [natChars_length_le _ _ (by omega)]; unfold Fits at h; omega

theorem pow10_pos (k : Nat) : (0 : ℚ) < 10 ^ k := by positivity

/-! ### Normalize -/

theorem normLoop_spec (s : Nat) (v : Int) (hv : 0 < v) :
    ∃ k v', k ≤ s ∧ normLoop s v (v.tdiv 10) (v.tmod 10) = (v', s - k) ∧ v = v' * 10 ^ k ∧ 0 < v' ∧
      (s - k = 0 ∨ ¬ (10 : Int) ∣ v') := by
  induction s generalizing v with
  | zero => exact ⟨0, v, by omega, rfl, by simp, hv, .inl rfl⟩
  | succ s ih =>
    have hd : v.tdiv 10 = v / 10 := Int.tdiv_eq_ediv_of_nonneg (by omega)
    have hm : v.tmod 10 = v % 10 := Int.tmod_eq_emod_of_nonneg (by omega)
    simp only [normLoop]
    by_cases h : v.tmod 10 = 0
    · rw [if_pos h]
      obtain ⟨k, v', h1, h2, h3, h4, h5⟩ := ih (v.tdiv 10) (by rw [hd]; omega)
      refine ⟨k + 1, v', by omega, ?_, ?_, h4, ?_⟩
      · rw [h2]; congr 1; omega
      · rw [hd] at h3; rw [hm] at h
        rw [pow_succ, ← mul_assoc, ← h3]; omega
      · rcases h5 with h5 | h5
        · left; omega
        · right; exact h5
    · rw [if_neg h]
      refine ⟨0, v, by omega, rfl, by simp, hv, .inr ?_⟩
      rw [hm] at h; omega

/-- Complete description of Normalize. -/
theorem normalize_spec (d : Decimal) (h1 : -9223372036854775807 ≤ d.value) (h2 : d.value ≤ 9223372036854775807) :
    ∃ k, k ≤ d.scale ∧ d.normalize.scale = d.scale - k ∧ (d.value ≠ 0 → d.value = d.normalize.value * 10 ^ k) ∧
      (d.value = 0 → d.normalize.value = 0 ∧ d.normalize.scale = 0) ∧
      d.normalize.Canonical ∧ d.normalize.denormalized = d.denormalized := by
  unfold Decimal.normalize
  by_cases h0 : d.value = 0
  · rw [if_pos h0]
    exact ⟨d.scale, le_refl _, by simp, fun h => absurd h0 h, fun _ => ⟨h0, rfl⟩, .inl rfl, rfl⟩
  · rw [if_neg h0]
    by_cases hs : d.scale > 0
    · rw [if_pos hs]
      have hv : 0 < (if d.value < 0 then w (-d.value) else d.value) := by
        split
        · rw [w_neg h1 h2]; omega
        · omega
      obtain ⟨k, v', e1, e2, e3, e4, e5⟩ := normLoop_spec d.scale _ hv
      have hle : v' ≤ (if d.value < 0 then w (-d.value) else d.value) := by
        rw [e3]
        have : (1 : Int) ≤ 10 ^ k := one_le_pow₀ (by norm_num)
        nlinarith
      have hv' : v' ≤ 9223372036854775807 := by
        split at hle
        · rw [w_neg h1 h2] at hle; omega
        · omega
      refine ⟨k, e1, ?_, ?_, fun h => absurd h h0, ?_, rfl⟩
      · simp only [e2]
      · intro _
        simp only [e2]
        by_cases hn : d.value < 0
        · simp only [hn, if_true] at e3 ⊢
          rw [w_neg h1 h2] at e3
          rw [w_neg (by omega) hv']
          linarith
        · simp only [hn, if_false] at e3 ⊢
          exact e3
      · unfold Decimal.Canonical
        simp only [e2]
        rcases e5 with e5 | e5
        · left; exact e5
        · right
          split
          · rw [w_neg (by omega) hv']; rwa [dvd_neg]
          · exact e5
    · rw [if_neg hs]
      exact ⟨0, by omega, by simp, fun _ => by simp, fun h => absurd h h0, .inl (by omega), rfl⟩

theorem num_eq_of (d e : Decimal) (k : Nat) (hk : k ≤ d.scale) (hs : e.scale = d.scale - k)
    (hv : d.value = e.value * 10 ^ k) : e.num = d.num := by
  unfold Decimal.num
  rw [hs, hv]
  have : d.scale = (d.scale - k) + k := by omega
  rw [this, pow_add]
  push_cast
  rw [show d.scale - k + k - k = d.scale - k by omega]
  field_simp

theorem normalize_num (d : Decimal) (h1 : -9223372036854775807 ≤ d.value) (h2 : d.value ≤ 9223372036854775807) :
    d.normalize.num = d.num := by
  obtain ⟨k, e1, e2, e3, e4, _, _⟩ := normalize_spec d h1 h2
  by_cases h0 : d.value = 0
  · unfold Decimal.num; rw [(e4 h0).1, h0]; simp
  · exact num_eq_of d _ k e1 e2 (e3 h0)

theorem normalize_fits (d : Decimal) (h : Fits d.value) : Fits d.normalize.value ∧ d.normalize.scale ≤ d.scale := by
  obtain ⟨k, e1, e2, e3, e4, _, _⟩ := normalize_spec d h.le63.1 h.le63.2
  refine ⟨?_, by omega⟩
  by_cases h0 : d.value = 0
  · rw [(e4 h0).1]; decide
  · have e := e3 h0
    have : (1 : Int) ≤ 10 ^ k := one_le_pow₀ (by norm_num)
    unfold Fits at *
    constructor <;> nlinarith

theorem applyNormalization_cases (d : Decimal) :
    d.applyNormalization = d.normalize ∨ (d.applyNormalization = d ∧ d.value ≠ 0 ∧ d.denormalized = true) := by
  unfold Decimal.applyNormalization
  split
  · left; rfl
  · right; refine ⟨rfl, ?_⟩; simp_all

theorem applyNormalization_num (d : Decimal) (h1 : -9223372036854775807 ≤ d.value) (h2 : d.value ≤ 9223372036854775807) :
    d.applyNormalization.num = d.num := by
  rcases applyNormalization_cases d with h | h
  · rw [h, normalize_num d h1 h2]
  · rw [h.1]

theorem applyNormalization_valid (d : Decimal) (h : Fits d.value) :
    Fits d.applyNormalization.value ∧ d.applyNormalization.scale ≤ d.scale := by
  rcases applyNormalization_cases d with h' | h'
  · rw [h']; exact normalize_fits d h
  · rw [h'.1]; exact ⟨h, le_refl _⟩

/-- Canonical decimals denoting the same number are equal. -/
theorem canonical_unique (a b : Decimal) (ha : a.Canonical) (hb : b.Canonical)
    (ha0 : a.value = 0 → a.scale = 0) (hb0 : b.value = 0 → b.scale = 0) (h : a.num = b.num) :
    a.value = b.value ∧ a.scale = b.scale := by
  have cross : a.value * 10 ^ b.scale = b.value * 10 ^ a.scale := by
    unfold Decimal.num at h
    rw [div_eq_div_iff (by positivity) (by positivity)] at h
    exact_mod_cast h
  have key : ∀ a b : Decimal, a.Canonical → (a.value = 0 → a.scale = 0) →
      a.value * 10 ^ b.scale = b.value * 10 ^ a.scale → a.scale ≤ b.scale := by
    intro a b ha ha0 cross
    by_contra hlt
    have hpos : 0 < a.scale := by omega
    rcases ha with h0 | hnd
    · omega
    · apply hnd
      obtain ⟨k, hk⟩ : ∃ k, a.scale = b.scale + (k + 1) := ⟨a.scale - b.scale - 1, by omega⟩
      rw [hk, pow_add, ← mul_assoc, mul_right_comm] at cross
      have hp : (10 : Int) ^ b.scale ≠ 0 := by positivity
      have := mul_right_cancel₀ hp cross
      rw [this, pow_succ, ← mul_assoc]
      exact Dvd.intro_left _ rfl
  have hs : a.scale = b.scale := le_antisymm (key a b ha ha0 cross) (key b a hb hb0 cross.symm)
  rw [hs] at cross
  exact ⟨mul_right_cancel₀ (by positivity) cross, hs⟩

end Micro.Dec
