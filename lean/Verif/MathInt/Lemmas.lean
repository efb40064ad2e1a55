import Verif.MathInt.Model
import Verif.MathInt.Spec
import Mathlib.Tactic.Linarith
import Mathlib.Tactic.Ring
import Mathlib.Tactic.ByContra
namespace Micro.MathInt
open Micro

/-- Rounding is unique, so `RoundsTo` determines the quotient. -/
theorem RoundsTo.unique {n d q q' : Int} (hd : d ≠ 0) (h : RoundsTo n d q) (h' : RoundsTo n d q') :
    q = q' := by
  obtain ⟨a1, a2⟩ := h
  obtain ⟨b1, b2⟩ := h'
  by_contra hne
  have hdiff : q * d - q' * d = (q - q') * d := by ring
  have habs : d.natAbs ≤ (q * d - q' * d).natAbs := by
    rw [hdiff, Int.natAbs_mul]
    exact Nat.le_mul_of_pos_left _ (by omega)
  have h1 : 2 * (q * d - n).natAbs = d.natAbs := by omega
  have h2 : 2 * (q' * d - n).natAbs = d.natAbs := by omega
  have c1 := a2 h1
  have c2 := b2 h2
  have hxy : (q * d - q' * d).natAbs = d.natAbs := by omega
  have hpm : (q - q').natAbs = 1 := by
    rw [hdiff, Int.natAbs_mul] at hxy
    have hdp : 0 < d.natAbs := by omega
    exact Nat.eq_of_mul_eq_mul_right hdp (by omega)
  have hq : q ≠ 0 := by rintro rfl; simp at c1
  have hq' : q' ≠ 0 := by rintro rfl; simp at c2
  have hs : (0 < q * d ∧ 0 < q' * d) ∨ (q * d < 0 ∧ q' * d < 0) := by
    rcases lt_or_gt_of_ne hd with hd' | hd' <;> rcases lt_or_gt_of_ne hq with hq1 | hq1
    · left; exact ⟨mul_pos_of_neg_of_neg hq1 hd', mul_pos_of_neg_of_neg (by omega) hd'⟩
    · right; exact ⟨mul_neg_of_pos_of_neg hq1 hd', mul_neg_of_pos_of_neg (by omega) hd'⟩
    · right; exact ⟨mul_neg_of_neg_of_pos hq1 hd', mul_neg_of_neg_of_pos (by omega) hd'⟩
    · left; exact ⟨mul_pos hq1 hd', mul_pos (by omega) hd'⟩
  generalize q * d = x at *
  generalize q' * d = y at *
  omega

/-- Linear facts about truncated division, with the product as an atom, by signs. -/
theorem tdiv_facts (n d : Int) (hd : d ≠ 0) :
    ∃ q r m : Int, n.tdiv d = q ∧ n.tmod d = r ∧ m = q * d ∧ m + r = n ∧ (q = 0 → m = 0) ∧
      ((0 < d ∧ 0 ≤ n ∧ 0 ≤ r ∧ r < d ∧ 0 ≤ q ∧ (0 < q → d ≤ m)) ∨
       (0 < d ∧ n < 0 ∧ -d < r ∧ r ≤ 0 ∧ q ≤ 0 ∧ (q < 0 → m ≤ -d)) ∨
       (d < 0 ∧ 0 ≤ n ∧ 0 ≤ r ∧ r < -d ∧ q ≤ 0 ∧ (q < 0 → -d ≤ m)) ∨
       (d < 0 ∧ n < 0 ∧ d < r ∧ r ≤ 0 ∧ 0 ≤ q ∧ (0 < q → m ≤ d))) := by
  refine ⟨n.tdiv d, n.tmod d, n.tdiv d * d, rfl, rfl, rfl, ?_, ?_, ?_⟩
  · rw [mul_comm]; exact Int.mul_tdiv_add_tmod n d
  · intro h; rw [h]; simp
  have h1 := Int.mul_tdiv_add_tmod n d
  have h2 : (n.tmod d).natAbs < d.natAbs := by rw [Int.natAbs_tmod]; exact Nat.mod_lt _ (by omega)
  have h3 : 0 ≤ n → 0 ≤ n.tmod d := fun h => Int.tmod_nonneg _ h
  have h4 : n < 0 → n.tmod d ≤ 0 := by
    intro h
    have := Int.tmod_nonneg d (a := -n) (by omega)
    rw [Int.neg_tmod] at this; omega
  generalize n.tmod d = r at *
  generalize n.tdiv d = q at *
  rcases lt_or_gt_of_ne hd with hd' | hd' <;> rcases lt_or_ge n 0 with hn | hn
  · right; right; right
    have h5 := h4 hn
    refine ⟨hd', hn, by omega, h5, ?_, fun h => by nlinarith⟩
    by_contra hq
    have : d * q ≥ -d := by nlinarith
    omega
  · right; right; left
    have h5 := h3 hn
    refine ⟨hd', hn, h5, by omega, ?_, fun h => by nlinarith⟩
    by_contra hq
    have : d * q ≤ d := by nlinarith
    omega
  · right; left
    have h5 := h4 hn
    refine ⟨hd', hn, by omega, h5, ?_, fun h => by nlinarith⟩
    by_contra hq
    have : d * q ≥ d := by nlinarith
    omega
  · left
    have h5 := h3 hn
    refine ⟨hd', hn, h5, by omega, ?_, fun h => by nlinarith⟩
    by_contra hq
    have : d * q ≤ -d := by nlinarith
    omega

/-- Size of a truncated quotient. -/
theorem tdiv_size (n d : Int) :
    (n.tdiv d).natAbs ≤ n.natAbs ∧ (d.natAbs ≠ 1 → d ≠ 0 → 2 * (n.tdiv d).natAbs ≤ n.natAbs) ∧
    (d = 1 → n.tdiv d = n) ∧ (d = -1 → n.tdiv d = -n) ∧ (d.natAbs = 1 → n.tmod d = 0) := by
  have e : (n.tdiv d).natAbs = n.natAbs / d.natAbs := Int.natAbs_tdiv ..
  refine ⟨?_, ?_, ?_, ?_, ?_⟩
  · rw [e]; exact Nat.div_le_self _ _
  · intro h h'
    rw [e]
    have h2 : 2 ≤ d.natAbs := by omega
    have h3 := Nat.div_mul_le_self n.natAbs d.natAbs
    generalize n.natAbs / d.natAbs = x at *
    nlinarith
  · rintro rfl; simp
  · rintro rfl; simp [Int.tdiv_neg]
  · intro h
    have : d = 1 ∨ d = -1 := by omega
    rcases this with rfl | rfl <;> simp

/-- The shared rounding step of the division routines, on mathematical integers. -/
def roundCore (n d : Int) : Int :=
  let q := n.tdiv d
  let r := (n.tmod d).natAbs
  let h := d.natAbs / 2
  if (d % 2 = 0 ∧ r ≥ h) ∨ (d % 2 = 1 ∧ r > h) then (if q ≥ 0 then q + 1 else q - 1) else q

/-- The rounding condition is "twice the remainder is at least the divisor". -/
theorem cond_iff (d : Int) (r : Nat) :
    ((d % 2 = 0 ∧ r ≥ d.natAbs / 2) ∨ (d % 2 = 1 ∧ r > d.natAbs / 2)) ↔ d.natAbs ≤ 2 * r := by
  omega

theorem roundCore_ok (n d : Int) (hd : d ≠ 0)
    (hgood : ¬ (n.tdiv d = 0 ∧ ((n < 0 ∧ 0 < d) ∨ (0 < n ∧ d < 0)) ∧ d.natAbs ≤ 2 * n.natAbs)) :
    RoundsTo n d (roundCore n d) := by
  have hlt : (n.tmod d).natAbs < d.natAbs := by rw [Int.natAbs_tmod]; exact Nat.mod_lt _ (by omega)
  obtain ⟨q, r, m, hq, hr, hm, h1, h2, h3⟩ := tdiv_facts n d hd
  unfold roundCore RoundsTo
  simp only [cond_iff d _]
  rw [hq] at hgood
  simp only [hq, hr]
  have e1 : (q + 1) * d = m + d := by rw [hm]; ring
  have e2 : (q - 1) * d = m - d := by rw [hm]; ring
  clear hlt
  rcases h3 with h3 | h3 | h3 | h3 <;> obtain ⟨g1, g2, g3, g4, g5, g6⟩ := h3 <;> split
  · rw [e1]; omega
  · rw [← hm]; omega
  · split
    · rw [e1]; omega
    · rw [e2]; have := g6 (by omega); clear hgood; omega
  · rw [← hm]; clear hgood; omega
  · split
    · rw [e1]; omega
    · rw [e2]; have := g6 (by omega); clear hgood; omega
  · rw [← hm]; clear hgood; omega
  · rw [e1]; clear hgood; omega
  · rw [← hm]; clear hgood; omega

theorem roundCore_bad (n d : Int) (hd : d ≠ 0)
    (hbad : n.tdiv d = 0 ∧ ((n < 0 ∧ 0 < d) ∨ (0 < n ∧ d < 0)) ∧ d.natAbs ≤ 2 * n.natAbs) :
    roundCore n d = 1 ∧ RoundsTo n d (-1) := by
  have hlt : (n.tmod d).natAbs < d.natAbs := by rw [Int.natAbs_tmod]; exact Nat.mod_lt _ (by omega)
  obtain ⟨q, r, m, hq, hr, hm, h1, h2, h3⟩ := tdiv_facts n d hd
  rw [hq] at hbad
  obtain ⟨rfl, hb1, hb2⟩ := hbad
  have hrn : r = n := by have := h2 rfl; omega
  unfold roundCore RoundsTo
  simp only [cond_iff d _]
  simp only [hq, hr, hrn]
  constructor
  · rw [if_pos hb2]; simp
  · rw [hr, hrn] at hlt
    rcases hb1 with hb1 | hb1 <;> omega

theorem i64_of {x : Int} (h : x.natAbs ≤ 9223372036854775807) : Kind.int64.wrap x = x := by
  apply Kind.wrap_of_inRange; simp [Kind.InRange, Kind.minV, Kind.maxV, Kind.signed, Kind.bits]; omega

theorem u64_of {x : Int} (h0 : 0 ≤ x) (h : x ≤ 18446744073709551615) : Kind.uint64.wrap x = x := by
  apply Kind.wrap_of_inRange; simp [Kind.InRange, Kind.minV, Kind.maxV, Kind.signed, Kind.bits]; omega

theorem divSInt_core (n d : Int) (hn : Kind.int64.InRange n) (hdr : Kind.int64.InRange d)
    (hd : d ≠ 0) (ho : ¬ (n = -9223372036854775808 ∧ d = -1)) : divSInt n d = roundCore n d := by
  have hlt : (n.tmod d).natAbs < d.natAbs := by rw [Int.natAbs_tmod]; exact Nat.mod_lt _ (by omega)
  obtain ⟨s1, s2, s3, s4, s5⟩ := tdiv_size n d
  have hh : (d.tdiv 2).natAbs = d.natAbs / 2 := by rw [Int.natAbs_tdiv]; rfl
  have hn' : n.natAbs ≤ 9223372036854775808 ∧ n ≤ 9223372036854775807 := by
    simp [Kind.InRange, Kind.minV, Kind.maxV, Kind.signed, Kind.bits] at hn; omega
  have hd' : d.natAbs ≤ 9223372036854775808 := by
    simp [Kind.InRange, Kind.minV, Kind.maxV, Kind.signed, Kind.bits] at hdr; omega
  unfold divSInt roundCore
  generalize n.tmod d = r at *
  generalize d.tdiv 2 = hf at *
  have w2 : Kind.int64.wrap r = r := i64_of (by omega)
  have w3 : Kind.int64.wrap (-r) = -r := i64_of (by omega)
  have w4 : Kind.int64.wrap hf = hf := i64_of (by omega)
  have w5 : Kind.int64.wrap (-hf) = -hf := i64_of (by omega)
  have f1 : (if Kind.int64.wrap r < 0 then Kind.int64.wrap (-Kind.int64.wrap r) else Kind.int64.wrap r)
      = (r.natAbs : Int) := by rw [w2, w3]; split <;> omega
  have f2 : (if Kind.int64.wrap hf < 0 then Kind.int64.wrap (-Kind.int64.wrap hf) else Kind.int64.wrap hf)
      = (hf.natAbs : Int) := by rw [w4, w5]; split <;> omega
  have cast : ∀ a b : Nat, ((a : Int) ≥ (b : Int) ↔ a ≥ b) ∧ ((a : Int) > (b : Int) ↔ a > b) := by omega
  simp only [f1, f2, hh, (cast _ _).1, (cast _ _).2]
  by_cases hc : d.natAbs = 1
  · have hr0 := s5 hc
    have w1 : Kind.int64.wrap (n.tdiv d) = n.tdiv d := by
      have : d = 1 ∨ d = -1 := by omega
      rcases this with rfl | rfl
      · rw [s3 rfl]; exact Kind.wrap_of_inRange hn
      · rw [s4 rfl]; exact i64_of (by omega)
    rw [w1, if_neg (by omega), if_neg (by omega)]
  · have hs := s2 hc hd
    rw [i64_of (x := n.tdiv d) (by omega), i64_of (x := n.tdiv d + 1) (by omega),
      i64_of (x := n.tdiv d - 1) (by omega)]

theorem divUInt_core (n d : Int) (hn : Kind.uint64.InRange n) (hdr : Kind.uint64.InRange d)
    (hd : d ≠ 0) : divUInt n d = roundCore n d := by
  have hlt : (n.tmod d).natAbs < d.natAbs := by rw [Int.natAbs_tmod]; exact Nat.mod_lt _ (by omega)
  obtain ⟨s1, s2, s3, s4, s5⟩ := tdiv_size n d
  have hn' : 0 ≤ n ∧ n ≤ 18446744073709551615 := by
    simp [Kind.InRange, Kind.minV, Kind.maxV, Kind.signed, Kind.bits] at hn; omega
  have hd' : 0 ≤ d ∧ d ≤ 18446744073709551615 := by
    simp [Kind.InRange, Kind.minV, Kind.maxV, Kind.signed, Kind.bits] at hdr; omega
  have hh : (d.tdiv 2).natAbs = d.natAbs / 2 := by rw [Int.natAbs_tdiv]; rfl
  have hh0 : 0 ≤ d.tdiv 2 := Int.tdiv_nonneg (by omega) (by omega)
  have hq0 : 0 ≤ n.tdiv d := Int.tdiv_nonneg (by omega) (by omega)
  have hr0 : 0 ≤ n.tmod d := Int.tmod_nonneg _ (by omega)
  unfold divUInt roundCore
  generalize n.tmod d = r at *
  generalize d.tdiv 2 = hf at *
  generalize n.tdiv d = q at *
  simp only [u64_of (x := q) hq0 (by omega), u64_of (x := r) hr0 (by omega),
    u64_of (x := hf) hh0 (by omega), if_pos hq0]
  by_cases hc : d.natAbs = 1
  · have := s5 hc
    rw [if_neg (by omega), if_neg (by omega)]
  · have hs := s2 hc hd
    rw [u64_of (x := q + 1) (by omega) (by omega)]
    clear s1 s2 s3 s4 s5 hs
    split <;> split <;> first | rfl | omega

end Micro.MathInt
