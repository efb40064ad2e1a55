import Verif.MathInt.BigDivProps
import Mathlib.Tactic.Linarith
/-
C98: division into the divisor, exactly.
-/
namespace Micro.MathInt

theorem keep_iff (P s d : Int) (hlt : s.natAbs < d.natAbs) (h : (0 ≤ P ∧ 0 ≤ s) ∨ (P ≤ 0 ∧ s ≤ 0)) :
    (2 * (P - (P + s)).natAbs ≤ d.natAbs ∧ (2 * (P - (P + s)).natAbs = d.natAbs → (P + s).natAbs < P.natAbs)) ↔ 2 * s.natAbs < d.natAbs := by
  have h1 : (P - (P + s)).natAbs = s.natAbs := by omega
  have h2 : (P + s).natAbs = P.natAbs + s.natAbs := by omega
  rw [h1, h2]
  omega

theorem move_iff (P s d e : Int) (hlt : s.natAbs < d.natAbs) (he : e.natAbs = d.natAbs)
    (h : (0 ≤ P ∧ 0 ≤ s ∧ 0 < e) ∨ (P ≤ 0 ∧ s ≤ 0 ∧ e < 0)) :
    (2 * (P + e - (P + s)).natAbs ≤ d.natAbs ∧ (2 * (P + e - (P + s)).natAbs = d.natAbs → (P + s).natAbs < (P + e).natAbs)) ↔
      d.natAbs ≤ 2 * s.natAbs := by
  have h1 : (P + e - (P + s)).natAbs = d.natAbs - s.natAbs := by omega
  have h2 : (P + s).natAbs = P.natAbs + s.natAbs := by omega
  have h3 : (P + e).natAbs = P.natAbs + d.natAbs := by omega
  rw [h1, h2, h3]
  omega

/-- The quotient toward zero is kept or moved by one: when that is the rounded quotient. -/
theorem roundsTo_cases (n d : Int) (h0 : d ≠ 0) :
    (RoundsTo n d (n.tdiv d) ↔ 2 * (n.tmod d).natAbs < d.natAbs) ∧
    (n.tdiv d ≠ 0 → (RoundsTo n d (if n.tdiv d ≥ 0 then n.tdiv d + 1 else n.tdiv d - 1) ↔ d.natAbs ≤ 2 * (n.tmod d).natAbs)) ∧
    (n.tdiv d = 0 → (RoundsTo n d 1 ↔ d.natAbs ≤ 2 * n.natAbs ∧ ((0 < n ∧ 0 < d) ∨ (n < 0 ∧ d < 0)))) := by
  have hn : n = n.tdiv d * d + n.tmod d := by
    have := Int.mul_tdiv_add_tmod n d
    linarith [Int.mul_comm d (n.tdiv d)]
  have hlt : (n.tmod d).natAbs < d.natAbs := by
    have h1 := Int.natAbs_tmod n d
    rw [h1]
    exact Nat.mod_lt _ (by omega)
  have hs1 : 0 ≤ n → 0 ≤ n.tmod d := fun h => Int.tmod_nonneg d h
  have hs2 : n ≤ 0 → n.tmod d ≤ 0 := fun h => by
    have := Int.tmod_nonneg d (show 0 ≤ -n by omega)
    rw [Int.neg_tmod] at this
    omega
  generalize n.tmod d = s at *
  generalize n.tdiv d = t at *
  have p1 : 0 < t → 0 < d → d ≤ t * d := fun h1 h2 => by nlinarith
  have p2 : 0 < t → d < 0 → t * d ≤ d := fun h1 h2 => by nlinarith
  have p3 : t < 0 → 0 < d → t * d ≤ -d := fun h1 h2 => by nlinarith
  have p4 : t < 0 → d < 0 → -d ≤ t * d := fun h1 h2 => by nlinarith
  have p5 : t = 0 → t * d = 0 := fun h => by rw [h]; ring
  have e1 : (t + 1) * d = t * d + d := by ring
  have e2 : (t - 1) * d = t * d + -d := by ring
  unfold RoundsTo
  rw [Int.one_mul]
  -- the quotient toward zero times d has the sign of the remainder
  have hsame : (0 ≤ t * d ∧ 0 ≤ s) ∨ (t * d ≤ 0 ∧ s ≤ 0) := by
    rcases Int.lt_trichotomy 0 t with hT | hT | hT
    · rcases Int.lt_or_gt_of_ne h0 with hd | hd
      · have := p2 hT hd
        exact Or.inr ⟨by omega, hs2 (by omega)⟩
      · have := p1 hT hd
        exact Or.inl ⟨by omega, hs1 (by omega)⟩
    · have := p5 hT.symm
      rcases Int.le_total 0 n with h | h
      · exact Or.inl ⟨by omega, hs1 h⟩
      · exact Or.inr ⟨by omega, hs2 h⟩
    · rcases Int.lt_or_gt_of_ne h0 with hd | hd
      · have := p4 hT hd
        exact Or.inl ⟨by omega, hs1 (by omega)⟩
      · have := p3 hT hd
        exact Or.inr ⟨by omega, hs2 (by omega)⟩
  refine ⟨?_, fun ht => ?_, fun ht => ?_⟩
  · rw [hn]
    exact keep_iff _ s d hlt hsame
  · split
    · rename_i hge
      rw [e1, hn]
      refine move_iff _ s d d hlt rfl ?_
      rcases Int.lt_or_gt_of_ne h0 with hd | hd
      · have := p2 (by omega) hd
        exact Or.inr ⟨by omega, hs2 (by omega), hd⟩
      · have := p1 (by omega) hd
        exact Or.inl ⟨by omega, hs1 (by omega), hd⟩
    · rename_i hge
      rw [e2, hn]
      refine move_iff _ s d (-d) hlt (by omega) ?_
      rcases Int.lt_or_gt_of_ne h0 with hd | hd
      · have := p4 (by omega) hd
        exact Or.inl ⟨by omega, hs1 (by omega), by omega⟩
      · have := p3 (by omega) hd
        exact Or.inr ⟨by omega, hs2 (by omega), by omega⟩
  · have hns : n = s := by have := p5 ht; omega
    subst hns
    rw [show d - n = 0 + d - (0 + n) by omega]
    rcases Int.lt_trichotomy 0 n with hN | hN | hN
    · rcases Int.lt_or_gt_of_ne h0 with hd | hd
      · constructor
        · rintro ⟨h, -⟩; omega
        · rintro ⟨-, h⟩; omega
      · have := move_iff 0 n d d hlt rfl (Or.inl ⟨by omega, by omega, hd⟩)
        simp only [Int.zero_add] at this ⊢
        rw [this]
        constructor
        · intro h; exact ⟨h, Or.inl ⟨hN, hd⟩⟩
        · intro h; exact h.1
    · constructor
      · rintro ⟨h, -⟩; omega
      · rintro ⟨-, h⟩; omega
    · rcases Int.lt_or_gt_of_ne h0 with hd | hd
      · have := move_iff 0 n d d hlt rfl (Or.inr ⟨by omega, by omega, hd⟩)
        simp only [Int.zero_add] at this ⊢
        rw [this]
        constructor
        · intro h; exact ⟨h, Or.inr ⟨hN, hd⟩⟩
        · intro h; exact h.1
      · constructor
        · rintro ⟨h, -⟩; omega
        · rintro ⟨-, h⟩; omega

/-- C98, exactly, for a quotient stored in the divisor. With t and r the quotient (toward zero) and the remainder of the absolute values: if t is not zero, the
result is right exactly if the remainder is at least half of t just when it is at least half of the divisor; if t is zero the result is 1, and right exactly
if the quotient is positive and at least one half. -/
theorem c98_inplace_iff (m : BigMem) (de dv : Nat) (h0 : m dv ≠ 0) :
    (divBigMem m de dv dv).2 = none ∧
    (RoundsTo (m de) (m dv) ((divBigMem m de dv dv).1 dv) ↔
      if (m de).natAbs < (m dv).natAbs then (m dv).natAbs ≤ 2 * (m de).natAbs ∧ ((0 < m de ∧ 0 < m dv) ∨ (m de < 0 ∧ m dv < 0))
      else ((m de).natAbs / (m dv).natAbs ≤ 2 * ((m de).natAbs % (m dv).natAbs) ↔ (m dv).natAbs ≤ 2 * ((m de).natAbs % (m dv).natAbs))) := by
  obtain ⟨r1, r2, r3⟩ := roundsTo_cases (m de) (m dv) h0
  have ht : ((m de).tdiv (m dv)).natAbs = (m de).natAbs / (m dv).natAbs := Int.natAbs_tdiv _ _
  have hr : ((m de).tmod (m dv)).natAbs = (m de).natAbs % (m dv).natAbs := Int.natAbs_tmod _ _
  have hz : (m de).tdiv (m dv) = 0 ↔ (m de).natAbs < (m dv).natAbs := by
    rw [← Int.natAbs_eq_zero, ht, Nat.div_eq_zero_iff]
    omega
  have hval : divBigMem m de dv dv = if (m de).natAbs / (m dv).natAbs ≤ 2 * ((m de).natAbs % (m dv).natAbs) then
      (if (m de).tdiv (m dv) ≥ 0 then
        (Function.update (Function.update m dv ((m de).tdiv (m dv))) dv ((m de).tdiv (m dv) + 1), none)
      else (Function.update (Function.update m dv ((m de).tdiv (m dv))) dv ((m de).tdiv (m dv) - 1), none))
      else (Function.update m dv ((m de).tdiv (m dv)), none) := by
    unfold divBigMem
    rw [if_neg h0]
    simp only [Function.update_self, ht, hr]
    congr 1
    apply propext
    generalize (m de).natAbs / (m dv).natAbs = a
    generalize (m de).natAbs % (m dv).natAbs = b
    omega
  constructor
  · rw [hval]; split
    · split <;> rfl
    · rfl
  · rw [hval, ← hr, ← ht]
    rw [← hr, ← ht] at hval
    by_cases hlt : (m de).natAbs < (m dv).natAbs
    · have hz' := hz.2 hlt
      rw [if_pos hlt, if_pos (by rw [hz']; simp), if_pos (by rw [hz']), hz']
      simp only [Function.update_self]
      rw [← r3 hz']
      simp
    · have hz' : (m de).tdiv (m dv) ≠ 0 := fun h => hlt (hz.1 h)
      rw [if_neg hlt]
      by_cases hc : ((m de).tdiv (m dv)).natAbs ≤ 2 * ((m de).tmod (m dv)).natAbs
      · rw [if_pos hc]
        simp only [hc, true_iff]
        rw [← r2 hz']
        split <;> simp [Function.update_self]
      · rw [if_neg hc]
        simp only [hc, false_iff, Function.update_self]
        rw [r1]
        omega

/-- 5/2 in place is right (3), 9/2 is not (4); -1/2 gives 1. -/
example : RoundsTo 5 2 ((divBigMem (fun a => if a = 0 then 5 else 2) 0 1 1).1 1) ∧
    ¬ RoundsTo 9 2 ((divBigMem (fun a => if a = 0 then 9 else 2) 0 1 1).1 1) :=
  ⟨(c98_inplace_iff (fun a => if a = 0 then 5 else 2) 0 1 (by decide)).2.2 (by decide),
    fun h => absurd ((c98_inplace_iff (fun a => if a = 0 then 9 else 2) 0 1 (by decide)).2.1 h) (by decide)⟩
example : (divBigMem (fun a => if a = 0 then -1 else 2) 0 1 1).1 1 = 1 := by decide

end Micro.MathInt
