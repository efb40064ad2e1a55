import Verif.Decimal.SharpProps
set_option linter.unusedSimpArgs false
/-
Lemmas for the exact description of Div: what happens to the loop once a product has left int64.
-/
namespace Micro.Dec
open Micro

theorem w_shift (x t : Int) : w (x + 18446744073709551616 * t) = w x := by
  rw [w_def, w_def]; omega

theorem w_split (x : Int) : ∃ t, w x = x + 18446744073709551616 * t := by
  rw [w_def]; exact ⟨-((x + 9223372036854775808) / 18446744073709551616), by omega⟩

theorem w_mul (x y : Int) : w (w x * y) = w (x * y) := by
  obtain ⟨t, ht⟩ := w_split x
  rw [ht, show (x + 18446744073709551616 * t) * y = x * y + 18446744073709551616 * (t * y) by ring, w_shift]

theorem w_w (x : Int) : w (w x) = w x := by
  have := w_range x
  exact w_id this.1 this.2

/-- The loop that looks for the next digit ends exactly if some power of ten brings the wrapped remainder to the divisor. -/
theorem divGrow_iff (o x : Int) : (∃ m, divGrow o (w x) = some m) ↔ ∃ i : Nat, o ≤ w (x * 10 ^ i) := by
  constructor
  · rintro ⟨m, hm⟩
    have key := divGrow.partial_correctness o (fun nr _ => ∀ x, nr = w x → ∃ i : Nat, o ≤ w (x * 10 ^ i)) (by
      intro f ih nr m h x hx
      split at h
      · obtain ⟨i, hi⟩ := ih _ _ h (x * 10) (by rw [hx, w_mul])
        exact ⟨i + 1, by rw [pow_succ, mul_comm (10 ^ i) 10, ← mul_assoc]; exact hi⟩
      · exact ⟨0, by rw [pow_zero, mul_one, ← hx]; omega⟩) (w x) m hm
    exact key x rfl
  · rintro ⟨i, hi⟩
    induction i generalizing x with
    | zero =>
      rw [pow_zero, mul_one] at hi
      exact ⟨w x, by rw [divGrow, if_neg (by omega)]⟩
    | succ i ih =>
      rw [divGrow]
      by_cases h : w x < o
      · rw [if_pos h, w_mul]
        exact ih (x * 10) (by rw [mul_assoc, ← pow_succ']; exact hi)
      · rw [if_neg h]; exact ⟨_, rfl⟩

/-- A state of the division that can no longer give the quotient X / O: either a remainder has left int64, so that q * O + r is too small, or the quotient itself is
beyond int64. -/
def Lost (O X q r : Int) : Prop :=
  (-9223372036854775808 ≤ q ∧ q ≤ 9223372036854775807) ∧ (-9223372036854775808 ≤ r ∧ r ≤ 9223372036854775807) ∧
  ((0 ≤ q ∧ q * O + r + 18446744073709551616 ≤ X) ∨ 9223372036854775810 * O ≤ X)

/-- A result of the division that is not within one of X / O. -/
def Off (O X q : Int) : Prop :=
  (-9223372036854775808 ≤ q ∧ q ≤ 9223372036854775807) ∧ ((0 ≤ q ∧ (q + 1) * O ≤ X) ∨ 9223372036854775810 * O ≤ X)

theorem Lost.times {O X q r : Int} (hO : 0 < O) (hO2 : O ≤ 999999999999999999) (h : Lost O X q r) :
    Lost O (X * 10) (w (q * 10)) (w (r * 10)) := by
  obtain ⟨hq, hr, h⟩ := h
  refine ⟨w_range _, w_range _, ?_⟩
  rcases h with ⟨h0, h⟩ | h
  · by_cases hb : q ≤ 922337203685477580
    · left
      obtain ⟨t, ht⟩ := w_split (r * 10)
      have hwr := w_range (r * 10)
      rw [w_id (x := q * 10) (by omega) (by omega)]
      refine ⟨by omega, ?_⟩
      rw [show q * 10 * O = q * O * 10 by ring]
      generalize q * O = y at *
      omega
    · right
      have : 922337203685477581 * O ≤ q * O := mul_le_mul_of_nonneg_right (by omega) hO.le
      generalize q * O = y at *
      omega
  · right
    omega

theorem Lost.digit {O X q r : Int} (hO : 0 < O) (h : Lost O X q r) (hr : ¬ r < O) :
    Lost O X (w (q + r.tdiv O)) (r.tmod O) := by
  obtain ⟨hq, hr', h⟩ := h
  have e1 : r.tdiv O = r / O := Int.tdiv_eq_ediv_of_nonneg (by omega)
  have e2 : r.tmod O = r % O := Int.tmod_eq_emod_of_nonneg (by omega)
  have m1 := Int.emod_nonneg r hO.ne'
  have m2 := Int.emod_lt_of_pos r hO
  have d0 : 0 ≤ r / O := Int.ediv_nonneg (by omega) hO.le
  have hle := Int.emod_add_mul_ediv r O
  have m3 : r % O ≤ r := by
    have := mul_nonneg hO.le d0
    omega
  rw [e1, e2]
  refine ⟨w_range _, ⟨by omega, by omega⟩, ?_⟩
  rcases h with ⟨h0, h⟩ | h
  · have hs : (q + r / O) * O + r % O = q * O + r := by rw [add_mul, mul_comm (r / O)]; omega
    by_cases hb : q + r / O ≤ 9223372036854775807
    · left
      rw [w_id (by omega) hb]
      refine ⟨by omega, by omega⟩
    · right
      have : 9223372036854775808 * O ≤ (q + r / O) * O := mul_le_mul_of_nonneg_right (by omega) hO.le
      -- O ≤ r ≤ 2^63 - 1, so 2 O is at most 2^64
      generalize (q + r / O) * O = y at *
      omega
  · exact .inr h

/-- The first product that leaves int64. -/
theorem Lost.start {O X q r : Int} (hO : 0 < O) (h : q * O + r = X) (hq0 : 0 ≤ q) (hq : q ≤ 999999999999999999) (hr0 : 0 ≤ r) (hr : r ≤ 9223372036854775807)
    (hw : 922337203685477580 < q ∨ 922337203685477580 < r) : Lost O (X * 10) (w (q * 10)) (w (r * 10)) := by
  refine ⟨w_range _, w_range _, ?_⟩
  by_cases hb : q ≤ 922337203685477580
  · left
    obtain ⟨t, ht⟩ := w_split (r * 10)
    have hwr := w_range (r * 10)
    rw [w_id (x := q * 10) (by omega) (by omega)]
    refine ⟨by omega, ?_⟩
    rw [show q * 10 * O = q * O * 10 by ring]
    generalize q * O = y at *
    omega
  · right
    have : 922337203685477581 * O ≤ q * O := mul_le_mul_of_nonneg_right (by omega) hO.le
    generalize q * O = y at *
    omega

theorem Lost.off {O X q r : Int} (hO : 0 < O) (hO2 : O ≤ 999999999999999999) (h : Lost O X q r) : Off O X q := by
  obtain ⟨hq, hr, h⟩ := h
  refine ⟨hq, ?_⟩
  rcases h with ⟨h0, h⟩ | h
  · left
    refine ⟨h0, ?_⟩
    rw [add_mul]
    generalize q * O = y at *
    omega
  · exact .inr h

theorem Lost.off1 {O X q r : Int} (hO : 0 < O) (hO2 : O ≤ 999999999999999999) (h : Lost O X q r) : Off O X (w (q + 1)) := by
  obtain ⟨hq, hr, h⟩ := h
  refine ⟨w_range _, ?_⟩
  rcases h with ⟨h0, h⟩ | h
  · by_cases hb : q + 1 ≤ 9223372036854775807
    · left
      rw [w_id (by omega) hb]
      refine ⟨by omega, ?_⟩
      rw [add_mul, add_mul]
      generalize q * O = y at *
      omega
    · right
      have : 9223372036854775807 * O ≤ q * O := mul_le_mul_of_nonneg_right (by omega) hO.le
      generalize q * O = y at *
      omega
  · exact .inr h

/-- From a lost state the loop only gives wrong results. -/
theorem divLoop_lost (O N s0 : Int) (hO : 0 < O) (hO2 : O ≤ 999999999999999999) (b : Bool) (q r s q' s' : Int)
    (h : divLoop O b q r s = some (some (q', s'))) (j : Nat) (hs : s = s0 + j) (hl : Lost O (N * 10 ^ j) q r) :
    ∃ j' : Nat, s' = s0 + j' ∧ Off O (N * 10 ^ j') q' := by
  have key := divLoop.partial_correctness O (fun _ q r s c => ∀ j : Nat, s = s0 + j → Lost O (N * 10 ^ j) q r →
      ∀ q' s', c = some (q', s') → ∃ j' : Nat, s' = s0 + j' ∧ Off O (N * 10 ^ j') q') (by
    intro loop ih inner q r s c h j hs hl q' s' hc
    subst hc
    split at h
    · split at h
      · exact ih _ _ _ _ _ h j hs hl q' s' rfl
      · simp only [Option.some.injEq, Prod.mk.injEq] at h
        obtain ⟨rfl, rfl⟩ := h
        exact ⟨j, hs, hl.off hO hO2⟩
    · split at h
      · simp only at h
        split at h
        · split at h
          · simp at h
          · split at h <;> simp only [Option.some.injEq, Prod.mk.injEq] at h
            · obtain ⟨rfl, rfl⟩ := h
              exact ⟨j, hs, hl.off1 hO hO2⟩
            · obtain ⟨rfl, rfl⟩ := h
              exact ⟨j, hs, hl.off hO hO2⟩
        · split at h
          · simp at h
          · refine ih _ _ _ _ _ h (j + 1) (by push_cast; omega) ?_ q' s' rfl
            rw [pow_succ, ← mul_assoc]
            exact hl.times hO hO2
      · rename_i hr
        exact ih _ _ _ _ _ h j hs (hl.digit hO hr) q' s' rfl) b q r s _ h
  exact key j hs hl q' s' rfl

/-- Ordinary long division of N by O, one digit at a time: before its end after k digits no remainder is zero and neither a remainder nor the digits so far have 18
digits. -/
def Before (O N k : Nat) : Prop :=
  ∀ j < k, N * 10 ^ j % O ≠ 0 ∧ N * 10 ^ j % O < 100000000000000000 ∧ N * 10 ^ j / O < 100000000000000000

/-- Its end: the remainder is zero, or there are 18 digits that are not above a tenth of 2^63, and the search for the next digit ends. -/
def Ends (O N k : Nat) : Prop :=
  (N * 10 ^ k % O = 0 ∧ N * 10 ^ k / O < 1000000000000000000) ∨
  (N * 10 ^ k % O ≠ 0 ∧ 100000000000000000 ≤ N * 10 ^ k / O ∧ N * 10 ^ k / O ≤ 922337203685477580 ∧
    ∃ i : Nat, (O : Int) ≤ w (((N * 10 ^ k % O : Nat) : Int) * 10 ^ (i + 1)))

theorem divmod_of {O q r X : Nat} (h : q * O + r = X) (hr : r < O) : X / O = q ∧ X % O = r := by
  subst h
  rw [mul_comm, Nat.mul_add_div (by omega), Nat.div_eq_of_lt hr, Nat.mul_add_mod, Nat.mod_eq_of_lt hr]
  simp

theorem Before.succ {O N k : Nat} (h : Before O N k) (h1 : N * 10 ^ k % O ≠ 0) (h2 : N * 10 ^ k % O < 100000000000000000)
    (h3 : N * 10 ^ k / O < 100000000000000000) : Before O N (k + 1) := by
  intro j hj
  rcases Nat.lt_succ_iff_lt_or_eq.mp hj with h' | rfl
  · exact h j h'
  · exact ⟨h1, h2, h3⟩

/-- A state of the ordinary long division after k digits. -/
def Sync (O N k : Nat) (b : Bool) (q r : Int) : Prop :=
  Before O N k ∧ ∃ Q R : Nat, q = Q ∧ r = R ∧ Q * O + R = N * 10 ^ k ∧ R ≤ 9223372036854775807 ∧ N * 10 ^ k / O ≤ 999999999999999999 ∧
    (b = true → R ≠ 0)

theorem Sync.digit {O N k : Nat} {q r : Int} (hO : 0 < O) (h : Sync O N k true q r) (hr : ¬ r < O) :
    Sync O N k false (w (q + r.tdiv O)) (r.tmod O) := by
  obtain ⟨hB, Q, R, rfl, rfl, hN, hR, hQ, _⟩ := h
  have hd : (R : Int).tdiv (O : Int) = ((R / O : Nat) : Int) := by
    rw [Int.tdiv_eq_ediv_of_nonneg (by omega)]; rfl
  have hm : (R : Int).tmod (O : Int) = ((R % O : Nat) : Int) := by
    rw [Int.tmod_eq_emod_of_nonneg (by omega)]; rfl
  have hdm := Nat.div_add_mod R O
  have hN' : (Q + R / O) * O + R % O = N * 10 ^ k := by rw [← hN, add_mul, mul_comm (R / O)]; omega
  have hlt := Nat.mod_lt R hO
  obtain ⟨e1, e2⟩ := divmod_of hN' hlt
  rw [e1] at hQ
  refine ⟨hB, Q + R / O, R % O, ?_, hm, hN', le_trans (Nat.mod_le _ _) hR, by rw [e1]; exact hQ, by simp⟩
  rw [hd]
  generalize R / O = z at *
  rw [w_id (by omega) (by omega)]
  push_cast
  rfl

/-- Below the divisor, the quotient and the remainder are those of N * 10^k. -/
theorem Sync.parts {O N k : Nat} {b : Bool} {q r : Int} (h : Sync O N k b q r) (hr : r < O) :
    q = ((N * 10 ^ k / O : Nat) : Int) ∧ r = ((N * 10 ^ k % O : Nat) : Int) := by
  obtain ⟨hB, Q, R, rfl, rfl, hN, hR, hQ, _⟩ := h
  obtain ⟨e1, e2⟩ := divmod_of hN (by omega)
  rw [e1, e2]
  exact ⟨rfl, rfl⟩

/-- One more digit, if nothing leaves its range. -/
theorem Sync.times {O N k : Nat} {q r : Int} (h : Sync O N k true q r) (hr : r < O)
    (hq : N * 10 ^ k / O < 100000000000000000) (hm : N * 10 ^ k % O < 100000000000000000) :
    Sync O N (k + 1) true (w (q * 10)) (w (r * 10)) := by
  have hp := h.parts hr
  obtain ⟨hB, Q, R, rfl, rfl, hN, hR, hQ, h0⟩ := h
  have hr' : R < O := by omega
  obtain ⟨e1, e2⟩ := divmod_of hN hr'
  have h0 := h0 rfl
  have hN' : Q * 10 * O + R * 10 = N * 10 ^ (k + 1) := by
    rw [pow_succ, ← mul_assoc, ← hN]; ring
  rw [e1] at hq
  rw [e2] at hm
  refine ⟨hB.succ (by rw [e2]; exact h0) (by rw [e2]; exact hm) (by rw [e1]; exact hq), Q * 10, R * 10, ?_, ?_, hN', by omega, ?_, fun _ => by omega⟩
  · rw [w_id (by omega) (by omega)]; push_cast; rfl
  · rw [w_id (by omega) (by omega)]; push_cast; rfl
  · have : N * 10 ^ (k + 1) / O < Q * 10 + 10 := by
      rw [Nat.div_lt_iff_lt_mul (by omega), ← hN', add_mul]
      omega
    omega

/-- Every result of the loop is that of the ordinary long division, or a wrong one. -/
theorem divLoop_only (O N : Nat) (s0 : Int) (hO : 0 < O) (hO2 : O ≤ 999999999999999999) (b : Bool) (q r s q' s' : Int)
    (h : divLoop O b q r s = some (some (q', s'))) (k : Nat) (hs : s = s0 + k)
    (hst : Sync O N k b q r ∨ Lost O ((N : Int) * 10 ^ k) q r) :
    (∃ k, Before O N k ∧ Ends O N k) ∨ ∃ j' : Nat, s' = s0 + j' ∧ Off O ((N : Int) * 10 ^ j') q' := by
  have hOi : (0 : Int) < O := by exact_mod_cast hO
  have hO2i : (O : Int) ≤ 999999999999999999 := by exact_mod_cast hO2
  have key := divLoop.partial_correctness (O : Int) (fun b q r s c => ∀ k : Nat, s = s0 + k →
      (Sync O N k b q r ∨ Lost O ((N : Int) * 10 ^ k) q r) →
      ∀ q' s', c = some (q', s') → (∃ k, Before O N k ∧ Ends O N k) ∨ ∃ j' : Nat, s' = s0 + j' ∧ Off O ((N : Int) * 10 ^ j') q') (by
    intro loop ih inner q r s c h k hs hst q' s' hc
    subst hc
    split at h
    · rename_i hin
      split at h
      · rename_i hr0
        refine ih _ _ _ _ _ h k hs ?_ q' s' rfl
        rcases hst with ⟨hB, Q, R, e1, e2, hN, hR, hQ, _⟩ | hst
        · exact .inl ⟨hB, Q, R, e1, e2, hN, hR, hQ, fun _ => by rintro rfl; exact hr0 e2⟩
        · exact .inr hst
      · rename_i hr0
        have hr0 : r = 0 := by simpa using hr0
        simp only [Option.some.injEq, Prod.mk.injEq] at h
        obtain ⟨rfl, rfl⟩ := h
        rcases hst with hst | hst
        · left
          have hp := hst.parts (by omega)
          obtain ⟨hB, Q, R, e1, e2, hN, hR, hQ, _⟩ := hst
          exact ⟨k, hB, .inl ⟨by omega, by omega⟩⟩
        · right
          exact ⟨k, hs, hst.off hOi hO2i⟩
    · rename_i hin
      have hin : inner = true := by simpa using hin
      subst hin
      split at h
      · rename_i hr
        simp only at h
        rcases hst with hst | hst
        · have hp := hst.parts hr
          have hst' := hst
          obtain ⟨hB, Q, R, e1, e2, hN, hR, hQ, h0⟩ := hst'
          have h0 := h0 rfl
          have hm0 : N * 10 ^ k % O ≠ 0 := by omega
          by_cases hw : 922337203685477580 < N * 10 ^ k / O
          · -- the quotient leaves int64
            have hl : Lost O ((N : Int) * 10 ^ (k + 1)) (w (q * 10)) (w (r * 10)) := by
              rw [pow_succ, ← mul_assoc]
              exact Lost.start hOi (by rw [e1, e2]; exact_mod_cast hN) (by omega) (by omega) (by omega) (by omega) (.inl (by omega))
            split at h
            · rename_i hgt
              unfold maxValue at hgt
              exfalso
              have : w (q * 10) = q * 10 - 18446744073709551616 := by rw [w_def]; omega
              omega
            · split at h
              · simp at h
              · exact ih _ _ _ _ _ h (k + 1) (by push_cast; omega) (.inr hl) q' s' rfl
          · have ew : w (q * 10) = q * 10 := w_id (by omega) (by omega)
            split at h
            · rename_i hgt
              unfold maxValue at hgt
              split at h
              · simp at h
              · rename_i m hm
                left
                obtain ⟨i, hi⟩ := (divGrow_iff _ _).mp ⟨m, hm⟩
                refine ⟨k, hB, .inr ⟨hm0, by omega, by omega, i, ?_⟩⟩
                rw [← hp.2, pow_succ', ← mul_assoc]
                exact hi
            · rename_i hgt
              unfold maxValue at hgt
              by_cases hw2 : 922337203685477580 < N * 10 ^ k % O
              · have hl : Lost O ((N : Int) * 10 ^ (k + 1)) (w (q * 10)) (w (r * 10)) := by
                  rw [pow_succ, ← mul_assoc]
                  exact Lost.start hOi (by rw [e1, e2]; exact_mod_cast hN) (by omega) (by omega) (by omega) (by omega) (.inr (by omega))
                split at h
                · simp at h
                · exact ih _ _ _ _ _ h (k + 1) (by push_cast; omega) (.inr hl) q' s' rfl
              · have ew2 : w (r * 10) = r * 10 := w_id (by omega) (by omega)
                split at h
                · simp at h
                · rename_i hle
                  unfold maxValue at hle
                  exact ih _ _ _ _ _ h (k + 1) (by push_cast; omega) (.inl (hst.times hr (by omega) (by omega))) q' s' rfl
        · split at h
          · split at h
            · simp at h
            · right
              split at h <;> simp only [Option.some.injEq, Prod.mk.injEq] at h
              · obtain ⟨rfl, rfl⟩ := h
                exact ⟨k, hs, hst.off1 hOi hO2i⟩
              · obtain ⟨rfl, rfl⟩ := h
                exact ⟨k, hs, hst.off hOi hO2i⟩
          · split at h
            · simp at h
            · refine ih _ _ _ _ _ h (k + 1) (by push_cast; omega) (.inr ?_) q' s' rfl
              rw [pow_succ, ← mul_assoc]
              exact hst.times hOi hO2i
      · rename_i hr
        refine ih _ _ _ _ _ h k hs ?_ q' s' rfl
        rcases hst with hst | hst
        · exact .inl (hst.digit hO hr)
        · exact .inr (hst.digit hOi hr)) b q r s _ h
  exact key k hs hst q' s' rfl

end Micro.Dec
