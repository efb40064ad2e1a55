import Verif.Decimal.DivIntProps
set_option linter.unusedSimpArgs false
namespace Micro.Dec
open Micro

theorem divGrow_some (o : Nat) (ho : o ≤ 922337203685477580) (n : Nat) (hn : 0 < n) (hlt : n < 10 * o) :
    ∃ m : Int, divGrow o n = some m := by
  induction hk : o - n using Nat.strong_induction_on generalizing n with
  | _ k ih =>
    rw [divGrow]
    by_cases h : (n : Int) < o
    · rw [if_pos h]
      have e : w ((n : Int) * 10) = ((n * 10 : Nat) : Int) := by
        rw [w_id (by omega) (by omega)]; push_cast; ring
      rw [e]
      exact ih (o - n * 10) (by omega) (n * 10) (by omega) (by omega) rfl
    · rw [if_neg h]; exact ⟨_, rfl⟩

/-- What the digit generating loop returns for the fraction N / o: an overflow, or q at k more digits than
the start, within one unit of N * 10^k / o. -/
inductive DivRes (o N : Nat) (s : Int) : Option (Int × Int) → Prop
  | over (r : Nat) : 99999999999999999 < r → r < o → DivRes o N s none
  | exact (q k : Nat) : q ≤ 999999999999999999 → q * o = N * 10 ^ k → DivRes o N s (some (q, s + k))
  | rounded (q k r q' : Nat) : q ≤ 922337203685477580 → 0 < r → r < o → q * o + r = N * 10 ^ k →
      999999999999999999 < q * 10 → q' = q ∨ q' = q + 1 → DivRes o N s (some (q', s + k))

theorem DivRes.shift {o N : Nat} {s : Int} {c} (j : Nat) (h : DivRes o (N * 10 ^ j) (s + j) c) : DivRes o N s c := by
  cases h with
  | over r h1 h2 => exact .over r h1 h2
  | exact q k h1 h2 =>
    have e : s + (j : Int) + (k : Int) = s + ((j + k : Nat) : Int) := by push_cast; ring
    rw [e]
    exact .exact q (j + k) h1 (by rw [h2, pow_add]; ring)
  | rounded q k r q' h1 h2 h3 h4 h5 h6 =>
    have e : s + (j : Int) + (k : Int) = s + ((j + k : Nat) : Int) := by push_cast; ring
    rw [e]
    exact .rounded q (j + k) r q' h1 h2 h3 (by rw [h4, pow_add]; ring) h5 h6

theorem DivRes.exact0 {o N : Nat} {s : Int} (q : Nat) (h : q ≤ 999999999999999999) (h2 : q * o = N) :
    DivRes o N s (some (q, s)) := by
  have := DivRes.exact (o := o) (N := N) (s := s) q 0 h (by rw [h2, pow_zero, mul_one])
  simpa using this

theorem DivRes.rounded0 {o N : Nat} {s : Int} (q r q' : Nat) (h1 : q ≤ 922337203685477580) (h2 : 0 < r) (h3 : r < o)
    (h4 : q * o + r = N) (h5 : 999999999999999999 < q * 10) (h6 : q' = q ∨ q' = q + 1) :
    DivRes o N s (some (q', s)) := by
  have := DivRes.rounded (o := o) (N := N) (s := s) q 0 r q' h1 h2 h3 (by rw [h4, pow_zero, mul_one]) h5 h6
  simpa using this

/-- The 18 digit prefixes of N / o avoid the range in which multiplying by ten leaves int64. -/
def Window (o N : Nat) : Prop :=
  ∀ k, 922337203685477580 < N * 10 ^ k / o → N * 10 ^ k / o ≤ 999999999999999999 → o ∣ N * 10 ^ k

theorem Window.shift {o N : Nat} (h : Window o N) (j : Nat) : Window o (N * 10 ^ j) := by
  intro k
  have := h (j + k)
  rw [pow_add, ← mul_assoc] at this
  exact this

theorem window_lt {o N q r : Nat} (hw : Window o N) (hN : q * o + r = N) (hr : 0 < r) (hro : r < o)
    (hq : q ≤ 999999999999999999) : q ≤ 922337203685477580 := by
  have hdiv : N * 10 ^ 0 / o = q := by
    rw [pow_zero, mul_one, ← hN, Nat.mul_comm, Nat.mul_add_div (by omega), Nat.div_eq_of_lt hro, add_zero]
  by_contra hc
  have := hw 0 (by omega) (by omega)
  rw [pow_zero, mul_one, ← hN] at this
  have h2 : o ∣ r := (Nat.dvd_add_right (Dvd.intro_left _ rfl)).mp this
  have := Nat.le_of_dvd hr h2
  omega

theorem divLoop_outer (o : Int) (q r s : Int) :
    divLoop o false q r s = if r ≠ 0 then divLoop o true q r s else some (some (q, s)) := by
  rw [divLoop]; simp

theorem divLoop_inner (o : Int) (q r s : Int) (h : ¬ r < o) :
    divLoop o true q r s = divLoop o false (w (q + r.tdiv o)) (r.tmod o) s := by
  rw [divLoop]
  simp [h]

theorem divLoop_step (o : Int) (q r s : Int) (h : r < o) :
    divLoop o true q r s =
      if w (q * 10) > maxValue then
        match divGrow o (w (r * 10)) with
        | none => none
        | some nr => if divShrink (nr.tdiv o) ≥ 5 then some (some (w (q + 1), s)) else some (some (q, s))
      else if w (r * 10) > maxValue then some none
      else divLoop o true (w (q * 10)) (w (r * 10)) (s + 1) := by
  rw [divLoop]
  simp [h]
  rfl

/-- Leaving the inner loop with r ≥ o: one digit is added. -/
theorem divLoop_digit (o q r : Nat) (s : Int) (ho : 0 < o) (h : o ≤ r) (hq : q + r / o ≤ 999999999999999999) :
    divLoop o true q r s = divLoop o false ((q + r / o : Nat) : Int) ((r % o : Nat) : Int) s := by
  rw [divLoop_inner _ _ _ _ (by omega)]
  have hd : (r : Int).tdiv (o : Int) = ((r / o : Nat) : Int) := by
    rw [Int.tdiv_eq_ediv_of_nonneg (by omega)]; rfl
  have hm : (r : Int).tmod (o : Int) = ((r % o : Nat) : Int) := by
    rw [Int.tmod_eq_emod_of_nonneg (by omega)]; rfl
  rw [hd, hm]
  generalize r / o = z at *
  rw [w_id (by omega) (by omega)]
  push_cast
  rfl

/-- The loop with a non-zero quotient. -/
theorem divLoop_pos (o : Nat) (ho : o ≤ 922337203685477580) (q r N : Nat) (s : Int) (hq0 : 0 < q)
    (hq : q ≤ 999999999999999999) (hr : 0 < r) (hro : r < o) (hN : q * o + r = N) (hw : Window o N) :
    ∃ c, divLoop o true q r s = some c ∧ DivRes o N s c := by
  induction hk : 1000000000000000000 - q using Nat.strong_induction_on generalizing q r N s with
  | _ k ih =>
    have hq2 := window_lt hw hN hr hro hq
    rw [divLoop_step _ _ _ _ (by omega)]
    have e1 : w ((q : Int) * 10) = ((q * 10 : Nat) : Int) := by
      rw [w_id (by omega) (by omega)]; push_cast; ring
    have e2 : w ((r : Int) * 10) = ((r * 10 : Nat) : Int) := by
      rw [w_id (by omega) (by omega)]; push_cast; ring
    rw [e1, e2]
    simp only [maxValue]
    by_cases h1 : ((q * 10 : Nat) : Int) > 999999999999999999
    · rw [if_pos h1]
      obtain ⟨m, hm⟩ := divGrow_some o ho (r * 10) (by omega) (by omega)
      rw [hm]
      simp only
      have h1' : 999999999999999999 < q * 10 := by exact_mod_cast h1
      split
      · refine ⟨_, rfl, ?_⟩
        have ew : w ((q : Int) + 1) = ((q + 1 : Nat) : Int) := by
          rw [w_id (by omega) (by omega)]; push_cast; ring
        rw [ew]
        exact .rounded0 q r (q + 1) hq2 hr hro hN h1' (.inr rfl)
      · refine ⟨_, rfl, ?_⟩
        exact .rounded0 q r q hq2 hr hro hN h1' (.inl rfl)
    · rw [if_neg h1]
      by_cases h2 : ((r * 10 : Nat) : Int) > 999999999999999999
      · rw [if_pos h2]
        exact ⟨none, rfl, .over r (by omega) hro⟩
      · rw [if_neg h2]
        have hN' : q * 10 * o + r * 10 = N * 10 ^ 1 := by rw [← hN]; ring
        by_cases h3 : r * 10 < o
        · obtain ⟨c, c1, c2⟩ := ih (1000000000000000000 - q * 10) (by omega) (q * 10) (r * 10) (N * 10 ^ 1) (s + 1)
            (by omega) (by omega) (by omega) h3 hN' (hw.shift 1) rfl
          exact ⟨c, c1, c2.shift 1⟩
        · have hdig : r * 10 / o ≤ 9 := by
            have : r * 10 / o < 10 := by rw [Nat.div_lt_iff_lt_mul (by omega)]; omega
            omega
          rw [divLoop_digit o (q * 10) (r * 10) (s + 1) (by omega) (by omega) (by omega), divLoop_outer]
          have hdm := Nat.div_add_mod (r * 10) o
          have hmlt : r * 10 % o < o := Nat.mod_lt _ (by omega)
          have hN2 : (q * 10 + r * 10 / o) * o + r * 10 % o = N * 10 ^ 1 := by
            rw [← hN', Nat.add_mul, Nat.mul_comm (r * 10 / o) o]; omega
          have hle : q * 10 + r * 10 / o ≤ 999999999999999999 := by omega
          generalize hz : r * 10 / o = z at *
          generalize hy : r * 10 % o = y at *
          by_cases h4 : y = 0
          · subst h4
            simp only [Nat.cast_zero, ne_eq, not_true_eq_false, if_false]
            refine ⟨_, rfl, ?_⟩
            exact .exact (q * 10 + z) 1 hle (by rw [← hN2]; simp)
          · rw [if_pos (by omega)]
            obtain ⟨c, c1, c2⟩ := ih (1000000000000000000 - (q * 10 + z)) (by omega) (q * 10 + z) y (N * 10 ^ 1) (s + 1)
              (by omega) hle (by omega) hmlt hN2 (hw.shift 1) rfl
            exact ⟨c, c1, c2.shift 1⟩

/-- The loop while the quotient is zero. -/
theorem divLoop_zero (o : Nat) (ho : o ≤ 922337203685477580) (r : Nat) (s : Int)
    (hr : 0 < r) (hro : r < o) (hw : Window o r) :
    ∃ c, divLoop o true 0 r s = some c ∧ DivRes o r s c := by
  induction hk : o - r using Nat.strong_induction_on generalizing r s with
  | _ k ih =>
    rw [divLoop_step _ _ _ _ (by omega)]
    have e1 : w ((0 : Int) * 10) = 0 := by rw [w_id (by omega) (by omega)]; rfl
    have e2 : w ((r : Int) * 10) = ((r * 10 : Nat) : Int) := by
      rw [w_id (by omega) (by omega)]; push_cast; ring
    rw [e1, e2]
    simp only [maxValue]
    rw [if_neg (by omega)]
    by_cases h2 : ((r * 10 : Nat) : Int) > 999999999999999999
    · rw [if_pos h2]
      exact ⟨none, rfl, .over r (by omega) hro⟩
    · rw [if_neg h2]
      have hN' : r * 10 = r * 10 ^ 1 := by ring
      by_cases h3 : r * 10 < o
      · obtain ⟨c, c1, c2⟩ := ih (o - r * 10) (by omega) (r * 10) (s + 1) (by omega) h3 (by rw [hN']; exact hw.shift 1) rfl
        rw [hN'] at c2
        rw [c1]
        exact ⟨c, rfl, c2.shift 1⟩
      · have hdig : r * 10 / o ≤ 9 := by
          have : r * 10 / o < 10 := by rw [Nat.div_lt_iff_lt_mul (by omega)]; omega
          omega
        have hpos : 0 < r * 10 / o := Nat.div_pos (by omega) (by omega)
        have := divLoop_digit o 0 (r * 10) (s + 1) (by omega) (by omega) (by omega)
        simp only [Nat.cast_zero, Nat.zero_add] at this
        rw [this, divLoop_outer]
        have hdm := Nat.div_add_mod (r * 10) o
        have hmlt : r * 10 % o < o := Nat.mod_lt _ (by omega)
        have hN2 : (r * 10 / o) * o + r * 10 % o = r * 10 ^ 1 := by
          rw [← hN', Nat.mul_comm]; omega
        generalize hz : r * 10 / o = z at *
        generalize hy : r * 10 % o = y at *
        by_cases h4 : y = 0
        · subst h4
          simp only [Nat.cast_zero, ne_eq, not_true_eq_false, if_false]
          refine ⟨_, rfl, ?_⟩
          exact .exact z 1 (by omega) (by rw [← hN2]; simp)
        · rw [if_pos (by omega)]
          obtain ⟨c, c1, c2⟩ := divLoop_pos o ho z y (r * 10 ^ 1) (s + 1) hpos (by omega) (by omega) hmlt hN2 (hw.shift 1)
          exact ⟨c, c1, c2.shift 1⟩

/-- The loop from its entry, with r < o. -/
theorem divLoop_entry (o : Nat) (ho : o ≤ 922337203685477580) (q r N : Nat) (s : Int)
    (hq : q ≤ 999999999999999999) (hro : r < o) (hN : q * o + r = N) (hw : Window o N) :
    ∃ c, divLoop o false q r s = some c ∧ DivRes o N s c := by
  rw [divLoop_outer]
  by_cases h : r = 0
  · subst h
    simp only [Nat.cast_zero, ne_eq, not_true_eq_false, if_false]
    exact ⟨_, rfl, .exact0 q hq (by simpa using hN)⟩
  · rw [if_pos (by omega)]
    rcases Nat.eq_zero_or_pos q with h0 | h0
    · subst h0
      have : N = r := by omega
      subst this
      exact divLoop_zero o ho _ s (by omega) hro hw
    · exact divLoop_pos o ho q r N s h0 hq (by omega) hro hN hw

/-- The scale-up loop. -/
theorem divScaleUp_spec (n q r : Nat) (hq : q ≤ 999999999999999999) (hr : r * 10 ^ n ≤ 9223372036854775807)
    (hw : ∀ i, i < n → ¬ (922337203685477580 < q * 10 ^ i ∧ q * 10 ^ i ≤ 999999999999999999)) :
    (q * 10 ^ n ≤ 999999999999999999 ∧ divScaleUp n q r = some (((q * 10 ^ n : Nat) : Int), ((r * 10 ^ n : Nat) : Int))) ∨
    (999999999999999999 < q * 10 ^ n ∧ divScaleUp n q r = none) := by
  induction n generalizing q r with
  | zero => left; exact ⟨by simpa using hq, by simp [divScaleUp]⟩
  | succ n ih =>
    have h0 := hw 0 (by omega)
    simp only [pow_zero, mul_one] at h0
    have hp : 1 ≤ 10 ^ n := Nat.one_le_pow _ _ (by norm_num)
    have er : r * 10 ^ (n + 1) = r * 10 * 10 ^ n := by rw [pow_succ]; ring
    have eq : q * 10 ^ (n + 1) = q * 10 * 10 ^ n := by rw [pow_succ]; ring
    have hr10 : r * 10 ≤ 9223372036854775807 := by
      rw [er] at hr
      refine le_trans (Nat.le_mul_of_pos_right _ (by omega)) hr
    have e1 : w ((q : Int) * 10) = ((q * 10 : Nat) : Int) := by
      rw [w_id (by omega) (by omega)]; push_cast; ring
    have e2 : w ((r : Int) * 10) = ((r * 10 : Nat) : Int) := by
      rw [w_id (by omega) (by omega)]; push_cast; ring
    rw [divScaleUp]
    simp only [e1, e2, maxValue]
    by_cases h : ((q * 10 : Nat) : Int) > 999999999999999999
    · right
      rw [if_pos h]
      refine ⟨?_, rfl⟩
      rw [eq]
      refine lt_of_lt_of_le ?_ (Nat.le_mul_of_pos_right _ (by omega))
      omega
    · rw [if_neg h, eq, er]
      apply ih (q * 10) (r * 10) (by omega) (by rw [← er]; exact hr)
      intro i hi
      have := hw (i + 1) (by omega)
      rw [pow_succ, mul_comm (10 ^ i) 10, ← mul_assoc] at this
      exact this

end Micro.Dec
