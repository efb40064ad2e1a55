import Verif.Decimal.MulProps
set_option linter.unusedSimpArgs false
/-
Lemmas for the complete description of Mul (C09).
-/
namespace Micro.Dec
open Micro

/-- The number written with k fives. -/
def fives : Nat → Nat
  | 0 => 0
  | k + 1 => 10 * fives k + 5

/-- n with its last k digits rounded off one at a time, a five or more rounding up (so that 45 becomes 1). -/
def roundOff (n k : Nat) : Nat := (n + fives k) / 10 ^ k

theorem fives_eq (k : Nat) : 9 * fives k = 5 * (10 ^ k - 1) := by
  induction k with
  | zero => rfl
  | succ k ih =>
    have hp : 1 ≤ 10 ^ k := Nat.one_le_pow _ _ (by norm_num)
    rw [fives, pow_succ]; omega

theorem fives_lt (k : Nat) : fives k < 10 ^ k := by
  have h := fives_eq k
  have hp : 1 ≤ 10 ^ k := Nat.one_le_pow _ _ (by norm_num)
  omega

theorem fives_add (j k : Nat) : fives (j + k) = 10 ^ j * fives k + fives j := by
  induction j with
  | zero => simp [fives]
  | succ j ih =>
    rw [show j + 1 + k = (j + k) + 1 by omega, fives, ih, fives, pow_succ]; ring

/-- Rounding off one digit at a time is what roundOff does. -/
theorem roundOff_succ (n k : Nat) : roundOff n (k + 1) = roundOff ((n + 5) / 10) k := by
  unfold roundOff
  rw [fives, pow_succ', ← Nat.div_div_eq_div_mul]
  congr 1
  omega

theorem roundOff_zero (n : Nat) : roundOff n 0 = n := by simp [roundOff, fives]

theorem roundOff_mul (n i k : Nat) : roundOff (n * 10 ^ i) (i + k) = roundOff n k := by
  unfold roundOff
  rw [fives_add, pow_add, ← Nat.div_div_eq_div_mul]
  have hp : 0 < 10 ^ i := by positivity
  rw [show n * 10 ^ i + (10 ^ i * fives k + fives i) = 10 ^ i * (n + fives k) + fives i by ring,
    Nat.mul_add_div hp, Nat.div_eq_of_lt (fives_lt i), Nat.add_zero]

theorem mulScaleDown_roundOff (k n : Nat) (hn : n ≤ 9223372036854775806) :
    mulScaleDown k (n : Int) = (roundOff n k : Int) := by
  induction k generalizing n with
  | zero => simp [mulScaleDown, roundOff_zero]
  | succ k ih =>
    have hd : (n : Int).tdiv 10 = ((n / 10 : Nat) : Int) := by
      rw [Int.tdiv_eq_ediv_of_nonneg (by omega)]; rfl
    have hm : (n : Int).tmod 10 = ((n % 10 : Nat) : Int) := by
      rw [Int.tmod_eq_emod_of_nonneg (by omega)]; rfl
    have h : (if (n : Int).tmod 10 ≥ 5 then w ((n : Int).tdiv 10 + 1) else (n : Int).tdiv 10) = (((n + 5) / 10 : Nat) : Int) := by
      rw [hd, hm]
      split
      · rw [w_id (by omega) (by omega)]; omega
      · omega
    rw [mulScaleDown, h, ih _ (by omega), roundOff_succ]

/-- The carry mulRound ends with. -/
theorem mulRound_carry (ds : List Char) (carry rs : Nat) (hc : carry ≤ 1) (hd : ∀ c ∈ ds, isDigit c = true) :
    mulRound ds carry rs = (ds.drop (ds.length - 18),
      roundOff (digitsVal (ds.take (ds.length - 18)).reverse + carry) (ds.length - 18), rs - (ds.length - 18)) := by
  induction ds generalizing carry rs with
  | nil => simp [mulRound, roundOff, fives]
  | cons c cs ih =>
    unfold mulRound
    by_cases h : (c :: cs).length > 18
    · rw [if_pos h]
      simp only [List.length_cons] at h
      rw [ih _ _ (by split <;> omega) (fun c hc => hd c (by simp [hc])), List.length_cons]
      have e : cs.length + 1 - 18 = (cs.length - 18) + 1 := by omega
      have hdv : digitVal c < 10 := digitVal_lt (hd c (by simp))
      rw [e, List.drop_succ_cons, List.take_succ_cons, List.reverse_cons, digitsVal_snoc, roundOff_succ]
      congr 2
      · congr 1
        split <;> omega
      · omega
    · rw [if_neg h]
      have e : (c :: cs).length - 18 = 0 := by omega
      rw [e]
      simp [roundOff_zero]

theorem len_of_div (p E : Nat) (h1 : 100000000000000000 ≤ p / 10 ^ E) (h2 : p / 10 ^ E < 1000000000000000000) :
    (natChars p).length = E + 18 := by
  have hE : 0 < 10 ^ E := by positivity
  have a1 : 10 ^ (17 + E) ≤ p := by
    rw [pow_add, show (10 : Nat) ^ 17 = 100000000000000000 by norm_num]
    exact (Nat.le_div_iff_mul_le hE).mp h1
  have a2 : p < 10 ^ (18 + E) := by
    rw [pow_add, show (10 : Nat) ^ 18 = 1000000000000000000 by norm_num]
    exact (Nat.div_lt_iff_lt_mul hE).mp h2
  have hp : 0 < p := lt_of_lt_of_le (by positivity) a1
  have b1 := natChars_pow_le p hp
  have b2 := natChars_lt_pow p
  have c1 := (Nat.pow_lt_pow_iff_right (by norm_num : 1 < 10)).mp (lt_of_le_of_lt b1 a2)
  have c2 := (Nat.pow_lt_pow_iff_right (by norm_num : 1 < 10)).mp (lt_of_le_of_lt a1 b2)
  omega

/-- The big.Int path, exactly. t is the number formed by the first 18 digits of the product, E the number of
digits behind them. -/
theorem mulBig_exact (a b rs E t : Nat) (hrs : 0 < rs) (ht : t = a * b / 10 ^ E)
    (h1 : 100000000000000000 ≤ t) (h2 : t < 1000000000000000000) :
    (rs < E → mulBig a b rs = none) ∧
    (E ≤ rs → roundOff (a * b) E = t + 1 ∧ 5 ≤ t % 10 → mulBig a b rs = some ((t : Int) + 1, rs - E, true)) ∧
    (E ≤ rs → ¬ (roundOff (a * b) E = t + 1 ∧ 5 ≤ t % 10) →
      ∃ i n : Nat, i ≤ rs - E ∧ n * 10 ^ i = t ∧ mulBig a b rs = some ((n : Int), rs - E - i, false)) := by
  unfold mulBig
  rw [if_neg (by omega)]
  have e0 : ((a : Int) * (b : Int)).natAbs = a * b := by rw [Int.natAbs_mul]; simp
  rw [e0]
  generalize a * b = p at *
  have hL := len_of_div p E (ht ▸ h1) (ht ▸ h2)
  have hdig := natChars_digits p
  have hdr : ∀ c ∈ (natChars p).reverse, isDigit c = true := fun c hc => hdig c (List.mem_reverse.mp hc)
  obtain ⟨j, j1, j2, j3, j4⟩ := mulStrip_spec (natChars p).reverse rs hdr
  rw [j2]
  simp only
  rw [List.reverse_reverse, digitsVal_natChars] at j4
  have hlen : ((natChars p).reverse.drop j).length = E + 18 - j := by simp [hL]
  have hdd : ∀ c ∈ (natChars p).reverse.drop j, isDigit c = true := fun c hc => hdr c (List.mem_of_mem_drop hc)
  generalize (natChars p).reverse.drop j = ds at *
  have hp' : digitsVal ds.reverse = p / 10 ^ j := by
    rw [j4, Nat.mul_div_cancel _ (by positivity)]
  simp only [List.length_reverse, hL] at j3
  rw [mulRound_carry ds 0 (rs - j) (by omega) hdd]
  simp only [Nat.add_zero]
  have hover : (ds.length : Int) - ((rs - j : Nat) : Int) > 18 ↔ rs < E := by omega
  refine ⟨fun h => by rw [if_pos (hover.mpr h)], ?_⟩
  by_cases hE : E ≤ rs
  swap
  · exact ⟨fun h => absurd h hE, fun h => absurd h hE⟩
  rw [if_neg (fun h => absurd (hover.mp h) (by omega))]
  have hdiv := digitsVal_take_div ds hdd
  have hrd : ∀ c ∈ (ds.drop (ds.length - 18)).reverse, isDigit c = true := fun c hc => hdd c (List.mem_of_mem_drop (List.mem_reverse.mp hc))
  have hld : (ds.drop (ds.length - 18)).reverse.length ≤ 18 := by rw [List.length_reverse, List.length_drop]; omega
  have hpar := parse18' _ hrd hld
  rw [hpar, hdiv _ (by omega), hp', Nat.div_div_eq_div_mul, ← pow_add]
  by_cases hjE : E ≤ j
  · -- all the dropped digits are zeros
    obtain ⟨i, rfl⟩ : ∃ i, j = E + i := ⟨j - E, by omega⟩
    have e1 : p = (digitsVal ds.reverse * 10 ^ i) * 10 ^ E := by
      conv_lhs => rw [j4]
      rw [pow_add]; ring
    have et : t = digitsVal ds.reverse * 10 ^ i := by
      rw [ht]; conv_lhs => rw [e1]
      rw [Nat.mul_div_cancel _ (by positivity)]
    have er : roundOff p E = t := by
      rw [et]; conv_lhs => rw [e1]
      exact roundOff_mul _ E 0 |>.trans (roundOff_zero _)
    have hk : ds.length - 18 = 0 := by omega
    refine ⟨fun _ h => absurd h.1 (by omega), fun _ _ => ⟨i, digitsVal ds.reverse, by omega, et.symm, ?_⟩⟩
    rw [hk, if_neg]
    · simp only [Nat.add_zero, ← hp']
      congr 3; omega
    · simp [roundOff_zero]
  · obtain ⟨k, hk0, rfl⟩ : ∃ k, 0 < k ∧ E = j + k := ⟨E - j, by omega, by omega⟩
    have hk : ds.length - 18 = k := by omega
    rw [hk, ← ht]
    have hhigh : digitsVal (ds.drop k).reverse = t := by
      rw [hdiv k (by omega), hp', Nat.div_div_eq_div_mul, ← pow_add, ht]
    have hsplit : digitsVal ds.reverse = 10 ^ k * t + digitsVal (ds.take k).reverse := by
      conv_lhs => rw [← List.take_append_drop k ds]
      rw [List.reverse_append, digitsVal_append, hhigh]
      have : (ds.take k).reverse.length = k := by simp; omega
      rw [this]; ring
    have hcarry : roundOff p (j + k) = t + roundOff (digitsVal (ds.take k).reverse) k := by
      rw [j4, roundOff_mul, hsplit]
      unfold roundOff
      rw [Nat.add_assoc, Nat.mul_add_div (by positivity)]
    have hdigit : digitVal ((ds.drop k).headD '0') = t % 10 := by
      have hl : (ds.drop k).length = 18 := by rw [List.length_drop]; omega
      cases hx : ds.drop k with
      | nil => rw [hx] at hl; simp at hl
      | cons c cs =>
        have hc : isDigit c = true := hdd c (List.mem_of_mem_drop (i := k) (by rw [hx]; simp))
        have hlt := digitVal_lt hc
        rw [hx, List.reverse_cons, digitsVal_snoc] at hhigh
        simp only [List.headD_cons]
        omega
    rw [hdigit, hcarry]
    have hsub : rs - j - k = rs - (j + k) := by omega
    rw [hsub]
    have hw : w ((t : Int) + 1) = (t : Int) + 1 := w_id (by clear ht hhigh hsplit hcarry; omega) (by clear ht hhigh hsplit hcarry; omega)
    rw [hw]
    generalize roundOff (digitsVal (ds.take k).reverse) k = cy
    refine ⟨fun _ h => ?_, fun _ h => ⟨0, t, by omega, by simp, ?_⟩⟩
    · rw [if_pos ⟨by have := h.1; clear ht; omega, h.2⟩]
    · rw [if_neg (fun h' => h ⟨by rw [h'.1], h'.2⟩)]; simp

end Micro.Dec
