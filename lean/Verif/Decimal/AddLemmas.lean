import Verif.Decimal.CmpProps
set_option linter.unusedSimpArgs false
namespace Micro.Dec
open Micro

theorem mulTens_eq (n : Nat) (v : Int) (h : Fits (v * 10 ^ n)) : mulTens n v = v * 10 ^ n := by
  induction n generalizing v with
  | zero => simp [mulTens]
  | succ n ih =>
    have hp : (1 : Int) ≤ 10 ^ n := one_le_pow₀ (by norm_num)
    have e : v * 10 ^ (n + 1) = v * 10 * 10 ^ n := by rw [pow_succ]; ring
    rw [e] at h
    have hb : Fits (v * 10) := by
      unfold Fits at *
      constructor <;> nlinarith
    rw [mulTens, w_id (by have := hb.le63; omega) hb.le63.2, ih _ h, e]

theorem room_fits (v : Int) (k : Nat) (h : numDigits v + k ≤ 18) : Fits (v * 10 ^ k) := by
  have h1 := natChars_lt_pow v.natAbs
  have h2 : v.natAbs * 10 ^ k < 10 ^ 18 := by
    calc v.natAbs * 10 ^ k < 10 ^ (numDigits v) * 10 ^ k := by
          apply Nat.mul_lt_mul_of_pos_right h1 (by positivity)
      _ = 10 ^ (numDigits v + k) := by rw [pow_add]
      _ ≤ 10 ^ 18 := Nat.pow_le_pow_right (by norm_num) h
  have h3 : (v * 10 ^ k).natAbs < 10 ^ 18 := by
    rw [Int.natAbs_mul, Int.natAbs_pow]; exact h2
  unfold Fits; omega

/-! ### The carry loop -/

theorem succ_digit (c : Char) (h : isDigit c = true) (h9 : c ≠ '9') :
    isDigit (Char.ofNat (c.toNat + 1)) = true ∧ digitVal (Char.ofNat (c.toNat + 1)) = digitVal c + 1 := by
  have hv := digitVal_lt h
  have hc := digitChar_digitVal h
  have h9' : digitVal c ≠ 9 := by
    intro h'; apply h9; rw [← hc, h']; decide
  have : c.toNat + 1 = 48 + (digitVal c + 1) := by
    simp [isDigit] at h; simp [digitVal]; omega
  rw [this]
  have e : Char.ofNat (48 + (digitVal c + 1)) = digitChar (digitVal c + 1) := rfl
  rw [e]
  exact ⟨isDigit_digitChar (by omega), digitVal_digitChar (by omega)⟩

theorem carryLoop_false (l : List Char) : carryLoop false l = (false, l) := by
  cases l <;> rfl

theorem carryLoop_true (l : List Char) (h : ∀ c ∈ l, isDigit c = true) :
    ((carryLoop true l).2.length = l.length) ∧ (∀ c ∈ (carryLoop true l).2, isDigit c = true) ∧
    digitsVal l.reverse + 1 = (if (carryLoop true l).1 then 10 ^ l.length else 0) + digitsVal (carryLoop true l).2.reverse := by
  induction l with
  | nil => simp [carryLoop]
  | cons c l ih =>
    have hc := h c (by simp)
    have hl : ∀ c ∈ l, isDigit c = true := fun c hc => h c (by simp [hc])
    by_cases h9 : c = '9'
    · subst h9
      obtain ⟨i1, i2, i3⟩ := ih hl
      simp only [carryLoop, decide_true, if_true]
      refine ⟨by simp [i1], ?_, ?_⟩
      · intro c hc
        rcases List.mem_cons.mp hc with rfl | hc
        · decide
        · exact i2 c hc
      · rw [List.reverse_cons, List.reverse_cons, digitsVal_snoc, digitsVal_snoc]
        have e9 : digitVal '9' = 9 := by decide
        have e0 : digitVal '0' = 0 := by decide
        rw [e9, e0, List.length_cons, pow_succ]
        split at i3 <;> simp_all <;> omega
    · have hs := succ_digit c hc h9
      simp only [carryLoop, h9, decide_false, carryLoop_false, Bool.false_eq_true, if_false]
      refine ⟨by simp, ?_, ?_⟩
      · intro c' hc'
        rcases List.mem_cons.mp hc' with rfl | hc'
        · exact hs.1
        · exact hl c' hc'
      · rw [List.reverse_cons, List.reverse_cons, digitsVal_snoc, digitsVal_snoc, hs.2]; omega

/-- The digits of `n` without the last `k`, plus one if the first dropped digit is at least 5, are the
digits of n / 10^k rounded half up. -/
theorem round_digits (n k : Nat) (hk : 0 < k) (hl : k ≤ (natChars n).length) (h18 : (natChars n).length ≤ 18) (cur : Int) :
    let str := natChars n
    let keep := str.length - k
    let r := carryLoop (decide ((str.getD keep '0').toNat ≥ '5'.toNat)) (str.take keep).reverse
    (Conv.stringToInt64 (if r.1 then '1' :: r.2.reverse else r.2.reverse) cur).target
      = ((2 * n + 10 ^ k) / (2 * 10 ^ k) : Nat) := by
  intro str keep r
  have hd := natChars_digits n
  have htd : ∀ c ∈ str.take keep, isDigit c = true := fun c hc => hd c (List.mem_of_mem_take hc)
  have hdd : ∀ c ∈ str.drop keep, isDigit c = true := fun c hc => hd c (List.mem_of_mem_drop hc)
  have hdl : (str.drop keep).length = k := by simp [keep, str]; omega
  have hval : n = digitsVal (str.take keep) * 10 ^ k + digitsVal (str.drop keep) := by
    have := digitsVal_append (str.take keep) (str.drop keep)
    rw [List.take_append_drop, hdl] at this
    rw [← this]; exact (digitsVal_natChars n).symm
  have hlt := digitsVal_lt _ hdd
  rw [hdl] at hlt
  have hp : 0 < 10 ^ k := by positivity
  -- the first dropped digit
  obtain ⟨c, cs, hcs⟩ : ∃ c cs, str.drop keep = c :: cs := by
    cases h : str.drop keep with
    | nil => rw [h] at hdl; simp at hdl; omega
    | cons c cs => exact ⟨c, cs, rfl⟩
  have hget : str.getD keep '0' = c := by
    have : str[keep]? = some c := by
      rw [← List.head?_drop, hcs]; rfl
    rw [List.getD_eq_getElem?_getD, this]; rfl
  have hcd : isDigit c = true := hdd c (by rw [hcs]; simp)
  have hrest : digitsVal cs < 10 ^ (k - 1) := by
    have := digitsVal_lt cs (fun c hc => hdd c (by rw [hcs]; simp [hc]))
    have e : cs.length = k - 1 := by rw [hcs] at hdl; simp at hdl; omega
    rwa [e] at this
  have hdv : digitsVal (str.drop keep) = digitVal c * 10 ^ (k - 1) + digitsVal cs := by
    rw [hcs, digitsVal_cons]
    have e : cs.length = k - 1 := by rw [hcs] at hdl; simp at hdl; omega
    rw [e]
  have hpk : 10 ^ k = 10 * 10 ^ (k - 1) := by
    obtain ⟨j, rfl⟩ : ∃ j, k = j + 1 := ⟨k - 1, by omega⟩
    rw [Nat.add_sub_cancel, pow_succ]; ring
  have hcv : digitVal c = c.toNat - 48 := rfl
  simp [isDigit] at hcd
  set q := digitsVal (str.take keep) with hq
  have h18' : str.length ≤ 18 := h18
  have hklen : (str.take keep).length ≤ 17 := by
    rw [List.length_take]
    have : keep = str.length - k := rfl
    omega
  by_cases hr : (str.getD keep '0').toNat ≥ '5'.toNat
  · have hge : 10 ^ k ≤ 2 * digitsVal (str.drop keep) := by
      rw [hget] at hr
      have h5 : '5'.toNat = 53 := rfl
      rw [h5] at hr
      have : 5 * 10 ^ (k - 1) ≤ digitVal c * 10 ^ (k - 1) := Nat.mul_le_mul_right _ (by omega)
      rw [hdv, hpk]; omega
    have hres : (2 * n + 10 ^ k) / (2 * 10 ^ k) = q + 1 := by
      rw [Nat.div_eq_iff (by omega)]
      have e : (q + 1) * (2 * 10 ^ k) = 2 * (q * 10 ^ k) + 2 * 10 ^ k := by ring
      rw [e]
      generalize q * 10 ^ k = z at *
      generalize 10 ^ k = P at *
      omega
    have hr' : r = carryLoop true (str.take keep).reverse := by simp only [r, hr, decide_true]
    obtain ⟨c1, c2, c3⟩ := carryLoop_true (str.take keep).reverse (fun c hc => htd c (List.mem_reverse.mp hc))
    rw [← hr'] at c1 c2 c3
    rw [List.reverse_reverse, ← hq] at c3
    rw [List.length_reverse] at c1 c3
    rw [hres]
    rw [parse18 _ _ _ cur]
    · split
      · rename_i hb
        rw [if_pos hb] at c3
        rw [digitsVal_cons, List.length_reverse, c1]
        have e1 : digitVal '1' = 1 := by decide
        rw [e1, c3]; omega
      · rename_i hb
        rw [if_neg hb] at c3
        rw [c3]; omega
    · intro c hc
      split at hc
      · rcases List.mem_cons.mp hc with rfl | hc
        · decide
        · exact c2 c (List.mem_reverse.mp hc)
      · exact c2 c (List.mem_reverse.mp hc)
    · split
      · simp [c1]; simp at hklen; omega
      · simp [c1]; simp at hklen; omega
  · have hlt2 : 2 * digitsVal (str.drop keep) < 10 ^ k := by
      rw [hget] at hr
      have h5 : '5'.toNat = 53 := rfl
      rw [h5] at hr
      have : digitVal c * 10 ^ (k - 1) ≤ 4 * 10 ^ (k - 1) := Nat.mul_le_mul_right _ (by omega)
      rw [hdv, hpk]; omega
    have hres : (2 * n + 10 ^ k) / (2 * 10 ^ k) = q := by
      rw [Nat.div_eq_iff (by omega)]
      have e : q * (2 * 10 ^ k) = 2 * (q * 10 ^ k) := by ring
      rw [e]
      generalize q * 10 ^ k = z at *
      generalize 10 ^ k = P at *
      omega
    have hr' : r = (false, (str.take keep).reverse) := by
      simp only [r, hr, decide_false, carryLoop_false]
    rw [hr', hres]
    simp only [Bool.false_eq_true, if_false, List.reverse_reverse]
    rw [parse18 _ htd (by omega) cur]

theorem round_le (n k : Nat) (hk : 0 < k) (h : n ≤ 999999999999999999) :
    (2 * n + 10 ^ k) / (2 * 10 ^ k) ≤ 100000000000000000 := by
  obtain ⟨j, rfl⟩ : ∃ j, k = j + 1 := ⟨k - 1, by omega⟩
  have hp : 1 ≤ 10 ^ j := Nat.one_le_pow _ _ (by norm_num)
  apply Nat.le_of_lt_succ
  rw [Nat.div_lt_iff_lt_mul (by positivity), pow_succ]
  generalize 10 ^ j = p at *
  simp only [Nat.succ_eq_add_one]
  omega

theorem roundHalfAway_fits (v : Int) (k : Nat) (hk : 0 < k) (h : Fits v) : Fits (roundHalfAway v k) := by
  unfold Fits at *
  have := round_le v.natAbs k hk (by omega)
  unfold roundHalfAway
  generalize (2 * v.natAbs + 10 ^ k) / (2 * 10 ^ k) = z at *
  split <;> omega

/-- Complete description of adjustLarger. -/
theorem adjustLarger_spec (d1 d2 : Decimal) (h1 : Fits d1.value) (h2 : Fits d2.value) (hs : d2.scale < d1.scale) :
    adjustLarger d1 d2 =
      if numDigits d2.value + (d1.scale - d2.scale) ≤ 18 then
        some (none, d1, ⟨d2.value * 10 ^ (d1.scale - d2.scale), d1.scale, d2.denormalized⟩)
      else if d2.value > 999999999999999994 then some (some .tooLargeToRound, d1, d2)
      else if d2.value < -999999999999999994 then some (some .tooSmallToRound, d1, d2)
      else if numDigits d1.value < d1.scale - d2.scale then none
      else some (none, ⟨roundHalfAway d1.value (d1.scale - d2.scale), d2.scale, d1.denormalized⟩, d2) := by
  unfold adjustLarger
  rw [absDigits_eq h1.le63.1 h1.le63.2, absDigits_eq h2.le63.1 h2.le63.2]
  have hl1 := fits_digits h1
  have hl2 := fits_digits h2
  simp only [roundMaxValue, roundMinValue, maxScale]
  unfold numDigits
  by_cases hroom : (natChars d2.value.natAbs).length + (d1.scale - d2.scale) ≤ 18
  · rw [if_pos (by omega), if_pos hroom, mulTens_eq _ _ (room_fits _ _ hroom)]
  · rw [if_neg (by omega), if_neg hroom]
    by_cases hgt : d2.value > 999999999999999994
    · rw [if_pos hgt, if_pos hgt]
    · rw [if_neg hgt, if_neg hgt]
      by_cases hlt : d2.value < -999999999999999994
      · rw [if_pos hlt, if_pos hlt]
      · rw [if_neg hlt, if_neg hlt]
        by_cases hp : (natChars d1.value.natAbs).length < d1.scale - d2.scale
        · rw [if_pos (by omega), if_pos hp]
        · rw [if_neg (by omega), if_neg hp]
          have key := round_digits d1.value.natAbs (d1.scale - d2.scale) (by omega) (by omega) hl1 d1.value
          have e : (((natChars d1.value.natAbs).length : Int) - ((d1.scale - d2.scale : Nat) : Int)).toNat =
              (natChars d1.value.natAbs).length - (d1.scale - d2.scale) := by omega
          simp only at key
          rw [e, key]
          congr 3
          unfold roundHalfAway
          have := round_le d1.value.natAbs (d1.scale - d2.scale) (by omega) (by unfold Fits at h1; omega)
          generalize (2 * d1.value.natAbs + 10 ^ (d1.scale - d2.scale)) / (2 * 10 ^ (d1.scale - d2.scale)) = z at *
          split
          · rw [w_neg (by omega) (by omega)]
          · rfl

/-- Adding aligned values. -/
theorem add_aligned (r oc : Decimal) (h1 : Fits r.value) (h2 : Fits oc.value) :
    (let r' : Decimal := { r with value := w (r.value + oc.value) }
     if r'.sign = oc.sign ∧ r'.sign = 1 ∧ r'.value > maxValue then (.err .overflow : Out DErr Decimal)
     else if r'.sign = oc.sign ∧ r'.sign ≠ 1 ∧ r'.value < minValue then .err .underflow
     else .ok r'.applyNormalization) =
    if r.value + oc.value > 999999999999999999 then .err .overflow
    else if r.value + oc.value < -999999999999999999 then .err .underflow
    else .ok (Decimal.applyNormalization ⟨r.value + oc.value, r.scale, r.denormalized⟩) := by
  unfold Fits at h1 h2
  have hw : w (r.value + oc.value) = r.value + oc.value := w_id (by omega) (by omega)
  simp only [hw, Decimal.sign, maxValue, minValue]
  by_cases g1 : r.value + oc.value > 999999999999999999
  · have p1 : oc.value > 0 := by omega
    have p2 : r.value + oc.value > 0 := by omega
    simp [g1, p1, p2]
  · by_cases g2 : r.value + oc.value < -999999999999999999
    · have p1 : oc.value < 0 := by omega
      have p2 : r.value + oc.value < 0 := by omega
      have p3 : ¬ oc.value > 0 := by omega
      have p4 : ¬ r.value + oc.value > 0 := by omega
      simp [g1, g2, p1, p2, p3, p4]
    · simp only [g1, g2, and_false, if_false]

end Micro.Dec
