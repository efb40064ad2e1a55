import Verif.Decimal.Props
set_option linter.unusedSimpArgs false
/-
C05: Cmp is the comparison of the numbers.
-/
namespace Micro.Dec
open Micro

/-- Three way comparison of natural numbers. -/
def cmpNat (a b : Nat) : Int := if a < b then -1 else if b < a then 1 else 0

theorem cmpStrings_append (a a' x x' : List Char) (h : a.length = a'.length) :
    cmpStrings (a ++ x) (a' ++ x') = if cmpStrings a a' ≠ 0 then cmpStrings a a' else cmpStrings x x' := by
  induction a generalizing a' with
  | nil =>
    cases a' with
    | nil => simp [cmpStrings]
    | cons => simp at h
  | cons c a ih =>
    cases a' with
    | nil => simp at h
    | cons c' a' =>
      simp at h
      simp only [List.cons_append, cmpStrings]
      split
      · simp
      · split
        · simp
        · exact ih a' h

theorem cmpStrings_digits (a b : List Char) (ha : ∀ c ∈ a, isDigit c = true) (hb : ∀ c ∈ b, isDigit c = true)
    (h : a.length = b.length) : cmpStrings a b = cmpNat (digitsVal a) (digitsVal b) := by
  induction a generalizing b with
  | nil =>
    cases b with
    | nil => rfl
    | cons => simp at h
  | cons c a ih =>
    cases b with
    | nil => simp at h
    | cons c' b =>
      simp at h
      have hc := ha c (by simp)
      have hc' := hb c' (by simp)
      have ha' : ∀ c ∈ a, isDigit c = true := fun c hc => ha c (by simp [hc])
      have hb' : ∀ c ∈ b, isDigit c = true := fun c hc => hb c (by simp [hc])
      have l1 := digitsVal_lt a ha'
      have l2 := digitsVal_lt b hb'
      rw [digitsVal_cons, digitsVal_cons]
      rw [h] at l1 ⊢
      have hv : digitVal c = c.toNat - 48 := rfl
      have hv' : digitVal c' = c'.toNat - 48 := rfl
      simp [isDigit] at hc hc'
      simp only [cmpStrings]
      generalize 10 ^ b.length = p at *
      split
      · rename_i hlt
        have : digitVal c + 1 ≤ digitVal c' := by omega
        have : (digitVal c + 1) * p ≤ digitVal c' * p := Nat.mul_le_mul_right _ this
        rw [Nat.add_mul] at this
        unfold cmpNat
        rw [if_pos (by omega)]
      · split
        · rename_i hlt
          have : digitVal c' + 1 ≤ digitVal c := by omega
          have : (digitVal c' + 1) * p ≤ digitVal c * p := Nat.mul_le_mul_right _ this
          rw [Nat.add_mul] at this
          unfold cmpNat
          rw [if_neg (by omega), if_pos (by omega)]
        · have e : digitVal c = digitVal c' := by omega
          rw [ih b ha' hb' h, e]
          unfold cmpNat
          simp only [Nat.add_lt_add_iff_left]

theorem digitsVal_pad (n : Nat) (ds : List Char) : digitsVal (List.replicate n '0' ++ ds) = digitsVal ds := by
  rw [digitsVal_append, digitsVal_replicate_zero]; simp

theorem cmpNat_ne_zero (a b : Nat) : cmpNat a b = 0 ↔ a = b := by
  unfold cmpNat; split
  · simp; omega
  · split
    · simp; omega
    · simp; omega

theorem string_noMinus (d : Decimal) (h1 : -9223372036854775807 ≤ d.value) (h2 : d.value ≤ 9223372036854775807) :
    removeFirst '-' d.string = intPart d.value.natAbs d.scale ++
      ((if d.scale = 0 then [] else ['.']) ++ fracPart d.value.natAbs d.scale) ∧
    (d.string.head? = some '-' ↔ d.value < 0) := by
  have rm0 : ∀ (c : Char) (a : List Char), (∀ x ∈ a, x ≠ c) → removeFirst c a = a := by
    intro c a ha
    induction a with
    | nil => rfl
    | cons x a ih =>
      have := ha x (by simp)
      simp [removeFirst, this, ih (fun y hy => ha y (by simp [hy]))]
  have hi := intPart_digits d.value.natAbs d.scale
  have hf := fracPart_digits d.value.natAbs d.scale
  have hi' : ∀ x ∈ intPart d.value.natAbs d.scale, x ≠ '-' := by
    intro x hx; have := hi x hx
    rintro rfl; revert this; decide
  have hf' : ∀ x ∈ fracPart d.value.natAbs d.scale, x ≠ '-' := by
    intro x hx; have := hf x hx
    rintro rfl; revert this; decide
  rw [string_eq d h1 h2]
  by_cases hn : d.value < 0
  · simp [hn, removeFirst]
  · constructor
    · simp only [hn, if_false, List.nil_append, List.append_assoc]
      apply rm0
      intro x hx
      rcases List.mem_append.mp hx with h | h
      · exact (hi' x h)
      · rcases List.mem_append.mp h with h | h
        · split at h <;> simp at h; subst h; decide
        · exact (hf' x h)
    · simp only [hn, if_false, List.nil_append, iff_false, List.append_assoc]
      have hne := intPart_ne_nil d.value.natAbs d.scale
      cases hip : intPart d.value.natAbs d.scale with
      | nil => exact absurd hip hne
      | cons c cs =>
        rw [hip] at hi'
        simpa using hi' c (by simp)

theorem splitDot_spec (ip fp : List Char) (s : Nat) (hi : ∀ c ∈ ip, isDigit c = true) (hs : s = 0 → fp = []) :
    (splitDot (ip ++ ((if s = 0 then [] else ['.']) ++ fp))).1 = ip ∧
    ((splitDot (ip ++ ((if s = 0 then [] else ['.']) ++ fp))).2).getD [] = fp := by
  have hi' : ∀ c ∈ ip, c ≠ '.' := by
    intro x hx; have := hi x hx
    rintro rfl; revert this; decide
  have key : ∀ rest : List Char, (ip ++ '.' :: rest).dropWhile (fun x => decide (x ≠ '.')) = '.' :: rest ∧
      (ip ++ '.' :: rest).takeWhile (fun x => decide (x ≠ '.')) = ip ∧
      ip.dropWhile (fun x => decide (x ≠ '.')) = [] := by
    intro rest
    clear hi
    induction ip with
    | nil => simp
    | cons c ip ih =>
      have hc := hi' c (by simp)
      have := ih (fun c h => hi' c (by simp [h]))
      simp only [List.cons_append, List.dropWhile_cons, List.takeWhile_cons, hc, ne_eq, not_false_eq_true,
        decide_true, if_true]
      exact ⟨this.1, by rw [this.2.1], this.2.2⟩
  by_cases h0 : s = 0
  · rw [hs h0]
    simp only [h0, if_true, List.append_nil, splitDot, (key []).2.2]
    exact ⟨trivial, rfl⟩
  · simp only [h0, if_false, List.singleton_append, splitDot, (key fp).1, (key fp).2.1]
    exact ⟨trivial, rfl⟩

/-- The magnitude comparison made by Cmp. -/
theorem format_cmp (d o : Decimal) (hd : Fits d.value) (ho : Fits o.value) :
    ∃ a b, adjustDecimalFormat d o =
        ((if d.value < 0 then '-' else ' ') :: a, (if o.value < 0 then '-' else ' ') :: b) ∧
      cmpStrings a b = cmpNat (d.value.natAbs * 10 ^ (max d.scale o.scale - d.scale))
        (o.value.natAbs * 10 ^ (max d.scale o.scale - o.scale)) := by
  obtain ⟨n1, m1⟩ := string_noMinus d hd.le63.1 hd.le63.2
  obtain ⟨n2, m2⟩ := string_noMinus o ho.le63.1 ho.le63.2
  have s1 := splitDot_spec (intPart d.value.natAbs d.scale) (fracPart d.value.natAbs d.scale) d.scale
    (intPart_digits _ _) (by intro h; simp [fracPart, h])
  have s2 := splitDot_spec (intPart o.value.natAbs o.scale) (fracPart o.value.natAbs o.scale) o.scale
    (intPart_digits _ _) (by intro h; simp [fracPart, h])
  have hmin1 : (if d.string.head? = some '-' then '-' else ' ') = (if d.value < 0 then '-' else ' ') := by
    by_cases h : d.value < 0 <;> simp [h, m1]
  have hmin2 : (if o.string.head? = some '-' then '-' else ' ') = (if o.value < 0 then '-' else ' ') := by
    by_cases h : o.value < 0 <;> simp [h, m2]
  unfold adjustDecimalFormat
  simp only [n1, n2, s1.1, s1.2, s2.1, s2.2, hmin1, hmin2]
  refine ⟨_, _, rfl, ?_⟩
  have i1 := intPart_digits d.value.natAbs d.scale
  have i2 := intPart_digits o.value.natAbs o.scale
  have f1 := fracPart_digits d.value.natAbs d.scale
  have f2 := fracPart_digits o.value.natAbs o.scale
  have v1 := int_frac_val d.value.natAbs d.scale
  have v2 := int_frac_val o.value.natAbs o.scale
  have l1 := fracPart_length d.value.natAbs d.scale
  have l2 := fracPart_length o.value.natAbs o.scale
  generalize intPart d.value.natAbs d.scale = ip1 at *
  generalize intPart o.value.natAbs o.scale = ip2 at *
  generalize fracPart d.value.natAbs d.scale = fp1 at *
  generalize fracPart o.value.natAbs o.scale = fp2 at *
  -- padded digit strings
  have rz : ∀ n, ∀ c ∈ List.replicate n '0', isDigit c = true := by
    intro n c hc; rw [List.eq_of_mem_replicate hc]; decide
  have pd : ∀ (a b : List Char), (∀ c ∈ a, isDigit c = true) → (∀ c ∈ b, isDigit c = true) →
      ∀ c ∈ a ++ b, isDigit c = true := by
    intro a b ha hb c hc
    rcases List.mem_append.mp hc with h | h
    · exact ha c h
    · exact hb c h
  have hI1 := pd _ _ (rz (max ip1.length ip2.length - ip1.length)) i1
  have hI2 := pd _ _ (rz (max ip1.length ip2.length - ip2.length)) i2
  have hF1 := pd _ _ f1 (rz (max fp1.length fp2.length - fp1.length))
  have hF2 := pd _ _ f2 (rz (max fp1.length fp2.length - fp2.length))
  have hlI : (List.replicate (max ip1.length ip2.length - ip1.length) '0' ++ ip1).length =
      (List.replicate (max ip1.length ip2.length - ip2.length) '0' ++ ip2).length := by simp
  have hlF : (fp1 ++ List.replicate (max fp1.length fp2.length - fp1.length) '0').length =
      (fp2 ++ List.replicate (max fp1.length fp2.length - fp2.length) '0').length := by simp
  have e1 : digitsVal ((List.replicate (max ip1.length ip2.length - ip1.length) '0' ++ ip1) ++
      (fp1 ++ List.replicate (max fp1.length fp2.length - fp1.length) '0')) =
      d.value.natAbs * 10 ^ (max d.scale o.scale - d.scale) := by
    rw [List.append_assoc, digitsVal_pad, ← List.append_assoc, digitsVal_append, v1, digitsVal_replicate_zero]
    simp [l1, l2]
  have e2 : digitsVal ((List.replicate (max ip1.length ip2.length - ip2.length) '0' ++ ip2) ++
      (fp2 ++ List.replicate (max fp1.length fp2.length - fp2.length) '0')) =
      o.value.natAbs * 10 ^ (max d.scale o.scale - o.scale) := by
    rw [List.append_assoc, digitsVal_pad, ← List.append_assoc, digitsVal_append, v2, digitsVal_replicate_zero]
    simp [l1, l2]
  rw [← e1, ← e2, ← cmpStrings_digits _ _ (pd _ _ hI1 hF1) (pd _ _ hI2 hF2) (by simp only [List.length_append] at *; omega)]
  rw [cmpStrings_append _ _ _ _ hlI, cmpStrings_append _ _ _ _ hlI]
  split
  · rfl
  · by_cases hz : fp1.length > 0 ∨ fp2.length > 0
    · have c1 : (fp1.length > 0 ∨ (List.replicate (max fp1.length fp2.length - fp1.length) '0').length > 0) := by
        simp; omega
      have c2 : (fp2.length > 0 ∨ (List.replicate (max fp1.length fp2.length - fp2.length) '0').length > 0) := by
        simp; omega
      rw [if_pos c1, if_pos c2]
      simp only [cmpStrings, lt_irrefl, if_false]
    · have z1 : fp1 = [] := List.length_eq_zero_iff.mp (by omega)
      have z2 : fp2 = [] := List.length_eq_zero_iff.mp (by omega)
      subst z1; subst z2
      simp

theorem num_cross (d o : Decimal) :
    (d.num < o.num ↔ d.value * 10 ^ (max d.scale o.scale - d.scale) < o.value * 10 ^ (max d.scale o.scale - o.scale)) := by
  have hp := pow10_pos (max d.scale o.scale)
  have key : ∀ (e : Decimal) (m : Nat), e.scale ≤ m → e.num = ((e.value * 10 ^ (m - e.scale) : Int) : ℚ) / 10 ^ m := by
    intro e m hm
    unfold Decimal.num
    have : m = (m - e.scale) + e.scale := by omega
    conv_rhs => rw [this, pow_add]
    rw [show m - e.scale + e.scale - e.scale = m - e.scale by omega]
    push_cast
    field_simp
  rw [key d _ (le_max_left _ _), key o _ (le_max_right _ _), div_lt_div_iff_of_pos_right hp]
  norm_cast

/-- C05. For all Decimals of at most 18 digits (whatever the scales, even above 18): Cmp is -1, 0, 1
exactly if the number denoted by d is smaller than, equal to, greater than that of o. -/
theorem c05_cmp (d o : Decimal) (hd : Fits d.value) (ho : Fits o.value) :
    (d.cmp o = -1 ↔ d.num < o.num) ∧ (d.cmp o = 0 ↔ d.num = o.num) ∧ (d.cmp o = 1 ↔ o.num < d.num) := by
  obtain ⟨a, b, hab, hcmp⟩ := format_cmp d o hd ho
  have c1 := num_cross d o
  have c2 := num_cross o d
  rw [max_comm] at c2
  set A := (10 : Int) ^ (max d.scale o.scale - d.scale) with hA
  set B := (10 : Int) ^ (max d.scale o.scale - o.scale) with hB
  have pA : 0 < A := by positivity
  have pB : 0 < B := by positivity
  have hcmp' : cmpStrings a b = if |d.value| * A < |o.value| * B then -1 else if |o.value| * B < |d.value| * A then 1 else 0 := by
    rw [hcmp]
    unfold cmpNat
    have t1 : ((d.value.natAbs * 10 ^ (max d.scale o.scale - d.scale) : Nat) : Int) = |d.value| * A := by
      push_cast; rw [hA]
    have t2 : ((o.value.natAbs * 10 ^ (max d.scale o.scale - o.scale) : Nat) : Int) = |o.value| * B := by
      push_cast; rw [hB]
    rw [← t1, ← t2]
    simp only [Nat.cast_lt]
  have hval : d.cmp o = if d.value * A < o.value * B then -1 else if o.value * B < d.value * A then 1 else 0 := by
    unfold Decimal.cmp
    rw [hab]
    simp only [List.headD_cons]
    by_cases h1 : d.value < 0 <;> by_cases h2 : o.value < 0
    · simp only [h1, h2, if_true, cmpStrings, lt_irrefl, if_false, and_self, true_or, or_true]
      rw [hcmp', abs_of_neg h1, abs_of_neg h2]
      rw [neg_mul, neg_mul]
      by_cases g1 : d.value * A < o.value * B
      · rw [if_neg (by omega), if_pos (by omega), if_pos g1]
      · by_cases g2 : o.value * B < d.value * A
        · rw [if_pos (by omega), if_neg g1, if_pos g2]; rfl
        · rw [if_neg (by omega), if_neg (by omega), if_neg g1, if_neg g2]; rfl
    · have g : d.value * A < o.value * B := by
        have : d.value * A < 0 := mul_neg_of_neg_of_pos h1 pA
        have : 0 ≤ o.value * B := mul_nonneg (by omega) (le_of_lt pB)
        omega
      simp [h1, h2, cmpStrings, g]
    · have g : o.value * B < d.value * A := by
        have : o.value * B < 0 := mul_neg_of_neg_of_pos h2 pB
        have : 0 ≤ d.value * A := mul_nonneg (by omega) (le_of_lt pA)
        omega
      have g' : ¬ d.value * A < o.value * B := by omega
      simp [h1, h2, cmpStrings, g, g']
    · simp only [h1, h2, if_false, cmpStrings, lt_irrefl]
      rw [hcmp', abs_of_nonneg (by omega), abs_of_nonneg (by omega)]
      simp
  have eqv : d.num = o.num ↔ ¬ d.num < o.num ∧ ¬ o.num < d.num := by
    constructor
    · intro h; rw [h]; simp
    · rintro ⟨h1, h2⟩; exact le_antisymm (not_lt.mp h2) (not_lt.mp h1)
  rw [eqv, c1, c2, hval]
  by_cases g1 : d.value * A < o.value * B
  · have g2 : ¬ o.value * B < d.value * A := by omega
    simp [g1, g2]
  · by_cases g2 : o.value * B < d.value * A
    · simp [g1, g2]
    · simp [g1, g2]

/-- C05, hence antisymmetric and transitive. -/
theorem c05_order (d e f : Decimal) (hd : Fits d.value) (he : Fits e.value) (hf : Fits f.value) :
    d.cmp e = -(e.cmp d) ∧ (d.cmp e ≤ 0 → e.cmp f ≤ 0 → d.cmp f ≤ 0) ∧ d.cmp d = 0 := by
  have tri : ∀ a b : Decimal, Fits a.value → Fits b.value →
      (a.cmp b = -1 ∧ a.num < b.num) ∨ (a.cmp b = 0 ∧ a.num = b.num) ∨ (a.cmp b = 1 ∧ b.num < a.num) := by
    intro a b ha hb
    obtain ⟨h1, h2, h3⟩ := c05_cmp a b ha hb
    rcases lt_trichotomy a.num b.num with h | h | h
    · left; exact ⟨h1.mpr h, h⟩
    · right; left; exact ⟨h2.mpr h, h⟩
    · right; right; exact ⟨h3.mpr h, h⟩
  refine ⟨?_, ?_, ?_⟩
  · rcases tri d e hd he with h | h | h <;> rcases tri e d he hd with h' | h' | h' <;>
      first | (exfalso; linarith [h.2, h'.2]) | (rw [h.1, h'.1]; done) | (rw [h.1, h'.1]; rfl)
  · intro h1 h2
    have g1 : d.num ≤ e.num := by rcases tri d e hd he with h | h | h <;> [exact le_of_lt h.2; exact le_of_eq h.2; omega]
    have g2 : e.num ≤ f.num := by rcases tri e f he hf with h | h | h <;> [exact le_of_lt h.2; exact le_of_eq h.2; omega]
    rcases tri d f hd hf with h | h | h
    · omega
    · omega
    · exact absurd (le_trans g1 g2) (not_le.mpr h.2)
  · exact (c05_cmp d d hd hd).2.1.mpr rfl

/-- Non-vacuity: -1.5 < 0.25, compared through the strings "-1.50" and " 0.25". -/
example : (⟨-15, 1, false⟩ : Decimal).cmp ⟨25, 2, false⟩ = -1 ∧ Fits (-15) ∧ Fits 25 := by
  refine ⟨?_, by decide, by decide⟩
  rw [(c05_cmp _ _ (by decide) (by decide)).1]
  unfold Decimal.num
  norm_num

end Micro.Dec
