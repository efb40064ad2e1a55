/-
Decimal digits: the meaning of strconv.FormatInt/FormatUint(…, 10), fmt.Sprintf("%d") on a
non-negative number, and of reading a run of digits back.
-/
namespace Micro

/-- The character of a decimal digit. -/
def digitChar (d : Nat) : Char := Char.ofNat (48 + d)

/-- '0' … '9'. -/
def isDigit (c : Char) : Bool := decide (48 ≤ c.toNat) && decide (c.toNat ≤ 57)

/-- Numeric value of a digit character. -/
def digitVal (c : Char) : Nat := c.toNat - 48

/-- Decimal representation without leading zeros ("0" for 0). -/
def natChars (n : Nat) : List Char :=
  if n < 10 then [digitChar n] else natChars (n / 10) ++ [digitChar (n % 10)]
  termination_by n
  decreasing_by omega

/-- Number spelled by a list of digit characters, most significant first. -/
def digitsVal (cs : List Char) : Nat := cs.foldl (fun a c => a * 10 + digitVal c) 0

theorem digitChar_toNat {d : Nat} (h : d < 10) : (digitChar d).toNat = 48 + d := by
  have : d = 0 ∨ d = 1 ∨ d = 2 ∨ d = 3 ∨ d = 4 ∨ d = 5 ∨ d = 6 ∨ d = 7 ∨ d = 8 ∨ d = 9 := by omega
  rcases this with h|h|h|h|h|h|h|h|h|h <;> subst h <;> decide

theorem isDigit_digitChar {d : Nat} (h : d < 10) : isDigit (digitChar d) = true := by
  simp [isDigit, digitChar_toNat h]; omega

theorem digitVal_digitChar {d : Nat} (h : d < 10) : digitVal (digitChar d) = d := by
  simp [digitVal, digitChar_toNat h]

theorem digitVal_lt {c : Char} (h : isDigit c = true) : digitVal c < 10 := by
  simp [isDigit] at h; simp [digitVal]; omega

theorem digitChar_digitVal {c : Char} (h : isDigit c = true) : digitChar (digitVal c) = c := by
  have h1 := digitVal_lt h
  apply Char.toNat_inj.mp
  rw [digitChar_toNat h1]
  simp [isDigit] at h; simp [digitVal]; omega

theorem digitVal_inj {c d : Char} (hc : isDigit c = true) (hd : isDigit d = true)
    (h : digitVal c = digitVal d) : c = d := by
  rw [← digitChar_digitVal hc, h, digitChar_digitVal hd]

@[simp] theorem digitsVal_nil : digitsVal [] = 0 := rfl

theorem digitsVal_foldl (a : Nat) (cs : List Char) :
    cs.foldl (fun a c => a * 10 + digitVal c) a = a * 10 ^ cs.length + digitsVal cs := by
  unfold digitsVal
  induction cs generalizing a with
  | nil => simp
  | cons c cs ih =>
    simp only [List.foldl_cons, List.length_cons]
    rw [ih, ih (0 * 10 + digitVal c)]
    simp only [Nat.zero_mul, Nat.zero_add, Nat.pow_succ]
    rw [Nat.add_mul, Nat.mul_assoc, Nat.mul_comm (10 ^ cs.length) 10, Nat.add_assoc]

theorem digitsVal_cons (c : Char) (cs : List Char) :
    digitsVal (c :: cs) = digitVal c * 10 ^ cs.length + digitsVal cs := by
  have := digitsVal_foldl (digitVal c) cs
  simpa [digitsVal] using this

theorem digitsVal_append (a b : List Char) :
    digitsVal (a ++ b) = digitsVal a * 10 ^ b.length + digitsVal b := by
  rw [← digitsVal_foldl (digitsVal a) b]; simp [digitsVal]

theorem digitsVal_snoc (a : List Char) (c : Char) :
    digitsVal (a ++ [c]) = digitsVal a * 10 + digitVal c := by
  rw [digitsVal_append]; simp [digitsVal]

theorem digitsVal_lt (cs : List Char) (h : ∀ c ∈ cs, isDigit c = true) :
    digitsVal cs < 10 ^ cs.length := by
  induction cs with
  | nil => simp
  | cons c cs ih =>
    have h1 := ih (fun c hc => h c (by simp [hc]))
    have h2 := digitVal_lt (h c (by simp))
    rw [digitsVal_cons, List.length_cons, Nat.pow_succ]
    have : digitVal c * 10 ^ cs.length ≤ 9 * 10 ^ cs.length := Nat.mul_le_mul_right _ (by omega)
    omega

theorem digitsVal_replicate_zero (n : Nat) : digitsVal (List.replicate n '0') = 0 := by
  induction n with
  | zero => rfl
  | succ n ih => rw [List.replicate_succ, digitsVal_cons, ih]; simp [digitVal]

theorem natChars_digits (n : Nat) : ∀ c ∈ natChars n, isDigit c = true := by
  induction n using natChars.induct with
  | case1 n h => rw [natChars]; simp [h, isDigit_digitChar h]
  | case2 n h ih =>
    rw [natChars]; simp only [h, if_false]
    intro c hc
    rcases List.mem_append.mp hc with h' | h'
    · exact ih c h'
    · simp at h'; subst h'; exact isDigit_digitChar (Nat.mod_lt _ (by omega))

theorem digitsVal_natChars (n : Nat) : digitsVal (natChars n) = n := by
  induction n using natChars.induct with
  | case1 n h => rw [natChars]; simp [h, digitsVal_cons, digitVal_digitChar h]
  | case2 n h ih =>
    rw [natChars]; simp only [h, if_false]
    rw [digitsVal_snoc, ih, digitVal_digitChar (Nat.mod_lt _ (by omega))]; omega

theorem natChars_ne_nil (n : Nat) : natChars n ≠ [] := by
  rw [natChars]; split <;> simp

theorem natChars_length_pos (n : Nat) : 0 < (natChars n).length :=
  List.length_pos_iff.mpr (natChars_ne_nil n)

theorem natChars_lt_pow (n : Nat) : n < 10 ^ (natChars n).length := by
  have := digitsVal_lt (natChars n) (natChars_digits n)
  rwa [digitsVal_natChars] at this

theorem natChars_pow_le (n : Nat) (hpos : 0 < n) : 10 ^ ((natChars n).length - 1) ≤ n := by
  induction n using natChars.induct with
  | case1 n h => rw [natChars]; simp [h]; omega
  | case2 n h ih =>
    rw [natChars]; simp only [h, if_false, List.length_append, List.length_singleton,
      Nat.add_sub_cancel]
    have h1 := ih (by omega)
    have h2 := natChars_length_pos (n / 10)
    have : (natChars (n / 10)).length = (natChars (n / 10)).length - 1 + 1 := by omega
    rw [this, Nat.pow_succ]
    omega

/-- The number of digits is at most `k` exactly for numbers below `10^k` (`k > 0`). -/
theorem natChars_length_le (n k : Nat) (hk : 0 < k) : (natChars n).length ≤ k ↔ n < 10 ^ k := by
  constructor
  · intro h
    exact Nat.lt_of_lt_of_le (natChars_lt_pow n) (Nat.pow_le_pow_right (by omega) h)
  · intro h
    rcases Nat.eq_zero_or_pos n with h0 | h0
    · subst h0; rw [natChars]; simp; omega
    · have h1 := natChars_pow_le n h0
      have h2 : 10 ^ ((natChars n).length - 1) < 10 ^ k := Nat.lt_of_le_of_lt h1 h
      have := (Nat.pow_lt_pow_iff_right (a := 10) (by omega)).mp h2
      omega

theorem natChars_zero : natChars 0 = ['0'] := by rw [natChars]; decide

/-- Digit lists of equal length are determined by their value. -/
theorem digitsVal_inj (a b : List Char) (ha : ∀ c ∈ a, isDigit c = true)
    (hb : ∀ c ∈ b, isDigit c = true) (hl : a.length = b.length)
    (hv : digitsVal a = digitsVal b) : a = b := by
  induction a generalizing b with
  | nil => cases b with
    | nil => rfl
    | cons => simp at hl
  | cons c cs ih =>
    cases b with
    | nil => simp at hl
    | cons d ds =>
      simp at hl
      rw [digitsVal_cons, digitsVal_cons, hl] at hv
      have h1 := digitsVal_lt cs (fun c hc => ha c (by simp [hc]))
      have h2 := digitsVal_lt ds (fun c hc => hb c (by simp [hc]))
      rw [hl] at h1
      have hp : 0 < 10 ^ ds.length := Nat.pow_pos (by omega)
      have hcd : digitVal c = digitVal d := by
        have e1 : (digitVal c * 10 ^ ds.length + digitsVal cs) / 10 ^ ds.length = digitVal c := by
          rw [Nat.mul_comm, Nat.mul_add_div hp, Nat.div_eq_of_lt h1]; rfl
        have e2 : (digitVal d * 10 ^ ds.length + digitsVal ds) / 10 ^ ds.length = digitVal d := by
          rw [Nat.mul_comm, Nat.mul_add_div hp, Nat.div_eq_of_lt h2]; rfl
        rw [← e1, hv, e2]
      rw [hcd] at hv
      have := digitVal_inj (ha c (by simp)) (hb d (by simp)) hcd
      subst this
      rw [ih ds (fun c hc => ha c (by simp [hc])) (fun c hc => hb c (by simp [hc])) hl (by omega)]

/-- A non-empty digit list without a superfluous leading zero is the canonical representation. -/
theorem natChars_digitsVal (cs : List Char) (hne : cs ≠ []) (h : ∀ c ∈ cs, isDigit c = true)
    (hz : cs.head? = some '0' → cs = ['0']) : natChars (digitsVal cs) = cs := by
  by_cases h0 : cs = ['0']
  · subst h0; rw [show digitsVal ['0'] = 0 from by decide, natChars_zero]
  · apply digitsVal_inj _ _ (natChars_digits _) h _ (digitsVal_natChars _)
    cases cs with
    | nil => exact absurd rfl hne
    | cons c cs =>
      have hc : c ≠ '0' := by
        intro hc; subst hc; exact h0 (hz rfl)
      have hcd := h c (by simp)
      have hpos : 1 ≤ digitVal c := by
        rcases Nat.eq_zero_or_pos (digitVal c) with h1 | h1
        · exact absurd (digitVal_inj hcd (by decide) (by rw [h1]; decide)) hc
        · exact h1
      have hlt := digitsVal_lt (c :: cs) h
      have hge : 10 ^ cs.length ≤ digitsVal (c :: cs) := by
        rw [digitsVal_cons]
        have : 1 * 10 ^ cs.length ≤ digitVal c * 10 ^ cs.length := Nat.mul_le_mul_right _ hpos
        omega
      have h1 := (natChars_length_le (digitsVal (c :: cs)) (cs.length + 1) (by omega)).mpr
        (by simpa using hlt)
      have h2 : ¬ (natChars (digitsVal (c :: cs))).length ≤ cs.length := by
        intro hle
        have := natChars_lt_pow (digitsVal (c :: cs))
        have := Nat.pow_le_pow_right (n := 10) (by omega) hle
        omega
      simp; omega

end Micro
