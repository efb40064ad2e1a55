import Verif.Decimal.Lemmas
set_option linter.unusedSimpArgs false
namespace Micro.Dec
open Micro

/-- The digits of String() before the point. -/
def intPart (n s : Nat) : List Char :=
  if s = 0 then natChars n else if (natChars n).length ≤ s then ['0']
  else (natChars n).take ((natChars n).length - s)

/-- The digits of String() after the point. -/
def fracPart (n s : Nat) : List Char :=
  if s = 0 then []
  else if (natChars n).length ≤ s then List.replicate (s - (natChars n).length) '0' ++ natChars n
  else (natChars n).drop ((natChars n).length - s)

theorem string_eq (d : Decimal) (h1 : -9223372036854775807 ≤ d.value) (h2 : d.value ≤ 9223372036854775807) :
    d.string = (if d.value < 0 then ['-'] else []) ++ intPart d.value.natAbs d.scale ++
      (if d.scale = 0 then [] else ['.']) ++ fracPart d.value.natAbs d.scale := by
  unfold Decimal.string intPart fracPart
  rw [absDigits_eq h1 h2]
  by_cases hs : d.scale = 0
  · by_cases hn : d.value < 0 <;> simp [hs, hn]
  · by_cases hl : (natChars d.value.natAbs).length ≤ d.scale <;> by_cases hn : d.value < 0 <;> simp [hs, hn, hl]

theorem intPart_digits (n s : Nat) : ∀ c ∈ intPart n s, isDigit c = true := by
  intro c hc
  unfold intPart at hc
  split at hc
  · exact natChars_digits n c hc
  · split at hc
    · simp at hc; subst hc; decide
    · exact natChars_digits n c (List.mem_of_mem_take hc)

theorem fracPart_digits (n s : Nat) : ∀ c ∈ fracPart n s, isDigit c = true := by
  intro c hc
  unfold fracPart at hc
  split at hc
  · simp at hc
  · split at hc
    · rcases List.mem_append.mp hc with h | h
      · rw [List.eq_of_mem_replicate h]; decide
      · exact natChars_digits n c h
    · exact natChars_digits n c (List.mem_of_mem_drop hc)

theorem intPart_ne_nil (n s : Nat) : intPart n s ≠ [] := by
  have := natChars_ne_nil n
  unfold intPart
  split
  · exact this
  · split
    · simp
    · intro h
      have := congrArg List.length h
      simp at this; omega

theorem fracPart_length (n s : Nat) : (fracPart n s).length = s := by
  unfold fracPart
  split
  · simp [*]
  · split
    · simp; omega
    · simp; omega

theorem intPart_length (n s : Nat) : (intPart n s).length = (natChars n).length - s ∨ (intPart n s).length = 1 := by
  unfold intPart
  split
  · left; simp [*]
  · split
    · right; rfl
    · left; simp

theorem int_frac_val (n s : Nat) : digitsVal (intPart n s ++ fracPart n s) = n := by
  unfold intPart fracPart
  by_cases hs : s = 0
  · simp [hs, digitsVal_natChars]
  · by_cases hl : (natChars n).length ≤ s
    · simp only [hs, hl, if_true, if_false]
      rw [digitsVal_append, digitsVal_append, digitsVal_replicate_zero, digitsVal_natChars]
      simp [digitsVal, digitVal]
    · simp only [hs, hl, if_false, List.take_append_drop, digitsVal_natChars]

theorem int_frac_length (n s : Nat) : (intPart n s ++ fracPart n s).length = max (natChars n).length (s + 1) := by
  have := natChars_length_pos n
  unfold intPart fracPart
  by_cases hs : s = 0
  · simp [hs]; omega
  · by_cases hl : (natChars n).length ≤ s
    · simp only [hs, hl, if_true, if_false]; simp; omega
    · simp only [hs, hl, if_false, List.take_append_drop]; omega

theorem string_dec (d : Decimal) (h1 : -9223372036854775807 ≤ d.value) (h2 : d.value ≤ 9223372036854775807) :
    DecString d.string (decide (d.value < 0)) (intPart d.value.natAbs d.scale) (fracPart d.value.natAbs d.scale) := by
  refine ⟨⟨if d.scale = 0 then [] else ['.'], ?_, ?_⟩, intPart_digits _ _, fracPart_digits _ _, ?_⟩
  · by_cases hs : d.scale = 0
    · right; exact ⟨by simp [hs], by simp [fracPart, hs]⟩
    · left; simp [hs]
  · rw [string_eq d h1 h2]; by_cases hn : d.value < 0 <;> simp [hn]
  · have := intPart_ne_nil d.value.natAbs d.scale; simp [this]

/-! ### The scanner -/

theorem takeWhile_digits (ds rest : List Char) (h : ∀ c ∈ ds, isDigit c = true)
    (hr : ∀ c, rest.head? = some c → isDigit c = false) :
    (ds ++ rest).takeWhile isDigit = ds ∧ (ds ++ rest).dropWhile isDigit = rest := by
  induction ds with
  | nil =>
    cases rest with
    | nil => simp
    | cons c r => simp [hr c rfl]
  | cons c ds ih =>
    have hc := h c (by simp)
    have := ih (fun c hc => h c (by simp [hc]))
    simp [List.takeWhile, List.dropWhile, hc, this.1, this.2]

/-- Scanning a well formed decimal string followed by something that does not continue it. -/
theorem matchDecimal_spec (s rest : List Char) (neg : Bool) (ip fp : List Char) (dot : List Char)
    (hdot : dot = ['.'] ∨ (dot = [] ∧ fp = [] ∧ rest.head? ≠ some '.'))
    (hs : s = (if neg then ['-'] else []) ++ ip ++ dot ++ fp) (hi : ∀ c ∈ ip, isDigit c = true)
    (hf : ∀ c ∈ fp, isDigit c = true) (hr : ∀ c, rest.head? = some c → isDigit c = false)
    (hm : neg = false → s = [] → rest.head? ≠ some '-') :
    matchDecimal (s ++ rest) = ⟨s, if neg then ['-'] else [], ip, fp⟩ := by
  have hhead : (s ++ rest).head? = some '-' ↔ neg = true := by
    subst hs
    cases neg with
    | true => simp
    | false =>
      simp only [Bool.false_eq_true, if_false, List.nil_append, iff_false]
      cases ip with
      | cons c cs =>
        have := hi c (by simp)
        simp; rintro rfl; revert this; decide
      | nil =>
        rcases hdot with rfl | ⟨rfl, rfl, _⟩
        · simp
        · simpa using hm rfl (by simp)
  have e1 : (if (s ++ rest).head? = some '-' then ['-'] else []) = (if neg then ['-'] else []) := by
    cases neg <;> simp_all
  have e2 : (s ++ rest).drop (if neg then ['-'] else []).length = ip ++ (dot ++ (fp ++ rest)) := by
    subst hs; cases neg <;> simp [List.append_assoc]
  have hr1 : ∀ c, (dot ++ (fp ++ rest)).head? = some c → isDigit c = false := by
    rcases hdot with rfl | ⟨rfl, rfl, _⟩
    · intro c hc; simp at hc; subst hc; decide
    · simpa using hr
  have h3 := takeWhile_digits ip (dot ++ (fp ++ rest)) hi hr1
  have e4 : (if (dot ++ (fp ++ rest)).head? = some '.' then ['.'] else []) = dot := by
    rcases hdot with rfl | ⟨rfl, rfl, h⟩
    · simp
    · simp [h]
  have h5 := takeWhile_digits fp rest hf hr
  unfold matchDecimal
  simp only [e1, e2, h3.1, h3.2, e4, List.drop_left, h5.1]
  rw [hs]

/-- Parsing at most 18 digits. -/
theorem parse18 (ds : List Char) (h : ∀ c ∈ ds, isDigit c = true) (hl : ds.length ≤ 18) (cur : Int) :
    (Conv.stringToInt64 ds cur).target = digitsVal ds := by
  by_cases hne : ds = []
  · subst hne; rfl
  · have hlt := digitsVal_lt ds h
    have hle : 10 ^ ds.length ≤ 10 ^ 18 := Nat.pow_le_pow_right (by norm_num) hl
    have := (Conv.stringToInt64_iff ds (digitsVal ds) cur).mpr ⟨⟨ds, hne, h, .inl ⟨rfl, rfl⟩⟩, by
      simp [Kind.InRange, Kind.minV, Kind.maxV, Kind.signed, Kind.bits]; omega⟩
    rw [this]

theorem digits18 (ds : List Char) (h : ∀ c ∈ ds, isDigit c = true) (hl : ds.length ≤ 18) :
    digitsVal ds ≤ 999999999999999999 := by
  have hlt := digitsVal_lt ds h
  have hle : 10 ^ ds.length ≤ 10 ^ 18 := Nat.pow_le_pow_right (by norm_num) hl
  omega

theorem stringToDecimal_of_match (s : List Char) (whole : List Char) (neg : Bool) (ip fp : List Char)
    (hm : matchDecimal s = ⟨whole, if neg then ['-'] else [], ip, fp⟩) (hi : ∀ c ∈ ip, isDigit c = true)
    (hf : ∀ c ∈ fp, isDigit c = true) (hne : whole ≠ []) :
    stringToDecimal s =
      if ip.length + fp.length > 18 then .err .invalidString
      else .ok ⟨if neg then -(digitsVal (ip ++ fp) : Int) else digitsVal (ip ++ fp), fp.length, false⟩ := by
  unfold stringToDecimal
  rw [hm]
  simp only [hne, false_or]
  split
  · rfl
  · rename_i hl
    have hd : ∀ c ∈ ip ++ fp, isDigit c = true := by
      intro c hc; rcases List.mem_append.mp hc with h | h
      · exact hi c h
      · exact hf c h
    have hl' : (ip ++ fp).length ≤ 18 := by simp; omega
    rw [parse18 _ hd hl']
    have h18 := digits18 _ hd hl'
    cases neg
    · simp
    · simp only [if_true, List.length_singleton, gt_iff_lt, Nat.lt_one_iff, Nat.zero_lt_one]
      rw [w_id (by omega) (by omega)]

end Micro.Dec
