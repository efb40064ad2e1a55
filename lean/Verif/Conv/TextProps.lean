import Verif.Conv.TextLemmas
/-
C95: text of big numbers. C96: text of floats.
-/
set_option linter.unusedSimpArgs false
namespace Micro.Conv
open Micro

/-! ### C95 -/

/-- C95: StringToBigInt accepts exactly the optionally signed digit strings, of any length, and reads them exactly. -/
theorem c95_bigInt (s : List Char) (cur : Option Int) :
    (∀ v, stringToBigInt s cur = ⟨some v, false⟩ ↔ Spells true s v) ∧
    ((stringToBigInt s cur).failed = true ↔ ∀ v, ¬ Spells true s v) := by
  constructor
  · intro v
    rw [← scanInt_iff]
    unfold stringToBigInt
    cases h : scanInt s <;> simp
  · simp only [← scanInt_iff]
    unfold stringToBigInt
    cases h : scanInt s <;> simp

/-- C95: every *big.Int survives being written and read. -/
theorem c95_bigInt_roundtrip (v : Int) (cur : Option Int) : stringToBigInt (bigIntToString v) cur = ⟨some v, false⟩ := by
  rw [(c95_bigInt _ _).1]
  unfold bigIntToString formatInt
  refine ⟨natChars v.natAbs, natChars_ne_nil _, natChars_digits _, ?_⟩
  rw [digitsVal_natChars]
  split
  · right; right; exact ⟨rfl, rfl, by omega⟩
  · left; exact ⟨rfl, by omega⟩

example : stringToBigInt "-123456789012345678901234567890".toList none = ⟨some (-123456789012345678901234567890), false⟩ := by
  decide

/-- C95: every *big.Rat survives being written and read. -/
theorem c95_rat_roundtrip (lib : TextLib) (q : ℚ) (cur : Option ℚ) :
    stringToBigRat lib (bigRatToString q) cur = ⟨some q, false⟩ := by
  have hno : '/' ∉ formatInt q.num := by
    unfold formatInt
    intro h
    split at h
    · rcases List.mem_cons.mp h with h | h
      · cases h
      · exact absurd rfl (digit_not_sign (natChars_digits _ _ h)).2.2.2
    · exact absurd rfl (digit_not_sign (natChars_digits _ _ h)).2.2.2
  obtain ⟨h1, h2⟩ := takeWhile_sep (b := natChars q.den) hno
  have hsign : scanSign (formatInt q.num) = (decide (q.num < 0), natChars q.num.natAbs) := by
    unfold formatInt
    split
    · rename_i h; rw [scanSign_minus]; simp [h]
    · rename_i h; rw [scanSign_digits (natChars_digits _)]; simp [h]
  have hparse : parseRatText lib (bigRatToString q) = some q := by
    unfold parseRatText bigRatToString
    rw [h1, h2, hsign]
    simp only [natChars_canonical, and_self, if_true, digitsVal_natChars, q.den_ne_zero, if_false, Option.some.injEq]
    have hq : (q.num : ℚ) / q.den = q := Rat.num_div_den q
    have habs : ∀ z : ℤ, (if decide (z < 0) = true then -((z.natAbs : ℕ) : ℚ) else (z.natAbs : ℕ)) = (z : ℚ) := by
      intro z
      by_cases h : z < 0
      · simp only [h, decide_true, if_true]
        have : ((z.natAbs : ℤ)) = -z := by omega
        have h2 : ((z.natAbs : ℕ) : ℚ) = ((z.natAbs : ℤ) : ℚ) := (Int.cast_natCast _).symm
        rw [h2, this]; push_cast; ring
      · simp only [h, decide_false, if_false, Bool.false_eq_true]
        have : ((z.natAbs : ℤ)) = z := by omega
        have h2 : ((z.natAbs : ℕ) : ℚ) = ((z.natAbs : ℤ) : ℚ) := (Int.cast_natCast _).symm
        rw [h2, this]
    rw [habs q.num, hq]
  unfold stringToBigRat
  rw [hparse]

/-- C95: the text of a ratio of two numbers without leading zeros is read exactly; it is an error exactly if the denominator is 0. -/
theorem c95_ratio (lib : TextLib) (neg : Bool) (a b : Nat) (cur : Option ℚ) :
    stringToBigRat lib ((if neg then ['-'] else []) ++ natChars a ++ '/' :: natChars b) cur =
      if b = 0 then ⟨none, true⟩ else ⟨some ((if neg then -(a : ℚ) else a) / b), false⟩ := by
  have hno : '/' ∉ (if neg then ['-'] else []) ++ natChars a := by
    intro h
    rcases List.mem_append.1 h with h | h
    · cases neg <;> simp at h
    · exact absurd rfl (digit_not_sign (natChars_digits _ _ h)).2.2.2
  obtain ⟨h1, h2⟩ := takeWhile_sep (b := natChars b) hno
  have hsign : scanSign ((if neg then ['-'] else []) ++ natChars a) = (neg, natChars a) := by
    cases neg
    · simp only [Bool.false_eq_true, if_false, List.nil_append]; rw [scanSign_digits (natChars_digits _)]
    · simp only [if_true]; exact scanSign_minus _
  have hparse : parseRatText lib ((if neg then ['-'] else []) ++ natChars a ++ '/' :: natChars b) =
      if b = 0 then none else some ((if neg then -(a : ℚ) else a) / b) := by
    unfold parseRatText
    rw [h1, h2, hsign]
    simp only [natChars_canonical, and_self, if_true, digitsVal_natChars]
  unfold stringToBigRat
  rw [hparse]
  by_cases hb : b = 0 <;> simp [hb]

theorem floatStringToBigRat_sci (lib : TextLib) {s : List Char} {m e : Int} {n : Nat} (cur : Option ℚ) (h : Scientific s m e n)
    (he : Kind.int64.InRange e) (hk : m = 0 ∨ (e - n).natAbs ≤ 100000000) :
    floatStringToBigRat lib s cur = ⟨parseRatText lib s, false⟩ := by
  have hn : 'n' ∉ s := scientific_not_mem h (by decide)
  have hN : 'N' ∉ s := scientific_not_mem h (by decide)
  have h1 : ∃ x, parseFloatText lib s = some x := by
    rw [parseFloatText_sci lib h he]
    by_cases hm : m = 0
    · rw [if_pos hm]; exact ⟨_, rfl⟩
    · rw [if_neg hm]
      rcases hk with hk | hk
      · exact absurd hk hm
      · split
        · exact ⟨_, rfl⟩
        · exact ⟨_, rfl⟩
  obtain ⟨x, hx⟩ := h1
  unfold floatStringToBigRat
  rw [if_neg, hx]
  · simp only [stringToBigRat]
    cases parseRatText lib s <;> rfl
  · rintro (rfl | rfl | rfl)
    · exact hn (by decide)
    · exact hn (by decide)
    · exact hN (by decide)

/-- C95, partial: numbers with any number of digits, with or without exponent, are read exactly if their last digit is at most 10^6 places
away from the decimal point, or if they are 0. Missing: `c95_far_refuted`. -/
theorem c95_number_partial (lib : TextLib) (s : List Char) (m e : Int) (n : Nat) (cur : Option ℚ) (h : Scientific s m e n)
    (he : Kind.int64.InRange e) (hk : m = 0 ∨ (e - n).natAbs ≤ 1000000) :
    stringToBigRat lib s cur = ⟨some (m * 10 ^ (e - n)), false⟩ ∧ floatStringToBigRat lib s cur = ⟨some (m * 10 ^ (e - n)), false⟩ := by
  have hp : parseRatText lib s = some ((m : ℚ) * 10 ^ (e - n : Int)) := by
    rw [parseRatText_sci lib h he]
    by_cases hm : m = 0
    · rw [if_pos hm, hm]; simp
    · rw [if_neg hm, if_pos (hk.resolve_left hm)]
  constructor
  · unfold stringToBigRat; rw [hp]
  · rw [floatStringToBigRat_sci lib cur h he (by omega), hp]

example : Scientific "-12.5E-3".toList (-125) (-3) 1 :=
  ⟨['-'], ['1', '2'], ['5'], "E-3".toList, by decide, by decide, by decide, Or.inl rfl, Or.inr ⟨'E', "-3".toList, Or.inr rfl, rfl,
    ['3'], by decide, by decide, Or.inr (Or.inr ⟨rfl, rfl, rfl⟩)⟩, rfl, rfl⟩

/-- C95, partial: decimal numbers without exponent are read exactly if they have at most 10^6 decimals. -/
theorem c95_decimal_partial (lib : TextLib) (s : List Char) (q : ℚ) (cur : Option ℚ) (h : Decimal s q) (hl : s.length ≤ 1000000) :
    stringToBigRat lib s cur = ⟨some q, false⟩ ∧ floatStringToBigRat lib s cur = ⟨some q, false⟩ := by
  obtain ⟨m, n, h, hq, hn⟩ := scientific_of_decimal h
  rw [hq]
  exact c95_number_partial lib s m 0 n cur h (by decide) (Or.inr (by omega))

example : Decimal "-12.50".toList (-25 / 2) :=
  ⟨['-'], ['1', '2'], ['5', '0'], by decide, by decide, by decide, Or.inl rfl, by rw [show digitsVal (['1', '2'] ++ ['5', '0']) = 1250 from rfl]; norm_num⟩

/-- C95 fails for every number other than 0 whose last digit is more than 10^6 places away from the decimal point, such as 1e1000001: StringToBigRat refuses it, and
FloatStringToBigRat returns no error, but makes the target the nil pointer. -/
theorem c95_far_refuted (lib : TextLib) (s : List Char) (m e : Int) (n : Nat) (cur : Option ℚ) (h : Scientific s m e n)
    (he : Kind.int64.InRange e) (hm : m ≠ 0) (hk : 1000000 < (e - n).natAbs) :
    stringToBigRat lib s cur = ⟨none, true⟩ ∧
    ((e - n).natAbs ≤ 100000000 → floatStringToBigRat lib s cur = ⟨none, false⟩) := by
  have hp : parseRatText lib s = none := by
    rw [parseRatText_sci lib h he, if_neg hm, if_neg (by omega)]
  constructor
  · unfold stringToBigRat; rw [hp]
  · intro h8
    rw [floatStringToBigRat_sci lib cur h he (Or.inr h8), hp]

example : Scientific "1e1000001".toList 1 1000001 0 :=
  ⟨[], ['1'], [], "e1000001".toList, by decide, by decide, by decide, Or.inr ⟨rfl, rfl⟩, Or.inr ⟨'e', "1000001".toList, Or.inl rfl, rfl,
    "1000001".toList, by decide, by decide, Or.inl ⟨rfl, rfl⟩⟩, rfl, rfl⟩

/-- C95: FloatStringToBigRat accepts nothing but numbers and the unsigned infinities: any other text without the letter p is an error, and
leaves the target alone. In particular ratios. -/
theorem c95_rejected (lib : TextLib) (s : List Char) (cur : Option ℚ) (h : ∀ m e n, Scientific s m e n → ¬ Kind.int64.InRange e)
    (hi : s ≠ "Inf".toList ∧ s ≠ "inf".toList ∧ s ≠ "+inf".toList ∧ s ≠ "-inf".toList) (hp : 'p' ∉ s ∧ 'P' ∉ s) :
    floatStringToBigRat lib s cur = ⟨cur, true⟩ := by
  have hd : scanSci s = none := by
    cases hs : scanSci s with
    | none => rfl
    | some x =>
      obtain ⟨e, n, h1, h2, -⟩ := (scanSci_iff s x.1 x.2).mp hs
      exact absurd h2 (h _ _ _ h1)
  unfold floatStringToBigRat
  split
  · rfl
  · rename_i hne
    have : parseFloatText lib s = none := by
      unfold parseFloatText
      rw [if_neg, if_neg, hd]
      · simp [hp]
      · rintro (h' | h')
        · exact hne (Or.inr (Or.inl h'))
        · exact hi.2.2.2 h'
      · rintro (h' | h' | h' | h')
        · exact hi.1 h'
        · exact hi.2.1 h'
        · exact hne (Or.inl h')
        · exact hi.2.2.1 h'
    rw [this]

/-- C95: FloatStringToBigRat rejects ratios and leaves the target alone. -/
theorem c95_ratio_rejected (lib : TextLib) (s : List Char) (cur : Option ℚ) (h : '/' ∈ s) (he : 'p' ∉ s ∧ 'P' ∉ s) :
    floatStringToBigRat lib s cur = ⟨cur, true⟩ :=
  c95_rejected lib s cur (fun _ _ _ hs => absurd h (scientific_not_mem hs (by decide)))
    ⟨by rintro rfl; revert h; decide, by rintro rfl; revert h; decide, by rintro rfl; revert h; decide, by rintro rfl; revert h; decide⟩ he

example : '/' ∈ "5/4".toList ∧ 'p' ∉ "5/4".toList := by decide

/-- C95 fails for FloatStringToBigRat("Inf"): no error, and the target is the nil pointer. -/
theorem c95_inf_refuted (lib : TextLib) (cur : Option ℚ) :
    floatStringToBigRat lib "Inf".toList cur = ⟨none, false⟩ := by
  unfold floatStringToBigRat
  rw [if_neg (by decide)]
  have h1 : parseFloatText lib "Inf".toList = some (.inf false) := by
    unfold parseFloatText; rw [if_pos (by decide)]
  have h2 : parseRatText lib "Inf".toList = none := by
    unfold parseRatText
    have : ("Inf".toList).dropWhile (· ≠ '/') = [] := by decide
    rw [this]
    simp only
    rw [if_neg (by decide)]
    rfl
  rw [h1]
  unfold stringToBigRat
  rw [h2]

/-- C95 fails on errors: StringToBigInt replaces the target by 0 and StringToBigRat replaces it by nil, whatever was there. -/
theorem c95_target_refuted (lib : TextLib) (i : Option Int) (q : Option ℚ) :
    stringToBigInt "1.5".toList i = ⟨some 0, true⟩ ∧ stringToBigRat lib "1,5".toList q = ⟨none, true⟩ := by
  constructor
  · rfl
  · have h2 : parseRatText lib "1,5".toList = none := by
      unfold parseRatText
      have : ("1,5".toList).dropWhile (· ≠ '/') = [] := by decide
      rw [this]
      simp only
      rw [if_neg (by decide)]
      rfl
    unfold stringToBigRat
    rw [h2]

/-! ### C96 -/

theorem stringToFloat_number (lib : TextLib) (f : Fmt) {s : List Char} {q : ℚ} (cur : Flt) (h : Number s q) :
    stringToFloat lib f s cur = bigFloatToFloat f (.fin (roundSig 2 (max 53 (bitsFor s.length)) q)) := by
  have hN : 'N' ∉ s := number_not_mem h (by decide)
  unfold stringToFloat
  rw [if_neg]
  · unfold stringToBigFloat
    rw [parseFloatText_number lib h]
    rfl
  · rintro rfl; exact hN (by decide)

/-- C96 fails for float32: "0.1" is an error. -/
theorem c96_float32_refuted (lib : TextLib) (cur : Flt) : (stringToFloat lib float32 "0.1".toList cur).failed = true := by
  have hd : Decimal "0.1".toList (1 / 10) := ⟨[], ['0'], ['1'], by decide, by decide, by decide, Or.inl rfl, by
    rw [show digitsVal (['0'] ++ ['1']) = 1 from rfl]; norm_num⟩
  rw [stringToFloat_number lib _ cur (Or.inl hd)]
  have hb : max 53 (bitsFor ("0.1".toList).length) = 53 := by decide
  rw [hb]
  have hlog : Int.log 2 |(1 / 10 : ℚ)| = -4 := by
    rw [abs_of_pos (by norm_num)]
    exact log_eq_of (by omega) (by norm_num) (by norm_num) (by norm_num)
  have hr : roundSig 2 53 (1 / 10) = ((3602879701896397 : ℤ) : ℚ) * 2 ^ (-55 : ℤ) := by
    unfold roundSig roundAt
    rw [if_neg (by norm_num), hlog, rne_up (n := 7205759403792794) (by norm_num) (by norm_num)]
    norm_num
  rw [hr]
  exact (((c81_big float32 (Or.inl rfl) _ 0).2.1 (odd_not_has_gen float32 _ _ (by norm_num) (by norm_num [float32]))).1)

/-- C96 fails for float64: "0.30000000000000004", the text FloatToString gives for 0.1 + 0.2, is an error. -/
theorem c96_float64_refuted (lib : TextLib) (cur : Flt) :
    (stringToFloat lib float64 "0.30000000000000004".toList cur).failed = true := by
  have hd : Decimal "0.30000000000000004".toList (30000000000000004 / 100000000000000000) :=
    ⟨[], ['0'], "30000000000000004".toList, by decide, by decide, by decide, Or.inl rfl, by
      rw [show digitsVal (['0'] ++ "30000000000000004".toList) = 30000000000000004 from rfl, show ("30000000000000004".toList).length = 17 from rfl]
      norm_num⟩
  rw [stringToFloat_number lib _ cur (Or.inl hd)]
  have hb : max 53 (bitsFor ("0.30000000000000004".toList).length) = 64 := by decide
  rw [hb]
  have hlog : Int.log 2 |(30000000000000004 / 100000000000000000 : ℚ)| = -2 := by
    rw [abs_of_pos (by norm_num)]
    exact log_eq_of (by omega) (by norm_num) (by norm_num) (by norm_num)
  have hr : roundSig 2 64 (30000000000000004 / 100000000000000000) = ((11068046444225732445 : ℤ) : ℚ) * 2 ^ (-65 : ℤ) := by
    unfold roundSig roundAt
    rw [if_neg (by norm_num), hlog, rne_down (n := 11068046444225732445) (by norm_num) (by norm_num)]
    norm_num
  rw [hr]
  exact (((c81_big float64 (Or.inr rfl) _ 0).2.1 (odd_not_has_gen float64 _ _ (by norm_num) (by norm_num [float64]))).1)

/-- C96, partial: whatever number StringToFloat32/64 accepts, the float it gives is a nearest one. -/
theorem c96_nearest_partial (lib : TextLib) (f : Fmt) (hf : IsGo f) (s : List Char) (q : ℚ) (cur r : Flt)
    (h : Number s q) (hr : stringToFloat lib f s cur = ⟨r, false⟩) : ∃ x, r = .fin x ∧ f.Nearest q x := by
  rw [stringToFloat_number lib f cur h] at hr
  set p := max 53 (bitsFor s.length) with hp
  by_cases hhas : f.Has (roundSig 2 p q)
  · rw [((c81_big f hf _ 0).1 hhas).1] at hr
    cases hr
    refine ⟨_, rfl, hhas, ?_⟩
    rintro r' ⟨m, e, rfl, hm, _, _⟩
    refine roundSig_near (by omega) q m e (lt_of_lt_of_le hm ?_)
    have hpp : f.prec ≤ 53 := by rcases hf with rfl | rfl <;> decide
    exact pow_le_pow_right₀ (by norm_num) (by omega)
  · have := ((c81_big f hf _ 0).2.1 hhas).1
    rw [hr] at this
    cases this

/-- C96, partial: every number that is a float is accepted, and gives that float. -/
theorem c96_exact_partial (lib : TextLib) (f : Fmt) (hf : IsGo f) (s : List Char) (q : ℚ) (cur : Flt)
    (h : Number s q) (hq : f.Has q) : stringToFloat lib f s cur = ⟨.fin q, false⟩ := by
  rw [stringToFloat_number lib f cur h]
  have hpp : f.prec ≤ 53 := by rcases hf with rfl | rfl <;> decide
  have : roundSig 2 (max 53 (bitsFor s.length)) q = q := by
    obtain ⟨m, e, rfl, hm, _, _⟩ := hq
    have := roundSig_exact (b := 2) (by omega) (n := max 53 (bitsFor s.length)) (m := m) (e := e)
      (lt_of_lt_of_le hm (pow_le_pow_right₀ (by norm_num) (by omega)))
    exact_mod_cast this
  rw [this]
  exact ((c81_big f hf q 0).1 hq).1

example : float32.Has (5 / 4) := ⟨5, -2, by norm_num, by norm_num [float32], by norm_num [float32], by norm_num [float32]⟩

/-- C96, partial: every number of at most 15 characters is converted to float64, correctly rounded. -/
theorem c96_short_partial (lib : TextLib) (s : List Char) (q : ℚ) (cur : Flt) (h : Number s q) (hl : s.length ≤ 15) :
    stringToFloat lib float64 s cur = ⟨.fin (roundFloat float64 q), false⟩ ∧ float64.Nearest q (roundFloat float64 q) := by
  have hb : max 53 (bitsFor s.length) = 53 := by
    have : bitsFor s.length ≤ bitsFor 15 := Nat.clog_mono_right 2 (Nat.pow_le_pow_right (by omega) hl)
    have h15 : bitsFor 15 = 50 := by decide
    omega
  -- bounds of q
  have hbound : q = 0 ∨ ((1 : ℚ) / 10 ^ 50 ≤ |q| ∧ |q| ≤ 10 ^ 65) := by
    have hsci : ∃ (m e : Int) (n : Nat), Scientific s m e n ∧ (e - n).natAbs ≤ 50 ∧ q = (m : ℚ) * 10 ^ (e - n) := by
      rcases h with h | ⟨m, e, n, h, -, hk, hq⟩
      · obtain ⟨m, n, h, hq, hn⟩ := scientific_of_decimal h
        exact ⟨m, 0, n, h, by omega, hq⟩
      · exact ⟨m, e, n, h, hk, hq⟩
    obtain ⟨m, e, n, ⟨sign, ip, fp, ex, hd, hne, hsg, hs, hex, rfl, hm⟩, hk, hq⟩ := hsci
    have hlen : (ip ++ fp).length ≤ s.length := by
      rcases hs with rfl | ⟨rfl, rfl⟩ <;> simp <;> omega
    by_cases hv : digitsVal (ip ++ fp) = 0
    · left; rw [hq, hm, hv]; simp
    · right
      have hmabs : |(m : ℚ)| = (digitsVal (ip ++ fp) : ℚ) := by
        rw [hm]; push_cast; rw [abs_mul]
        have h1 : |(if sign = ['-'] then (-1 : ℚ) else 1)| = 1 := by split <;> simp
        rw [h1, one_mul, abs_of_nonneg (by positivity)]
      have hv1 : (1 : ℚ) ≤ digitsVal (ip ++ fp) := by exact_mod_cast Nat.one_le_iff_ne_zero.mpr hv
      have hv2 : (digitsVal (ip ++ fp) : ℚ) ≤ 10 ^ 15 := by
        have h1 := digitsVal_lt (ip ++ fp) hd
        have h2 : 10 ^ (ip ++ fp).length ≤ 10 ^ 15 := Nat.pow_le_pow_right (by omega) (by omega)
        exact_mod_cast (by omega : digitsVal (ip ++ fp) ≤ 10 ^ 15)
      have hz1 : (10 : ℚ) ^ (-50 : Int) ≤ 10 ^ (e - (fp.length : Int)) := zpow_le_zpow_right₀ (by norm_num) (by omega)
      have hz2 : (10 : ℚ) ^ (e - (fp.length : Int)) ≤ 10 ^ (50 : Int) := zpow_le_zpow_right₀ (by norm_num) (by omega)
      have hz0 : (0 : ℚ) < 10 ^ (e - (fp.length : Int)) := by positivity
      rw [hq, abs_mul, hmabs, abs_of_pos hz0]
      constructor
      · have e1 : (10 : ℚ) ^ (-50 : Int) = 1 / 10 ^ 50 := by norm_num
        rw [← e1]
        nlinarith
      · have e1 : (10 : ℚ) ^ (50 : Int) = 10 ^ 50 := by norm_num
        rw [e1] at hz2
        calc _ ≤ (10 : ℚ) ^ 15 * 10 ^ 50 := mul_le_mul hv2 hz2 hz0.le (by positivity)
          _ = 10 ^ 65 := by norm_num
  have hround : roundSig 2 53 q = roundFloat float64 q := by
    unfold roundSig roundFloat
    rcases hbound with rfl | ⟨hlo, hhi⟩
    · simp
    · have h0 : q ≠ 0 := by
        rintro rfl
        simp at hlo
        norm_num at hlo
      rw [if_neg h0, if_neg h0]
      congr 1
      have hlog : -170 ≤ Int.log 2 |q| := by
        rw [← Int.zpow_le_iff_le_log (b := 2) (by omega) (abs_pos.2 h0)]
        refine le_trans ?_ hlo
        norm_num
      show _ = max (Int.log 2 |q| - (((53 : ℕ) : ℤ) - 1)) (-1074)
      push_cast
      omega
  have hmax : |q| ≤ float64.max := by
    have hm : (10 : ℚ) ^ 65 ≤ float64.max := by
      have : (2 : ℚ) ^ (216 : ℤ) ≤ 2 ^ (971 : ℤ) := zpow_le_zpow_right₀ (by norm_num) (by norm_num)
      unfold Fmt.max float64
      simp only
      have h2 : (10 : ℚ) ^ 65 ≤ 2 ^ (216 : ℤ) := by norm_num
      have h3 : (1 : ℚ) ≤ 2 ^ 53 - 1 := by norm_num
      generalize (2 : ℚ) ^ (971 : ℤ) = z at this ⊢
      nlinarith
    rcases hbound with rfl | ⟨_, hhi⟩
    · simp; refine le_trans ?_ hm; norm_num
    · exact hhi.trans hm
  have hn := roundFloat_nearest float64 (by decide) (by decide) hmax
  refine ⟨?_, hn⟩
  rw [stringToFloat_number lib _ cur h, hb, hround]
  exact ((c81_big float64 (Or.inr rfl) _ 0).1 hn.1).1

example : ("-0.000000000123".toList).length = 15 := rfl

example : Number "-12.5E-3".toList (-1 / 80) :=
  Or.inr ⟨-125, -3, 1, ⟨['-'], ['1', '2'], ['5'], "E-3".toList, by decide, by decide, by decide, Or.inl rfl, Or.inr ⟨'E', "-3".toList, Or.inr rfl, rfl,
    ['3'], by decide, by decide, Or.inr (Or.inr ⟨rfl, rfl, rfl⟩)⟩, rfl, rfl⟩, by decide, by decide, by norm_num⟩

/-- C96: NaN and the infinities are read back. -/
theorem c96_special (lib : TextLib) (f : Fmt) (cur : Flt) :
    stringToFloat lib f "NaN".toList cur = ⟨.nan, false⟩ ∧ stringToFloat lib f "+Inf".toList cur = ⟨.inf false, false⟩ ∧
    stringToFloat lib f "-Inf".toList cur = ⟨.inf true, false⟩ := by
  refine ⟨by unfold stringToFloat; rw [if_pos rfl], ?_, ?_⟩
  · unfold stringToFloat stringToBigFloat parseFloatText
    rw [if_neg (by decide), if_pos (by decide)]
    rfl
  · unfold stringToFloat stringToBigFloat parseFloatText
    rw [if_neg (by decide), if_neg (by decide), if_pos (by decide)]
    rfl

end Micro.Conv
