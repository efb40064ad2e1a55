import Verif.Decimal.StrLemmas
set_option linter.unusedSimpArgs false
/-
C01-C04, C14: construction, normalization, strings, sign.
-/
namespace Micro.Dec
open Micro

/-! ### C01: OfDecimal -/

/-- C01. OfDecimal succeeds exactly for scale ≤ 18 and at most 18 digits; it never panics. -/
theorem c01_accepts (value : Int) (scale : Nat) (normalized : List Bool) :
    ((∃ d, ofDecimal value scale normalized = .ok d) ↔ scale ≤ 18 ∧ Fits value) ∧
    ofDecimal value scale normalized ≠ .panic := by
  unfold ofDecimal Fits
  simp only [maxScale, maxValue, minValue]
  constructor
  · constructor
    · rintro ⟨d, h⟩
      split at h
      · simp at h
      · split at h
        · simp at h
        · split at h
          · simp at h
          · omega
    · rintro ⟨h1, h2⟩
      exact ⟨_, by rw [if_neg (by omega), if_neg (by omega), if_neg (by omega)]⟩
  · repeat' split
    all_goals simp

/-- C01. The error says which limit was exceeded (scale first). -/
theorem c01_errors (value : Int) (scale : Nat) (normalized : List Bool) (e : DErr) :
    ofDecimal value scale normalized = .err e ↔
      (e = .scaleTooLarge ∧ 18 < scale) ∨
      (e = .valueTooLarge ∧ scale ≤ 18 ∧ 999999999999999999 < value) ∨
      (e = .valueTooSmall ∧ scale ≤ 18 ∧ value < -999999999999999999) := by
  unfold ofDecimal
  simp only [maxScale, maxValue, minValue]
  by_cases h1 : scale > 18
  · rw [if_pos h1]; simp only [Out.err.injEq]; constructor
    · intro h; left; exact ⟨h.symm, h1⟩
    · rintro (⟨h, _⟩ | ⟨_, h, _⟩ | ⟨_, h, _⟩)
      · exact h.symm
      · omega
      · omega
  · rw [if_neg h1]
    by_cases h2 : value > 999999999999999999
    · rw [if_pos h2]; simp only [Out.err.injEq]; constructor
      · intro h; right; left; exact ⟨h.symm, by omega, h2⟩
      · rintro (⟨_, h⟩ | ⟨h, _⟩ | ⟨_, _, h⟩)
        · omega
        · exact h.symm
        · omega
    · rw [if_neg h2]
      by_cases h3 : value < -999999999999999999
      · rw [if_pos h3]; simp only [Out.err.injEq]; constructor
        · intro h; right; right; exact ⟨h.symm, by omega, h3⟩
        · rintro (⟨_, h⟩ | ⟨_, _, h⟩ | ⟨h, _⟩)
          · omega
          · omega
          · exact h.symm
      · rw [if_neg h3]
        simp only [reduceCtorEq, false_iff]
        omega

/-- C01. The Decimal denotes exactly value / 10^scale and is valid; it is canonical unless
normalized = false was given, in which case (except for 0) value and scale are kept as given. -/
theorem c01_value (value : Int) (scale : Nat) (normalized : List Bool) (d : Decimal)
    (h : ofDecimal value scale normalized = .ok d) :
    d.num = (value : ℚ) / 10 ^ scale ∧ d.Valid ∧
    d.denormalized = !(normalized.head?.getD true) ∧
    (normalized.head?.getD true = true ∨ value = 0 → d.Canonical) ∧
    (value = 0 → d.value = 0 ∧ d.scale = 0) ∧
    (normalized.head? = some false ∧ value ≠ 0 → d.value = value ∧ d.scale = scale) := by
  obtain ⟨hs, hf⟩ := (c01_accepts value scale normalized).1.mp ⟨d, h⟩
  have hd : d = Decimal.applyNormalization ⟨value, scale, !(normalized.head?.getD true)⟩ := by
    unfold ofDecimal at h
    unfold Fits at hf
    rw [if_neg (by simp [maxScale]; omega), if_neg (by simp [maxValue]; omega),
      if_neg (by simp [minValue]; omega)] at h
    simpa using h.symm
  have hnum := applyNormalization_num ⟨value, scale, !(normalized.head?.getD true)⟩ hf.le63.1 hf.le63.2
  have hval := applyNormalization_valid ⟨value, scale, !(normalized.head?.getD true)⟩ hf
  obtain ⟨k, e1, e2, e3, e4, e5, e6⟩ :=
    normalize_spec ⟨value, scale, !(normalized.head?.getD true)⟩ hf.le63.1 hf.le63.2
  rw [← hd] at hnum hval
  refine ⟨hnum, ⟨hval.1, le_trans hval.2 hs⟩, ?_, ?_, ?_, ?_⟩
  · rcases applyNormalization_cases ⟨value, scale, !(normalized.head?.getD true)⟩ with h' | h' <;> rw [hd]
    · rw [h', e6]
    · rw [h'.1]
  · intro hn
    rw [hd]
    have : (value = 0 ∨ (!(normalized.head?.getD true)) = false) := by
      rcases hn with h | h
      · right; simp [h]
      · left; exact h
    unfold Decimal.applyNormalization
    rw [if_pos this]
    exact e5
  · intro h0
    rw [hd]
    unfold Decimal.applyNormalization
    rw [if_pos (.inl h0)]
    exact e4 h0
  · rintro ⟨hn, h0⟩
    rw [hd]
    unfold Decimal.applyNormalization
    rw [if_neg (by simp [hn, h0])]
    exact ⟨rfl, rfl⟩

/-- Non-vacuity: 1.50 normalized and not. -/
example : ofDecimal 150 2 [] = .ok ⟨15, 1, false⟩ ∧ ofDecimal (-150) 2 [false] = .ok ⟨-150, 2, true⟩ ∧
    ofDecimal 1 19 [] = .err .scaleTooLarge := by decide

/-! ### C02: Normalize -/

/-- C02. Normalize keeps the number, leaves no trailing fractional zero, keeps validity. -/
theorem c02_value (d : Decimal) (h : d.Valid) :
    d.normalize.num = d.num ∧ d.normalize.Canonical ∧ d.normalize.Valid := by
  have hv := normalize_fits d h.1
  obtain ⟨_, _, _, _, _, hc, _⟩ := normalize_spec d h.1.le63.1 h.1.le63.2
  exact ⟨normalize_num d h.1.le63.1 h.1.le63.2, hc, hv.1, le_trans hv.2 h.2⟩

example := c02_value ⟨-1200, 3, true⟩ (by decide)

/-- C02. Normal forms are unique: two Decimals denote the same number exactly if Normalize gives them
the same value and scale. -/
theorem c02_canonical (a b : Decimal) (ha : a.Valid) (hb : b.Valid) :
    a.num = b.num ↔ a.normalize.value = b.normalize.value ∧ a.normalize.scale = b.normalize.scale := by
  have na := normalize_num a ha.1.le63.1 ha.1.le63.2
  have nb := normalize_num b hb.1.le63.1 hb.1.le63.2
  obtain ⟨_, _, _, a3, a4, ac, _⟩ := normalize_spec a ha.1.le63.1 ha.1.le63.2
  obtain ⟨_, _, _, b3, b4, bc, _⟩ := normalize_spec b hb.1.le63.1 hb.1.le63.2
  constructor
  · intro h
    apply canonical_unique _ _ ac bc
    · intro h0
      by_cases hz : a.value = 0
      · exact (a4 hz).2
      · exact absurd (by rw [a3 hz, h0]; simp) hz
    · intro h0
      by_cases hz : b.value = 0
      · exact (b4 hz).2
      · exact absurd (by rw [b3 hz, h0]; simp) hz
    · rw [na, nb, h]
  · rintro ⟨h1, h2⟩
    rw [← na, ← nb]
    unfold Decimal.num
    rw [h1, h2]

example := c02_canonical ⟨1200, 3, false⟩ ⟨12, 1, true⟩ (by decide) (by decide)

/-- C02. Normalize is idempotent. -/
theorem c02_idempotent (d : Decimal) (h : d.Valid) : d.normalize.normalize = d.normalize := by
  have hv := (c02_value d h)
  have := (c02_canonical d.normalize d hv.2.2 h).mp hv.1
  obtain ⟨_, _, _, _, _, _, e⟩ := normalize_spec d.normalize hv.2.2.1.le63.1 hv.2.2.1.le63.2
  cases hn : d.normalize.normalize
  cases hm : d.normalize
  rw [hn, hm] at this e
  simp_all

/-- Non-vacuity: 1.500 and 1.50. -/
example : (⟨1500, 3, true⟩ : Decimal).normalize = ⟨15, 1, true⟩ ∧ (⟨150, 2, true⟩ : Decimal).normalize = ⟨15, 1, true⟩ ∧
    (⟨0, 5, false⟩ : Decimal).normalize = ⟨0, 0, false⟩ := by decide

/-! ### C03: String and back -/

/-- C03 is false: the string of a Decimal with scale 18 has 19 digits and is rejected. -/
theorem c03_round_trip_refuted :
    Decimal.Valid ⟨1, 18, false⟩ ∧
    (⟨1, 18, false⟩ : Decimal).string = "0.000000000000000001".toList ∧
    stringToDecimal (⟨1, 18, false⟩ : Decimal).string = .err .invalidString := by
  have e : absDigits 1 = ['1'] := by
    rw [absDigits_eq (by decide) (by decide)]
    rw [show Int.natAbs 1 = 1 from rfl, natChars]; decide
  have e2 : (⟨1, 18, false⟩ : Decimal).string = "0.000000000000000001".toList := by
    unfold Decimal.string; simp only [e]; decide
  refine ⟨by decide, e2, ?_⟩
  rw [e2]; decide

/-- C03 for every Decimal with scale ≤ 17: String followed by StringToDecimal gives the same value and
scale. Missing: scale 18, where it always fails (`c03_scale18_wrong`). -/
theorem c03_round_trip_partial (d : Decimal) (h : d.Valid) (hs : d.scale ≤ 17) :
    stringToDecimal d.string = .ok ⟨d.value, d.scale, false⟩ := by
  have hd := string_dec d h.1.le63.1 h.1.le63.2
  obtain ⟨dot, hdot, hstr⟩ := hd.eq
  have hm := matchDecimal_spec d.string [] _ _ _ dot (by
    rcases hdot with h | ⟨h, h'⟩
    · left; exact h
    · right; exact ⟨h, h', by simp⟩) hstr hd.intDigits hd.fracDigits (by simp) (by simp)
  rw [List.append_nil] at hm
  have hne : d.string ≠ [] := by
    rw [hstr]; have := intPart_ne_nil d.value.natAbs d.scale; simp [this]
  rw [stringToDecimal_of_match _ _ _ _ _ hm hd.intDigits hd.fracDigits hne]
  have hlen := int_frac_length d.value.natAbs d.scale
  have h18 := fits_digits h.1
  rw [List.length_append] at hlen
  rw [if_neg (by omega), int_frac_val, fracPart_length]
  congr 2
  by_cases hn : d.value < 0
  · simp only [hn, decide_true, if_true]; omega
  · simp only [hn, decide_false, Bool.false_eq_true, if_false]; omega

example := c03_round_trip_partial ⟨-5, 3, false⟩ (by decide) (by decide)

/-- With scale 18 the round trip always fails. -/
theorem c03_scale18_wrong (d : Decimal) (h : d.Valid) (hs : d.scale = 18) :
    stringToDecimal d.string = .err .invalidString := by
  have hd := string_dec d h.1.le63.1 h.1.le63.2
  obtain ⟨dot, hdot, hstr⟩ := hd.eq
  have hm := matchDecimal_spec d.string [] _ _ _ dot (by
    rcases hdot with h | ⟨h, h'⟩
    · left; exact h
    · right; exact ⟨h, h', by simp⟩) hstr hd.intDigits hd.fracDigits (by simp) (by simp)
  rw [List.append_nil] at hm
  have hne : d.string ≠ [] := by
    rw [hstr]; have := intPart_ne_nil d.value.natAbs d.scale; simp [this]
  rw [stringToDecimal_of_match _ _ _ _ _ hm hd.intDigits hd.fracDigits hne]
  have hlen := int_frac_length d.value.natAbs d.scale
  rw [List.length_append] at hlen
  rw [if_pos (by omega)]

example := c03_scale18_wrong ⟨123456789012345678, 18, false⟩ (by decide) rfl

/-- C03, what the string looks like: a well formed decimal string with `scale` digits after the point
which spells |value|, and a minus sign exactly for negative values. -/
theorem c03_string_form (d : Decimal) (h : d.Valid) :
    ∃ int frac, DecString d.string (decide (d.value < 0)) int frac ∧ int ≠ [] ∧ frac.length = d.scale ∧
      digitsVal (int ++ frac) = d.value.natAbs ∧ d.precision = (int ++ frac).length := by
  have hd := string_dec d h.1.le63.1 h.1.le63.2
  refine ⟨_, _, hd, intPart_ne_nil _ _, fracPart_length _ _, int_frac_val _ _, ?_⟩
  have rm : ∀ (c : Char) (a b : List Char), (∀ x ∈ a, x ≠ c) → removeFirst c (a ++ c :: b) = a ++ b := by
    intro c a b ha
    induction a with
    | nil => simp [removeFirst]
    | cons x a ih =>
      have := ha x (by simp)
      simp [removeFirst, this, ih (fun y hy => ha y (by simp [hy]))]
  have rm0 : ∀ (c : Char) (a : List Char), (∀ x ∈ a, x ≠ c) → removeFirst c a = a := by
    intro c a ha
    induction a with
    | nil => rfl
    | cons x a ih =>
      have := ha x (by simp)
      simp [removeFirst, this, ih (fun y hy => ha y (by simp [hy]))]
  have hi := intPart_digits d.value.natAbs d.scale
  have hf := fracPart_digits d.value.natAbs d.scale
  have hi' : ∀ x ∈ intPart d.value.natAbs d.scale, x ≠ '.' ∧ x ≠ '-' := by
    intro x hx; have := hi x hx
    constructor <;> rintro rfl <;> revert this <;> decide
  have hf' : ∀ x ∈ fracPart d.value.natAbs d.scale, x ≠ '.' ∧ x ≠ '-' := by
    intro x hx; have := hf x hx
    constructor <;> rintro rfl <;> revert this <;> decide
  unfold Decimal.precision
  rw [string_eq d h.1.le63.1 h.1.le63.2]
  have e1 : removeFirst '-' ((if d.value < 0 then ['-'] else []) ++ intPart d.value.natAbs d.scale ++
      (if d.scale = 0 then [] else ['.']) ++ fracPart d.value.natAbs d.scale) =
      intPart d.value.natAbs d.scale ++ ((if d.scale = 0 then [] else ['.']) ++ fracPart d.value.natAbs d.scale) := by
    by_cases hn : d.value < 0
    · simp [hn, removeFirst]
    · simp only [hn, if_false, List.nil_append, List.append_assoc]
      apply rm0
      intro x hx
      rcases List.mem_append.mp hx with h | h
      · exact (hi' x h).2
      · rcases List.mem_append.mp h with h | h
        · split at h <;> simp at h; subst h; decide
        · exact (hf' x h).2
  rw [e1]
  by_cases hs : d.scale = 0
  · simp only [hs, if_true, List.nil_append]
    rw [rm0 _ _ (by
      intro x hx
      rcases List.mem_append.mp hx with h | h
      · rw [hs] at hi'; exact (hi' x h).1
      · rw [hs] at hf'; exact (hf' x h).1)]
  · simp only [hs, if_false, List.singleton_append]
    rw [rm _ _ _ (fun x hx => (hi' x hx).1)]

/-- Non-vacuity: -12.05, scale 2. -/
example : Decimal.Valid ⟨-1205, 2, false⟩ ∧ stringToDecimal "-12.05".toList = .ok ⟨-1205, 2, false⟩ ∧
    (⟨-1205, 2, false⟩ : Decimal).string = "-12.05".toList := by
  refine ⟨by decide, by decide, ?_⟩
  rw [string_eq _ (by decide) (by decide)]
  have : natChars 1205 = "1205".toList := by
    rw [natChars, natChars, natChars, natChars]; decide
  simp [intPart, fracPart, this]

/-! ### C04: StringToDecimal -/

/-- C04 is false: strings that are not decimal numbers are accepted. -/
theorem c04_accepts_refuted :
    stringToDecimal "12abc".toList = .ok ⟨12, 0, false⟩ ∧ stringToDecimal "-".toList = .ok ⟨0, 0, false⟩ ∧
    stringToDecimal ".".toList = .ok ⟨0, 0, false⟩ ∧ stringToDecimal "-abc".toList = .ok ⟨0, 0, false⟩ ∧
    (∀ neg int frac, ¬ DecString "12abc".toList neg int frac) := by
  refine ⟨by decide, by decide, by decide, by decide, ?_⟩
  rintro neg int frac ⟨⟨dot, hdot, heq⟩, hi, hf, _⟩
  have hmem : 'a' ∈ (if neg then ['-'] else []) ++ int ++ dot ++ frac := by rw [← heq]; decide
  simp only [List.mem_append] at hmem
  rcases hmem with ((h | h) | h) | h
  · split at h <;> simp at h
  · exact absurd (hi _ h) (by decide)
  · rcases hdot with rfl | ⟨rfl, _⟩ <;> simp at h
  · exact absurd (hf _ h) (by decide)

/-- C04 for well formed decimal strings: accepted exactly if there are at most 18 digits, and then the
result denotes the number written, with as many fractional digits as written. Missing: strings that
are not well formed, which are in part accepted too (`c04_junk_wrong`). -/
theorem c04_exact_partial (s : List Char) (neg : Bool) (int frac : List Char) (h : DecString s neg int frac) :
    stringToDecimal s =
      if (int ++ frac).length ≤ 18 then
        .ok ⟨if neg then -(digitsVal (int ++ frac) : Int) else digitsVal (int ++ frac), frac.length, false⟩
      else .err .invalidString := by
  obtain ⟨dot, hdot, hstr⟩ := h.eq
  have hm := matchDecimal_spec s [] neg int frac dot (by
    rcases hdot with h | ⟨h, h'⟩
    · left; exact h
    · right; exact ⟨h, h', by simp⟩) hstr h.intDigits h.fracDigits (by simp) (by simp)
  rw [List.append_nil] at hm
  have hne : s ≠ [] := by
    have := h.some
    rw [hstr]; intro h0
    simp only [List.append_eq_nil_iff] at h0
    simp [h0.1.1.2, h0.2] at this
  rw [stringToDecimal_of_match _ _ _ _ _ hm h.intDigits h.fracDigits hne, List.length_append]
  by_cases hl : int.length + frac.length > 18
  · have hl' : ¬ int.length + frac.length ≤ 18 := by omega
    simp only [hl, hl', if_true, if_false]
  · have hl' : int.length + frac.length ≤ 18 := by omega
    simp only [hl, hl', if_true, if_false]

/-- "-12.50" is well formed. -/
example := c04_exact_partial "-12.50".toList true ['1', '2'] ['5', '0'] ⟨⟨['.'], .inl rfl, by decide⟩, by decide, by decide, by decide⟩

/-- What happens to the other strings: everything after the longest decimal prefix is ignored. -/
theorem c04_junk_wrong (s rest : List Char) (neg : Bool) (int frac dot : List Char)
    (hdot : dot = ['.'] ∨ (dot = [] ∧ frac = [] ∧ rest.head? ≠ some '.'))
    (hs : s = (if neg then ['-'] else []) ++ int ++ dot ++ frac) (hi : ∀ c ∈ int, isDigit c = true)
    (hf : ∀ c ∈ frac, isDigit c = true) (hr : ∀ c, rest.head? = some c → isDigit c = false) (hne : s ≠ []) :
    stringToDecimal (s ++ rest) =
      if (int ++ frac).length ≤ 18 then
        .ok ⟨if neg then -(digitsVal (int ++ frac) : Int) else digitsVal (int ++ frac), frac.length, false⟩
      else .err .invalidString := by
  have hm := matchDecimal_spec s rest neg int frac dot hdot hs hi hf hr (fun _ h => absurd h hne)
  rw [stringToDecimal_of_match _ _ _ _ _ hm hi hf hne, List.length_append]
  by_cases hl : int.length + frac.length > 18
  · have hl' : ¬ int.length + frac.length ≤ 18 := by omega
    simp only [hl, hl', if_true, if_false]
  · have hl' : int.length + frac.length ≤ 18 := by omega
    simp only [hl, hl', if_true, if_false]

/-- "1.5kg". -/
example := c04_junk_wrong "1.5".toList "kg".toList false ['1'] ['5'] ['.'] (.inl rfl) (by decide) (by decide) (by decide)
  (by intro c hc; have : c = 'k' := by simpa using hc.symm
      subst this; decide) (by decide)

/-- A string that starts with none of minus, point and digit is rejected. -/
theorem c04_rejects (s : List Char) (h : ∀ c, s.head? = some c → c ≠ '-' ∧ c ≠ '.' ∧ isDigit c = false) :
    stringToDecimal s = .err .invalidString := by
  have hm := matchDecimal_spec [] s false [] [] [] (.inr ⟨rfl, rfl, fun h' => (h _ h').2.1 rfl⟩) rfl (by simp) (by simp)
    (fun c hc => (h c hc).2.2) (fun _ _ h' => (h _ h').1 rfl)
  rw [List.nil_append] at hm
  unfold stringToDecimal
  rw [hm]; simp

example := c04_rejects "abc".toList (by intro c hc; have : c = 'a' := by simpa using hc.symm
                                        subst this; decide)

theorem takeWhile_all (l : List Char) (c : Char) (h : c ∈ l.takeWhile isDigit) : isDigit c = true := by
  induction l with
  | nil => simp at h
  | cons x l ih =>
    rw [List.takeWhile_cons] at h
    split at h
    · rcases List.mem_cons.mp h with rfl | h
      · assumption
      · exact ih h
    · simp at h

/-- C04 and C01: what is accepted is a valid Decimal. -/
theorem c04_valid (s : List Char) (d : Decimal) (h : stringToDecimal s = .ok d) : d.Valid := by
  unfold stringToDecimal at h
  simp only at h
  split at h
  · simp at h
  · rename_i hc
    simp only [Out.ok.injEq] at h
    subst h
    have hi : ∀ c ∈ (matchDecimal s).int, isDigit c = true := by
      intro c hc; simp only [matchDecimal] at hc; exact takeWhile_all _ _ hc
    have hf : ∀ c ∈ (matchDecimal s).frac, isDigit c = true := by
      intro c hc; simp only [matchDecimal] at hc; exact takeWhile_all _ _ hc
    have hd : ∀ c ∈ (matchDecimal s).int ++ (matchDecimal s).frac, isDigit c = true := by
      intro c hc; rcases List.mem_append.mp hc with h | h
      · exact hi c h
      · exact hf c h
    have hl : ((matchDecimal s).int ++ (matchDecimal s).frac).length ≤ 18 := by simp; omega
    have h18 := digits18 _ hd hl
    rw [parse18 _ hd hl]
    refine ⟨?_, by simp; omega⟩
    unfold Fits
    simp only
    split
    · rw [w_id (by omega) (by omega)]; omega
    · omega

/-- Non-vacuity: "-.5" is well formed. -/
example : DecString "-.5".toList true [] ['5'] ∧ stringToDecimal "-.5".toList = .ok ⟨-5, 1, false⟩ :=
  ⟨⟨⟨['.'], .inl rfl, rfl⟩, by simp, by decide, by simp⟩, by decide⟩

/-! ### C14: sign and magnitude -/

theorem num_sign (d : Decimal) : (0 < d.num ↔ 0 < d.value) ∧ (d.num < 0 ↔ d.value < 0) ∧ (d.num = 0 ↔ d.value = 0) := by
  unfold Decimal.num
  have hp := pow10_pos d.scale
  refine ⟨?_, ?_, ?_⟩
  · rw [lt_div_iff₀ hp]; simp
  · rw [div_lt_iff₀ hp]; simp
  · rw [div_eq_zero_iff]; simp

/-- C14. Sign is the sign of the number. -/
theorem c14_sign (d : Decimal) :
    (d.sign = 1 ↔ 0 < d.num) ∧ (d.sign = -1 ↔ d.num < 0) ∧ (d.sign = 0 ↔ d.num = 0) := by
  obtain ⟨h1, h2, h3⟩ := num_sign d
  rw [h1, h2, h3]
  unfold Decimal.sign
  split
  · simp; omega
  · split
    · simp; omega
    · simp; omega

/-- C14. Negate denotes the negated number, keeps the scale, stays valid and is an involution. -/
theorem c14_negate (d : Decimal) (h : d.Valid) :
    d.negate.num = -d.num ∧ d.negate.Valid ∧ d.negate.scale = d.scale ∧ d.negate.negate = d := by
  have hw := w_neg h.1.le63.1 h.1.le63.2
  have hw2 : w (-(-d.value)) = d.value := by rw [neg_neg]; exact w_id (by have := h.1.le63; omega) h.1.le63.2
  refine ⟨?_, ⟨?_, h.2⟩, rfl, ?_⟩
  · unfold Decimal.negate Decimal.num; simp only [hw]; push_cast; ring
  · unfold Decimal.negate Fits; simp only [hw]; have := h.1; unfold Fits at this; omega
  · unfold Decimal.negate; simp only [hw, hw2]

example := c14_negate ⟨-125, 2, false⟩ (by decide)

/-- C14. MagnitudeLessThanOne does not panic and tells whether |d| < 1. -/
theorem c14_magnitude (d : Decimal) (h : d.Valid) :
    ∃ b, d.magnitudeLessThanOne = some b ∧ (b = true ↔ |d.num| < 1) := by
  unfold Decimal.magnitudeLessThanOne
  refine ⟨decide ((if d.value < 0 then w (-d.value) else d.value) < 10 ^ d.scale), by simp only [h.2, if_true], ?_⟩
  rw [decide_eq_true_eq]
  have hp := pow10_pos d.scale
  have e : |d.num| = (d.value.natAbs : ℚ) / 10 ^ d.scale := by
    unfold Decimal.num
    rw [abs_div, abs_of_pos hp]
    congr 1
    rw [Nat.cast_natAbs, Int.cast_abs]
  rw [e, div_lt_one hp]
  have e2 : (if d.value < 0 then w (-d.value) else d.value) = (d.value.natAbs : Int) := by
    split
    · rw [w_neg h.1.le63.1 h.1.le63.2]; omega
    · omega
  rw [e2]
  norm_cast

/-- Non-vacuity: -0.99 and 1.00. -/
example : (⟨-99, 2, true⟩ : Decimal).magnitudeLessThanOne = some true ∧
    (⟨100, 2, true⟩ : Decimal).magnitudeLessThanOne = some false ∧ (⟨-99, 2, true⟩ : Decimal).sign = -1 := by decide

end Micro.Dec
