import Verif.Conv.SharpProps
set_option linter.unusedSimpArgs false
/-
C133: what failed conversions from text leave in the target.
-/
namespace Micro.Conv
open Micro

/-- A text that goes on after a decimal number with a character that cannot belong to a number. -/
def NumberThen (s : List Char) (q : ℚ) : Prop :=
  ∃ d c t, Decimal d q ∧ s = d ++ c :: t ∧ isDigit c = false ∧ c ≠ '.' ∧ c ≠ 'e' ∧ c ≠ 'E' ∧ 'p' ∉ s ∧ 'P' ∉ s

theorem scan_then {sign ip fp d t : List Char} {c : Char} (hd : ∀ x ∈ ip ++ fp, isDigit x = true) (hne : ip ++ fp ≠ [])
    (hsg : sign = [] ∨ sign = ['+'] ∨ sign = ['-']) (hs : d = sign ++ ip ++ '.' :: fp ∨ (fp = [] ∧ d = sign ++ ip))
    (hc : isDigit c = false) (hp : c ≠ '.') :
    ∃ r, scanSign (d ++ c :: t) = (decide (sign = ['-']), r) ∧ r.takeWhile isDigit = ip ∧ scanFrac (r.dropWhile isDigit) = (fp, c :: t) := by
  have hip : ∀ x ∈ ip, isDigit x = true := fun x hx => hd x (by simp [hx])
  have hfp : ∀ x ∈ fp, isDigit x = true := fun x hx => hd x (by simp [hx])
  have sg : ∀ b : List Char, (∀ y t', b = y :: t' → ip = [] → y ≠ '-' ∧ y ≠ '+') → scanSign (sign ++ (ip ++ b)) = (decide (sign = ['-']), ip ++ b) := by
    intro b hb
    rcases hsg with rfl | rfl | rfl
    · rw [List.nil_append, scanSign_other]
      · simp
      · intro x t' e
        cases ip with
        | nil => exact hb x t' (by simpa using e) rfl
        | cons y ip' =>
          simp only [List.cons_append, List.cons.injEq] at e
          exact e.1 ▸ ⟨(digit_not_sign (hip y (by simp))).1, (digit_not_sign (hip y (by simp))).2.1⟩
    · rfl
    · rfl
  rcases hs with rfl | ⟨rfl, rfl⟩
  · refine ⟨ip ++ ('.' :: (fp ++ c :: t)), ?_, ?_, ?_⟩
    · have := sg ('.' :: (fp ++ c :: t)) (by intro y t' e _; simp only [List.cons.injEq] at e; rw [← e.1]; decide)
      simpa [List.append_assoc] using this
    · exact (takeWhile_digits hip (by intro y t' e; simp only [List.cons.injEq] at e; rw [← e.1]; decide)).1
    · rw [(takeWhile_digits hip (by intro y t' e; simp only [List.cons.injEq] at e; rw [← e.1]; decide)).2]
      have := takeWhile_digits (a := fp) (b := c :: t) hfp (by intro y t' e; simp only [List.cons.injEq] at e; rw [← e.1]; exact hc)
      simp only [scanFrac, this.1, this.2]
  · have hip0 : ip ≠ [] := by simpa using hne
    refine ⟨ip ++ c :: t, ?_, ?_, ?_⟩
    · have := sg (c :: t) (by intro y t' e h0; exact absurd h0 hip0)
      simpa [List.append_assoc] using this
    · exact (takeWhile_digits hip (by intro y t' e; simp only [List.cons.injEq] at e; rw [← e.1]; exact hc)).1
    · rw [(takeWhile_digits hip (by intro y t' e; simp only [List.cons.injEq] at e; rw [← e.1]; exact hc)).2]
      unfold scanFrac
      split
      · rename_i heq; simp only [List.cons.injEq] at heq; exact absurd heq.1 hp
      · rfl

/-- C133: a decimal number followed by other characters is an error, and yet the *big.Float target holds the number, rounded. -/
theorem c133_bigFloat_refuted (lib : TextLib) (s : List Char) (q : ℚ) (cur : Option Flt) (h : NumberThen s q) :
    stringToBigFloat lib s cur = ⟨some (.fin (roundSig 2 (textBits s) q)), true⟩ := by
  obtain ⟨d, c, t, ⟨sign, ip, fp, hd, hne, hsg, hs, hq⟩, rfl, hc, hp, he, hE, hpp, hPP⟩ := h
  obtain ⟨r, h1, h2, h3⟩ := scan_then (t := t) hd hne hsg hs hc hp
  have hsci : scanSci (d ++ c :: t) = none := by
    unfold scanSci
    simp only [h1, h2, h3, if_neg hne]
    simp [scanExp, he, hE]
  have hdig : ∃ x ∈ d ++ c :: t, isDigit x = true := by
    obtain ⟨x, hx⟩ := List.exists_mem_of_ne_nil _ hne
    refine ⟨x, ?_, hd x hx⟩
    rcases hs with rfl | ⟨rfl, rfl⟩ <;> simp at hx ⊢ <;> tauto
  have hnone : parseFloatText lib (d ++ c :: t) = none := by
    unfold parseFloatText
    have hno : ∀ u : List Char, (∀ x ∈ u, isDigit x = false) → d ++ c :: t ≠ u := by
      intro u hu e
      obtain ⟨x, hx, hx'⟩ := hdig
      rw [e] at hx
      rw [hu x hx] at hx'; cases hx'
    rw [if_neg, if_neg, hsci]
    · simp only
      rw [if_neg]
      rintro (h | h)
      · exact hpp h
      · exact hPP h
    · rintro (h | h) <;> exact hno _ (by decide) h
    · rintro (h | h | h | h) <;> exact hno _ (by decide) h
  unfold stringToBigFloat
  rw [hnone]
  simp only
  congr 1
  have hpc : c ≠ 'p' ∧ c ≠ 'P' := ⟨fun e => hpp (by simp [e]), fun e => hPP (by simp [e])⟩
  unfold besideError
  simp only [h1, h2, h3, if_neg hne, he, hE, hpc.1, hpc.2, or_self, if_false]
  have hfit : 5 ^ (-(fp.length : Int)).natAbs < 2 ^ (textPrec (d ++ c :: t) + 64) := by
    apply pow5_fits
    rcases hs with rfl | ⟨rfl, rfl⟩ <;> simp <;> omega
  have hval : (((if decide (sign = ['-']) = true then -(digitsVal (ip ++ fp) : Int) else digitsVal (ip ++ fp) : Int) : ℚ)) * 10 ^ (-(fp.length : Int)) = q := by
    rw [hq, zpow_neg, zpow_natCast]
    by_cases hm : sign = ['-']
    · simp [hm]; ring
    · simp [hm]; ring
  generalize (if decide (sign = ['-']) = true then -(digitsVal (ip ++ fp) : Int) else digitsVal (ip ++ fp) : Int) = m at hval
  unfold besideNumber
  rw [if_pos hfit, hval]
  by_cases h0 : m = 0
  · rw [if_pos h0]
    rw [h0] at hval
    have : q = 0 := by rw [← hval]; simp
    simp [this, roundSig]
  · rw [if_neg h0]; rfl

example : NumberThen "1.5kg".toList (3 / 2) :=
  ⟨"1.5".toList, 'k', ['g'], ⟨[], ['1'], ['5'], by decide, by decide, by decide, Or.inl rfl, by
    rw [show digitsVal (['1'] ++ ['5']) = 15 from rfl]; norm_num⟩, rfl, by decide, by decide, by decide, by decide, by decide, by decide⟩

/-- C133: a text without a digit at its beginning, after a sign and a point, is an error that makes the *big.Float target nil. -/
theorem c133_bigFloat_nil_refuted (lib : TextLib) (sign t : List Char) (c : Char) (cur : Option Flt) (hsg : sign = [] ∨ sign = ['+'] ∨ sign = ['-'])
    (hc : isDigit c = false ∧ c ≠ '.' ∧ c ≠ '+' ∧ c ≠ '-' ∧ c ≠ 'I' ∧ c ≠ 'i') (hp : 'p' ∉ c :: t ∧ 'P' ∉ c :: t) :
    stringToBigFloat lib (sign ++ c :: t) cur = ⟨none, true⟩ := by
  have hs : scanSign (sign ++ c :: t) = (decide (sign = ['-']), c :: t) := by
    rcases hsg with rfl | rfl | rfl
    · rw [List.nil_append, scanSign_other]
      · simp
      · intro x u e; simp only [List.cons.injEq] at e; rw [← e.1]; exact ⟨hc.2.2.2.1, hc.2.2.1⟩
    · rfl
    · rfl
  have htw : (c :: t).takeWhile isDigit = [] ∧ (c :: t).dropWhile isDigit = c :: t := by simp [List.takeWhile_cons, List.dropWhile_cons, hc.1]
  have hfr : scanFrac (c :: t) = ([], c :: t) := by
    unfold scanFrac
    split
    · rename_i heq; simp only [List.cons.injEq] at heq; exact absurd heq.1 hc.2.1
    · rfl
  have hsci : scanSci (sign ++ c :: t) = none := by
    unfold scanSci
    simp only [hs, htw.1, htw.2, hfr, List.append_nil, if_true]
  have hne : ∀ u : List Char, (∀ x ∈ u.head?, x = 'I' ∨ x = 'i' ∨ x = '+' ∨ x = '-') →
      (∀ x ∈ u.tail.head?, x = 'I' ∨ x = 'i' ∨ x = 'n') → (u.head? = some '+' ∨ u.head? = some '-' → ∀ x ∈ u.tail.head?, x = 'I' ∨ x = 'i') → u ≠ [] → sign ++ c :: t ≠ u := by
    rintro u hu hu2 hu3 hu0 rfl
    rcases hsg with rfl | rfl | rfl
    · have := hu c (by simp)
      tauto
    · have := hu3 (Or.inl rfl) c (by simp)
      tauto
    · have := hu3 (Or.inr rfl) c (by simp)
      tauto
  have hp' : 'p' ∉ sign ++ c :: t ∧ 'P' ∉ sign ++ c :: t := by
    rcases hsg with rfl | rfl | rfl
    · exact hp
    · exact ⟨by simpa using hp.1, by simpa using hp.2⟩
    · exact ⟨by simpa using hp.1, by simpa using hp.2⟩
  have hnone : parseFloatText lib (sign ++ c :: t) = none := by
    unfold parseFloatText
    rw [if_neg, if_neg, hsci]
    · simp only
      rw [if_neg]
      rintro (h | h)
      · exact hp'.1 h
      · exact hp'.2 h
    · rintro (h | h) <;> exact hne _ (by decide) (by decide) (by decide) (by decide) h
    · rintro (h | h | h | h) <;> exact hne _ (by decide) (by decide) (by decide) (by decide) h
  unfold stringToBigFloat
  rw [hnone]
  simp only
  congr 1
  unfold besideError
  simp only [hs, htw.1, htw.2, hfr, List.append_nil, if_true]

example (lib : TextLib) : stringToBigFloat lib "-abc".toList (some (.fin 3)) = ⟨none, true⟩ :=
  c133_bigFloat_nil_refuted lib ['-'] ['b', 'c'] 'a' _ (by decide) (by decide) (by decide)

/-- C133: after an error the target of StringToBigInt is not nil and that of StringToBigRat is nil, whatever they were before. -/
theorem c133_big_refuted (lib : TextLib) (s : List Char) (i : Option Int) (q : Option ℚ) :
    ((stringToBigInt s i).target ≠ none) ∧ ((stringToBigRat lib s q).failed = true → (stringToBigRat lib s q).target = none) := by
  unfold stringToBigInt stringToBigRat
  constructor
  · split <;> simp
  · split <;> simp

/-- C133, partial: FloatStringToBigRat leaves the target alone when it returns an error, StringToFloat32/64 do for all texts that are not numbers (which are
not read as *big.Float). -/
theorem c133_unchanged_partial (lib : TextLib) (f : Fmt) (s : List Char) (q : Option ℚ) (x : Flt) :
    ((floatStringToBigRat lib s q).failed = true → (floatStringToBigRat lib s q).target = q) ∧
    ((stringToBigFloat lib s none).failed = true → s ≠ "NaN".toList → stringToFloat lib f s x = ⟨x, true⟩) := by
  constructor
  · unfold floatStringToBigRat
    split
    · intro _; rfl
    · split
      · intro _; rfl
      · simp
  · intro h hn
    unfold stringToFloat
    rw [if_neg hn]
    generalize stringToBigFloat lib s none = r at h
    rcases r with ⟨_ | y, b⟩
    · rfl
    · simp only at h; subst h; rfl

/-- C133: a number that StringToFloat32/64 refuses is written to the target all the same: the float nearest to the number rounded to the precision of the text,
or an infinity. -/
theorem c133_float_refuted (lib : TextLib) (f : Fmt) (s : List Char) (q : ℚ) (cur : Flt) (h : Number s q) :
    (stringToFloat lib f s cur).target = (toNearest f (roundSig 2 (textBits s) q)).1 := by
  rw [stringToFloat_number lib f cur h]
  rfl

example : (toNearest float64 (roundSig 2 (textBits "1".toList) 1)).1 = .fin 1 := by
  have h : stringToFloat ⟨fun _ => 0, fun _ => none, fun _ => none, fun _ => none⟩ float64 "1".toList .nan = ⟨.fin 1, false⟩ :=
    c96_exact_partial _ float64 (Or.inr rfl) _ 1 _ (Or.inl ⟨[], ['1'], [], by decide, by decide, by decide, Or.inr ⟨rfl, rfl⟩, by
      rw [show digitsVal (['1'] ++ []) = 1 from rfl]; norm_num⟩) ⟨1, 0, by norm_num, by decide, by decide, by decide⟩
  rw [← c133_float_refuted ⟨fun _ => 0, fun _ => none, fun _ => none, fun _ => none⟩ float64 "1".toList 1 .nan
    (Or.inl ⟨[], ['1'], [], by decide, by decide, by decide, Or.inr ⟨rfl, rfl⟩, by rw [show digitsVal (['1'] ++ []) = 1 from rfl]; norm_num⟩), h]

end Micro.Conv
