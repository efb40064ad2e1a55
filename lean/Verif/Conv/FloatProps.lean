import Verif.Conv.FloatLemmas
import Verif.Conv.Lemmas
/-
Properties C23, C78-C81: conversions between integers, floats, *big.Int, *big.Float and *big.Rat.
-/
set_option linter.unusedSimpArgs false
namespace Micro.Conv
open Micro

/-! ### Helpers -/

theorem log_eq_of {b : ℕ} (hb : 1 < b) {q : ℚ} {n : ℤ} (h0 : 0 < q) (h1 : (b : ℚ) ^ n ≤ q) (h2 : q < (b : ℚ) ^ (n + 1)) :
    Int.log b q = n := by
  have ha := (Int.lt_zpow_iff_log_lt hb h0).1 h2
  have hc : ¬ Int.log b q < n := fun hl => absurd ((Int.lt_zpow_iff_log_lt hb h0).2 hl) (not_lt.2 h1)
  omega

theorem rne_up {x : ℚ} {n : ℤ} (h1 : (n : ℚ) - 1 / 2 < x) (h2 : x ≤ n) : rne x = n := by
  have a := rne_mono_int x n h2
  have b := rne_near x n
  have h3 : |(n : ℚ) - x| < 1 / 2 := by rw [abs_of_nonneg (by linarith)]; linarith
  have h4 := abs_lt.1 (lt_of_le_of_lt b h3)
  have h5 : (n : ℚ) - 1 < rne x := by linarith [h4.1]
  have : n - 1 < rne x := by exact_mod_cast h5
  omega

theorem rne_down {x : ℚ} {n : ℤ} (h1 : (n : ℚ) ≤ x) (h2 : x < n + 1 / 2) : rne x = n := by
  have a := rne_mono_int' x n h1
  have b := rne_near x n
  have h3 : |(n : ℚ) - x| < 1 / 2 := by rw [abs_of_nonpos (by linarith)]; linarith
  have h4 := abs_lt.1 (lt_of_le_of_lt b h3)
  have h5 : (rne x : ℚ) < n + 1 := by linarith [h4.2]
  have : rne x < n + 1 := by exact_mod_cast h5
  omega

/-- Ties: the even one. -/
theorem rne_tie {x : ℚ} {n : ℤ} (h : x = n + 1 / 2) (he : n % 2 = 0) : rne x = n := by
  have hf : ⌊x⌋ = n := by rw [Int.floor_eq_iff, h]; constructor <;> linarith
  unfold rne
  rw [hf, h, if_neg (by linarith), if_neg (by linarith), if_pos he]

theorem roundFloat_int (f : Fmt) (hp : f.emin ≤ 0) (i : ℤ) : ∃ n : ℤ, roundFloat f i = n := by
  unfold roundFloat
  split
  · exact ⟨0, by simp⟩
  · generalize max (Int.log 2 |(i : ℚ)| - ((f.prec : ℤ) - 1)) f.emin = e
    rcases le_or_gt 0 e with h | h
    · obtain ⟨k, rfl⟩ := Int.eq_ofNat_of_zero_le h
      refine ⟨rne ((i : ℚ) / ((2 : ℕ) : ℚ) ^ (k : ℤ)) * 2 ^ k, ?_⟩
      unfold roundAt
      push_cast
      rw [zpow_natCast]
    · refine ⟨i, ?_⟩
      obtain ⟨m, hm⟩ := mul_of_le (b := 2) (by omega) (e' := e) (e := 0) (by omega) i
      rw [zpow_zero, mul_one] at hm
      rw [hm, roundAt_mul (by omega)]

theorem trunc_int (n : ℤ) : trunc (n : ℚ) = n := by unfold trunc; split <;> simp

theorem pow_has (f : Fmt) (hp : 1 < f.prec) (n : ℕ) (h1 : f.emin ≤ n) (h2 : (n : ℤ) ≤ f.emax) (s : ℤ) (hs : |s| = 1) :
    f.Has (s * 2 ^ n) :=
  ⟨s, n, by simp, by rw [hs]; exact one_lt_pow₀ (by norm_num) (by omega), h1, h2⟩

theorem has_zero (f : Fmt) (h : f.emin ≤ f.emax) : f.Has 0 := ⟨0, f.emin, by simp, by simp, le_refl _, h⟩

/-- The two formats of Go. -/
def IsGo (f : Fmt) : Prop := f = float32 ∨ f = float64

theorem IsGo.facts {f : Fmt} (h : IsGo f) : 1 < f.prec ∧ f.emin ≤ 0 ∧ 64 ≤ f.emax ∧ f.emin ≤ f.emax := by
  rcases h with rfl | rfl <;> simp [float32, float64]

/-- The smallest value of a type is a float. -/
theorem minV_has {f : Fmt} (h : IsGo f) (k : Kind) : f.Has (k.minV : ℚ) := by
  obtain ⟨h1, h2, h3, h4⟩ := h.facts
  by_cases hs : k.signed
  · have : (k.minV : ℚ) = ((-1 : ℤ) : ℚ) * 2 ^ (k.bits - 1) := by simp [Kind.minV, hs]
    rw [this]
    have hb : k.bits ≤ 64 := by cases k <;> simp [Kind.bits]
    exact pow_has f h1 _ (by omega) (by omega) (-1) (by simp)
  · have : (k.minV : ℚ) = 0 := by simp [Kind.minV, hs]
    rw [this]; exact has_zero f h4

theorem zero_inRange (k : Kind) : k.InRange 0 := by cases k <;> kind_norm
theorem minV_inRange (k : Kind) : k.InRange k.minV := by cases k <;> kind_norm

theorem castToInt_int (oor : Kind → ℚ → Int) {k : Kind} {i : ℤ} (h : k.InRange i) : castToInt oor k (i : ℚ) = i := by
  simp [castToInt, trunc_int, h]

/-! ### C23 -/

/-- C23: every exactly representable integer is converted exactly, on every platform. -/
theorem c23_complete (oor : Kind → ℚ → Int) (f : Fmt) (k : Kind) (i : Int) (cur : ℚ) (hi : k.InRange i) (h : f.Has i) :
    intToFloat oor f k i cur = ⟨i, false⟩ := by
  unfold intToFloat
  simp only [roundFloat_exact h, castToInt_int oor hi]
  simp

example : float64.Has ((4503599627370497 : Int) : ℚ) ∧ Kind.int64.InRange 4503599627370497 :=
  ⟨⟨4503599627370497, 0, by simp, by norm_num [float64], by norm_num [float64], by norm_num [float64]⟩, by decide⟩

/-- C23 on amd64: IntToFloat succeeds, with the exact value, precisely for the representable integers, and otherwise leaves
the target alone. Partial: on platforms whose out of range conversions saturate it is false (`c23_exact_refuted`). -/
theorem c23_exact_partial (f : Fmt) (hf : IsGo f) (k : Kind) (i : Int) (cur : ℚ) (hi : k.InRange i) :
    (f.Has i → intToFloat amd64 f k i cur = ⟨i, false⟩) ∧ (¬ f.Has i → intToFloat amd64 f k i cur = ⟨cur, true⟩) := by
  refine ⟨c23_complete amd64 f k i cur hi, fun hn => ?_⟩
  obtain ⟨h1, h2, h3, h4⟩ := hf.facts
  unfold intToFloat
  obtain ⟨n, hn'⟩ := roundFloat_int f h2 i
  simp only [hn']
  rw [if_pos]
  intro he
  unfold castToInt at he
  rw [trunc_int] at he
  split at he
  · -- in range: the rounded value is the integer, so the integer is a float
    subst he
    apply hn
    have hmax : |(i : ℚ)| ≤ f.max := by
      have hb : |i| ≤ 2 ^ 64 := by
        have hb : k.bits ≤ 64 := by cases k <;> simp [Kind.bits]
        rw [abs_le]
        cases k <;> kind_norm <;> omega
      have : |(i : ℚ)| ≤ 2 ^ 64 := by exact_mod_cast hb
      refine this.trans ?_
      rcases hf with rfl | rfl
      · norm_num [Fmt.max, float32]
      · have h64 : (2 : ℚ) ^ (64 : ℤ) ≤ 2 ^ (971 : ℤ) := zpow_le_zpow_right₀ (by norm_num) (by norm_num)
        have : (2 : ℚ) ^ (64 : ℕ) = (2 : ℚ) ^ (64 : ℤ) := by norm_num
        rw [this]
        refine h64.trans ?_
        change (2 : ℚ) ^ (971 : ℤ) ≤ (2 ^ 53 - 1) * 2 ^ (971 : ℤ)
        have hp : (0 : ℚ) < 2 ^ (971 : ℤ) := by positivity
        generalize (2 : ℚ) ^ (971 : ℤ) = x at hp ⊢
        nlinarith
    have := roundFloat_has f (by omega) h4 hmax
    rw [hn'] at this; exact this
  · rename_i hr
    unfold amd64 at he
    split at he
    · apply hn; rw [he]; exact minV_has hf k
    · apply hn; rw [he]; exact_mod_cast has_zero f h4

/-- Both cases occur. -/
example : float32.Has ((16777216 : Int) : ℚ) :=
  ⟨1, 24, by norm_num, by norm_num [float32], by norm_num [float32], by norm_num [float32]⟩

theorem maxInt64_round : roundFloat float64 ((9223372036854775807 : Int) : ℚ) = 9223372036854775808 := by
  have hl : Int.log 2 |((9223372036854775807 : Int) : ℚ)| = 62 := by
    rw [abs_of_nonneg (by norm_num)]
    exact log_eq_of (by omega) (by norm_num) (by norm_num) (by norm_num)
  unfold roundFloat
  rw [if_neg (by norm_num), hl]
  have : max ((62 : ℤ) - ((float64.prec : ℤ) - 1)) float64.emin = 10 := by simp [float64]
  rw [this]
  unfold roundAt
  rw [rne_up (n := 9007199254740992) (by norm_num) (by norm_num)]
  norm_num

/-- C23 fails on arm64: the largest int64 is converted to 2^63 without an error. -/
theorem c23_exact_refuted : intToFloat arm64 float64 .int64 9223372036854775807 0 = ⟨9223372036854775808, false⟩ := by
  unfold intToFloat
  simp only [maxInt64_round]
  have : castToInt arm64 .int64 (9223372036854775808 : ℚ) = 9223372036854775807 := by
    have h : trunc (9223372036854775808 : ℚ) = 9223372036854775808 := by
      have := trunc_int 9223372036854775808
      exact_mod_cast this
    unfold castToInt
    rw [h, if_neg (by decide)]
    unfold arm64
    rw [if_pos (by norm_num)]
    decide
  rw [this]; simp

/-- C23 through To: the table entries that are plain casts are exact as well, so To succeeds, with the exact value, precisely
for the representable integers (on amd64). -/
theorem c23_to_partial (is32 : Bool) (k : Kind) (i : Int) (cur : ℚ) (hi : k.InRange i) :
    let f := if is32 then float32 else float64
    let r := intTo amd64 f (if is32 then checked32 else checked64) k i cur
    (f.Has i → r = ⟨i, false⟩) ∧ (¬ f.Has i → r = ⟨cur, true⟩) := by
  intro f r
  have hf : IsGo f := by cases is32 <;> simp [f, IsGo]
  by_cases hc : (if is32 then checked32 else checked64) k = true
  · have : r = intToFloat amd64 f k i cur := by simp [r, intTo, hc]
    rw [this]; exact c23_exact_partial f hf k i cur hi
  · have hhas : f.Has i := by
      refine ⟨i, 0, by simp, ?_, hf.facts.2.1, by have := hf.facts.2.2.1; omega⟩
      cases is32 <;> cases k <;> simp [checked32, checked64] at hc <;> kind_norm <;> simp [f, float32, float64, abs_lt] <;> omega
    refine ⟨fun _ => ?_, fun h => absurd hhas h⟩
    simp [r, intTo, hc, roundFloat_exact hhas]

example := c23_to_partial true .int64 16777217 0 (by decide)

/-! ### C78: floats to integers -/

theorem sig10_log : roundSig 10 10 12345678901 = 12345678900 := by
  have hl : Int.log 10 |(12345678901 : ℚ)| = 10 := by
    rw [abs_of_nonneg (by norm_num)]
    exact log_eq_of (by omega) (by norm_num) (by norm_num) (by norm_num)
  unfold roundSig
  rw [if_neg (by norm_num), hl]
  unfold roundAt
  rw [rne_down (n := 1234567890) (by norm_num) (by norm_num)]
  norm_num

theorem sig10_one : roundSig 10 10 (1099511627775 / 1099511627776) = 1 := by
  have hl : Int.log 10 |(1099511627775 / 1099511627776 : ℚ)| = -1 := by
    rw [abs_of_nonneg (by norm_num)]
    exact log_eq_of (by omega) (by norm_num) (by norm_num) (by norm_num)
  unfold roundSig
  rw [if_neg (by norm_num), hl]
  unfold roundAt
  rw [rne_up (n := 10000000000) (by norm_num) (by norm_num)]
  norm_num

/-- C78 fails: FloatToInt(12345678901.0) is 12345678900, and FloatToInt(1 - 2^-40) is 1, both without an error. -/
theorem c78_int_refuted :
    float64.Has 12345678901 ∧ floatToInt .int64 (.fin 12345678901) 0 = ⟨12345678900, false⟩ ∧
    float64.Has (1099511627775 / 1099511627776) ∧ floatToInt .int64 (.fin (1099511627775 / 1099511627776)) 0 = ⟨1, false⟩ ∧
    floatToUint .uint64 (.fin 12345678901) 0 = ⟨12345678900, false⟩ := by
  refine ⟨⟨12345678901, 0, by norm_num, by norm_num [float64], by norm_num [float64], by norm_num [float64]⟩, ?_,
    ⟨1099511627775, -40, by norm_num, by norm_num [float64], by norm_num [float64], by norm_num [float64]⟩, ?_, ?_⟩
  · simp only [floatToInt, floatToBigRat, sig10_log]; decide
  · simp only [floatToInt, floatToBigRat, sig10_one]; decide
  · simp only [floatToUint, floatToBigRat, sig10_log]; decide

theorem roundSig10 {q : ℚ} (h : SigDigits 10 q) : roundSig 10 10 q = q := by
  obtain ⟨m, e, hq, hm⟩ := h
  rw [hq]
  exact_mod_cast roundSig_exact (b := 10) (by omega) (n := 10) (e := e) (by exact_mod_cast hm)

theorem den_one_iff (q : ℚ) : q.den = 1 ↔ ∃ i : ℤ, q = i := by
  constructor
  · intro h; exact ⟨q.num, (Rat.den_eq_one_iff q).1 h |>.symm⟩
  · rintro ⟨i, rfl⟩; simp

/-- C78, partial: for floats of at most ten significant decimal digits FloatToInt is exact or an error that leaves the
target alone. -/
theorem c78_int_partial (k : Kind) (hk : k.signed = true) (q : ℚ) (cur : Int) (h : SigDigits 10 q) :
    (∀ i : ℤ, q = i → k.InRange i → floatToInt k (.fin q) cur = ⟨i, false⟩) ∧
    ((¬ ∃ i : ℤ, q = i ∧ k.InRange i) → floatToInt k (.fin q) cur = ⟨cur, true⟩) := by
  have hsub : ∀ i, k.InRange i → Kind.int64.InRange i := by
    intro i; cases k <;> simp [Kind.signed] at hk <;> kind_norm <;> omega
  have hII : ∀ i, Kind.int64.InRange i → (k.InRange i → intToInt .int64 k i cur = ⟨i, false⟩) ∧
      (¬ k.InRange i → intToInt .int64 k i cur = ⟨cur, true⟩) := by
    intro i hi
    unfold intToInt
    have e : ∀ a : Int, Kind.int64.InRange a → Kind.int64.wrap a = a := fun a h => Kind.wrap_of_inRange h
    constructor
    · intro hk'
      rw [if_neg, Kind.wrap_of_inRange hk']
      cases k <;> simp [Kind.signed] at hk <;> simp only [Kind.bits, minIntValue, maxIntValue] <;>
        (try rw [e (-128) (by decide), e 127 (by decide)]) <;>
        (try rw [e (-32768) (by decide), e 32767 (by decide)]) <;>
        (try rw [e (-2147483648) (by decide), e 2147483647 (by decide)]) <;> kind_norm <;> omega
    · intro hk'
      rw [if_pos]
      cases k <;> simp [Kind.signed] at hk <;> simp only [Kind.bits, minIntValue, maxIntValue] <;>
        (try rw [e (-128) (by decide), e 127 (by decide)]) <;>
        (try rw [e (-32768) (by decide), e 32767 (by decide)]) <;>
        (try rw [e (-2147483648) (by decide), e 2147483647 (by decide)]) <;> kind_norm <;> omega
  simp only [floatToInt, floatToBigRat, roundSig10 h]
  constructor
  · rintro i rfl hi
    simp [bigRatToInt64, hsub i hi, (hII i (hsub i hi)).1 hi]
  · intro hn
    by_cases hd : q.den = 1
    · obtain ⟨i, rfl⟩ := (den_one_iff q).1 hd
      have hk' : ¬ k.InRange i := fun hh => hn ⟨i, rfl, hh⟩
      by_cases h64 : Kind.int64.InRange i
      · simp [bigRatToInt64, h64, (hII i h64).2 hk']
      · simp [bigRatToInt64, h64]
    · simp [bigRatToInt64, hd]

example := c78_int_partial .int16 rfl (131073 / 2) 0 ⟨655365, -1, by norm_num, by norm_num⟩

/-- C78, partial: the same for FloatToUint. -/
theorem c78_uint_partial (k : Kind) (hk : k.signed = false) (q : ℚ) (cur : Int) (h : SigDigits 10 q) :
    (∀ i : ℤ, q = i → k.InRange i → floatToUint k (.fin q) cur = ⟨i, false⟩) ∧
    ((¬ ∃ i : ℤ, q = i ∧ k.InRange i) → floatToUint k (.fin q) cur = ⟨cur, true⟩) := by
  have hsub : ∀ i, k.InRange i → Kind.uint64.InRange i := by
    intro i; cases k <;> simp [Kind.signed] at hk <;> kind_norm <;> omega
  have hII : ∀ i, Kind.uint64.InRange i → (k.InRange i → uintToUint .uint64 k i cur = ⟨i, false⟩) ∧
      (¬ k.InRange i → uintToUint .uint64 k i cur = ⟨cur, true⟩) := by
    intro i hi
    unfold uintToUint
    have e : ∀ a : Int, Kind.uint64.InRange a → Kind.uint64.wrap a = a := fun a h => Kind.wrap_of_inRange h
    constructor
    · intro hk'
      rw [if_neg, Kind.wrap_of_inRange hk']
      cases k <;> simp [Kind.signed] at hk <;> simp only [Kind.bits, maxUintValue] <;>
        (try rw [e 255 (by decide)]) <;> (try rw [e 65535 (by decide)]) <;>
        (try rw [e 4294967295 (by decide)]) <;> kind_norm <;> omega
    · intro hk'
      rw [if_pos]
      cases k <;> simp [Kind.signed] at hk <;> simp only [Kind.bits, maxUintValue] <;>
        (try rw [e 255 (by decide)]) <;> (try rw [e 65535 (by decide)]) <;>
        (try rw [e 4294967295 (by decide)]) <;> kind_norm <;> omega
  simp only [floatToUint, floatToBigRat, roundSig10 h]
  constructor
  · rintro i rfl hi
    simp [bigRatToUint64, hsub i hi, (hII i (hsub i hi)).1 hi]
  · intro hn
    by_cases hd : q.den = 1
    · obtain ⟨i, rfl⟩ := (den_one_iff q).1 hd
      have hk' : ¬ k.InRange i := fun hh => hn ⟨i, rfl, hh⟩
      by_cases h64 : Kind.uint64.InRange i
      · simp [bigRatToUint64, h64, (hII i h64).2 hk']
      · simp [bigRatToUint64, h64]
    · simp [bigRatToUint64, hd]

/-- The hypothesis is met by, for instance, 65536.5 (an error) and 1234567890 (exact). -/
example : SigDigits 10 (131073 / 2) ∧ SigDigits 10 1234567890 :=
  ⟨⟨655365, -1, by norm_num, by norm_num⟩, ⟨1234567890, 0, by norm_num, by norm_num⟩⟩

/-- C78: NaN and the infinities are errors that leave the target alone. -/
theorem c78_special (k : Kind) (cur : Int) (x : Flt) (h : ∀ q, x ≠ .fin q) :
    floatToInt k x cur = ⟨cur, true⟩ ∧ floatToUint k x cur = ⟨cur, true⟩ ∧ floatToBigInt x = none := by
  cases x with
  | nan => simp [floatToInt, floatToUint, floatToBigRat, floatToBigInt]
  | inf n => simp [floatToInt, floatToUint, floatToBigRat, floatToBigInt]
  | fin q => exact absurd rfl (h q)

example : ∀ q, (.inf true : Flt) ≠ .fin q := by intro q h; cases h

/-- C78: FloatToBigInt and BigFloatToBigInt are exact, and errors precisely for numbers that are not integers. -/
theorem c78_bigInt (q : ℚ) (i : Int) :
    (floatToBigInt (.fin q) = some i ↔ q = i) ∧ (bigFloatToBigInt (.fin q) = some i ↔ q = i) ∧
    (bigRatToBigInt q = some i ↔ q = i) := by
  have : (if q.den = 1 then some q.num else none) = some i ↔ q = i := by
    constructor
    · split
      · rename_i h
        intro hi
        obtain ⟨j, rfl⟩ := (den_one_iff q).1 h
        simpa using hi
      · simp
    · rintro rfl; simp
  exact ⟨this, this, this⟩

/-- C78: BigFloatToInt64, BigFloatToUint64, BigRatToInt64 and BigRatToUint64 are exact or errors that leave the target alone. -/
theorem c78_big64 (q : ℚ) (cur : Int) (k : Kind) (hk : k = .int64 ∨ k = .uint64) (r : Res Int)
    (hr : r = (if k = .int64 then bigFloatToInt64 (.fin q) cur else bigFloatToUint64 (.fin q) cur) ∨
          r = (if k = .int64 then bigRatToInt64 q cur else bigRatToUint64 q cur)) :
    (∀ i : ℤ, q = i → k.InRange i → r = ⟨i, false⟩) ∧ ((¬ ∃ i : ℤ, q = i ∧ k.InRange i) → r = ⟨cur, true⟩) := by
  constructor
  · rintro i rfl hi
    rcases hk with rfl | rfl <;> rcases hr with rfl | rfl <;>
      simp [bigFloatToInt64, bigFloatToUint64, bigFloatToBigInt, bigIntToInt64, bigIntToUint64, bigRatToInt64, bigRatToUint64, hi]
  · intro hn
    by_cases hd : q.den = 1
    · obtain ⟨i, rfl⟩ := (den_one_iff q).1 hd
      have hk' : ¬ k.InRange i := fun hh => hn ⟨i, rfl, hh⟩
      rcases hk with rfl | rfl <;> rcases hr with rfl | rfl <;>
        simp [bigFloatToInt64, bigFloatToUint64, bigFloatToBigInt, bigIntToInt64, bigIntToUint64, bigRatToInt64, bigRatToUint64, hk']
    · rcases hk with rfl | rfl <;> rcases hr with rfl | rfl <;>
        simp [bigFloatToInt64, bigFloatToUint64, bigFloatToBigInt, bigIntToInt64, bigIntToUint64, bigRatToInt64, bigRatToUint64, hd]

example : bigFloatToUint64 (.fin 18446744073709551615) 7 = ⟨18446744073709551615, false⟩ := by decide

/-! ### C79: to *big.Float and *big.Rat -/

theorem digits_bound (n : ℕ) : n < 10 ^ (natChars n).length := by
  have := natChars_lt_pow n
  exact this

theorem bitsFor_pow (n : ℕ) : 10 ^ n ≤ 2 ^ bitsFor n := Nat.le_pow_clog (by omega) _

theorem roundSig_int {n : ℕ} {i : ℤ} (h : |i| < 2 ^ n) : roundSig 2 n (i : ℚ) = i := by
  have := roundSig_exact (b := 2) (by omega) (n := n) (m := i) (e := 0) (by exact_mod_cast h)
  simpa using this

theorem formatInt_bound (i : ℤ) : |i| < 2 ^ bitsFor (formatInt i).length := by
  have h1 := digits_bound i.natAbs
  have h2 : (natChars i.natAbs).length ≤ (formatInt i).length := by unfold formatInt; split <;> simp
  have h3 : 10 ^ (natChars i.natAbs).length ≤ 10 ^ (formatInt i).length := Nat.pow_le_pow_right (by omega) h2
  have h4 := bitsFor_pow (formatInt i).length
  have h5 : i.natAbs < 2 ^ bitsFor (formatInt i).length := by omega
  have h6 : ((i.natAbs : ℕ) : ℤ) < ((2 ^ bitsFor (formatInt i).length : ℕ) : ℤ) := by exact_mod_cast h5
  rw [Int.natCast_natAbs] at h6
  exact_mod_cast h6

/-- C79: IntToBigFloat keeps the value, for every signed type. -/
theorem c79_int (k : Kind) (hk : k.signed = true) (i : Int) (hi : k.InRange i) : intToBigFloat k i = i := by
  have hw : Kind.int64.wrap i = i := Kind.wrap_of_inRange (by cases k <;> simp [Kind.signed] at hk <;> kind_norm <;> omega)
  unfold intToBigFloat integerToString
  rw [if_pos hk, hw]
  exact roundSig_int (formatInt_bound i)

example : intToBigFloat .int64 (-9223372036854775808) = (-9223372036854775808 : Int) := c79_int _ rfl _ (by decide)

/-- C79: BigIntToBigFloat keeps the value of every integer, however large. -/
theorem c79_bigInt (i : Int) : bigIntToBigFloat i = i := by
  unfold bigIntToBigFloat
  apply roundSig_int
  refine lt_of_lt_of_le (formatInt_bound i) ?_
  exact pow_le_pow_right₀ (by norm_num) (by omega)

/-- C79 fails for UintToBigFloat: 2^53 + 1 becomes 2^53. -/
theorem c79_uint_refuted : uintToBigFloat .uint64 9007199254740993 = 9007199254740992 := by
  have hw : Kind.uint64.wrap 9007199254740993 = 9007199254740993 := by decide
  unfold uintToBigFloat
  rw [hw]
  have hl : Int.log 2 |((9007199254740993 : Int) : ℚ)| = 53 := by
    rw [abs_of_nonneg (by norm_num)]
    exact log_eq_of (by omega) (by norm_num) (by norm_num) (by norm_num)
  unfold roundSig
  rw [if_neg (by norm_num), hl]
  unfold roundAt
  rw [rne_tie (n := 4503599627370496) (by norm_num) (by norm_num)]
  norm_num

/-- C79, partial: UintToBigFloat keeps values up to 2^53. -/
theorem c79_uint_partial (k : Kind) (i : Int) (h0 : 0 ≤ i) (h : i ≤ 9007199254740992) : uintToBigFloat k i = i := by
  have hw : Kind.uint64.wrap i = i := Kind.wrap_of_inRange (by kind_norm; omega)
  unfold uintToBigFloat
  rw [hw]
  rcases lt_or_eq_of_le h with h | rfl
  · apply roundSig_int
    rw [abs_of_nonneg h0]; norm_num; omega
  · have := roundSig_exact (b := 2) (by omega) (n := 53) (m := 1) (e := 53) (by norm_num)
    norm_num at this ⊢
    exact this

example : (0 : Int) ≤ 9007199254740991 ∧ (9007199254740991 : Int) ≤ 9007199254740992 := by decide

/-! ### The last digit of a text of ten digits -/

theorem trailingZeros_mul (f d j : ℕ) (hd : ¬ 10 ∣ d) (hj : j < f) : trailingZeros f (d * 10 ^ j) = j := by
  induction j generalizing f with
  | zero =>
    obtain ⟨f, rfl⟩ : ∃ g, f = g + 1 := ⟨f - 1, by omega⟩
    simp only [trailingZeros, pow_zero, mul_one]
    rw [if_neg (fun h => hd (Nat.dvd_of_mod_eq_zero h))]
  | succ j ih =>
    obtain ⟨f, rfl⟩ : ∃ g, f = g + 1 := ⟨f - 1, by omega⟩
    have h1 : d * 10 ^ (j + 1) = (d * 10 ^ j) * 10 := by rw [pow_succ]; ring
    simp only [trailingZeros]
    rw [h1, if_pos (by omega), Nat.mul_div_cancel _ (by omega), ih f (by omega)]

theorem trailingZeros_le (f m : ℕ) : trailingZeros f m ≤ f := by
  induction f generalizing m with
  | zero => simp [trailingZeros]
  | succ f ih => simp only [trailingZeros]; split
                 · have := ih (m / 10); omega
                 · omega

theorem lastPlace_eq (d k : ℤ) (hd : ¬ (10 : ℤ) ∣ d) (hl : |d| < 10 ^ 10) : lastPlace ((d : ℚ) * 10 ^ k) = k := by
  have hd0 : d ≠ 0 := by rintro rfl; simp at hd
  have hpos : 0 < d.natAbs := by omega
  have h10k : (0 : ℚ) < 10 ^ k := by positivity
  set D := Nat.log 10 d.natAbs with hD
  have hlo : 10 ^ D ≤ d.natAbs := Nat.pow_log_le_self 10 (by omega)
  have hhi : d.natAbs < 10 ^ (D + 1) := Nat.lt_pow_succ_log_self (by omega) _
  have habs : |(d : ℚ)| = (d.natAbs : ℚ) := by rw [← Int.cast_abs, Int.abs_eq_natAbs]; simp
  have hD9 : D ≤ 9 := by
    have h1 : d.natAbs < 10 ^ 10 := by
      have : (d.natAbs : ℤ) < 10 ^ 10 := by rw [← Int.abs_eq_natAbs]; exact hl
      exact_mod_cast this
    by_contra hc
    have : 10 ^ 10 ≤ 10 ^ D := Nat.pow_le_pow_right (by omega) (by omega)
    omega
  have hlog : Int.log 10 |(d : ℚ) * 10 ^ k| = D + k := by
    rw [abs_mul, habs, abs_of_pos h10k]
    refine log_eq_of (by omega) (by positivity) ?_ ?_
    · push_cast
      rw [zpow_add₀ (by norm_num), zpow_natCast]
      exact mul_le_mul_of_nonneg_right (by exact_mod_cast hlo) h10k.le
    · push_cast
      have : (10 : ℚ) ^ ((D : ℤ) + k + 1) = 10 ^ (D + 1) * 10 ^ k := by
        rw [← zpow_natCast, ← zpow_add₀ (by norm_num)]; congr 1; push_cast; ring
      rw [this]
      exact mul_lt_mul_of_pos_right (by exact_mod_cast hhi) h10k
  unfold lastPlace
  rw [hlog]
  simp only
  have hx : (d : ℚ) * 10 ^ k / 10 ^ ((D : ℤ) + k - 9) = ((d * 10 ^ (9 - D) : ℤ) : ℚ) := by
    rw [div_eq_iff (by positivity)]
    push_cast
    rw [mul_assoc]
    congr 1
    rw [← zpow_natCast, ← zpow_add₀ (by norm_num)]
    congr 1
    omega
  rw [hx, Rat.num_intCast, Int.natAbs_mul, Int.natAbs_pow]
  have : (10 : ℤ).natAbs = 10 := rfl
  rw [this, trailingZeros_mul 10 d.natAbs (9 - D) (by omega) (by omega)]
  omega

theorem lastPlace_near (x : ℚ) : Int.log 10 |x| - 9 ≤ lastPlace x ∧ lastPlace x ≤ Int.log 10 |x| + 1 := by
  unfold lastPlace
  simp only
  have := trailingZeros_le 10 (x / 10 ^ (Int.log 10 |x| - 9)).num.natAbs
  omega

/-- Every number of ten significant digits has a last digit. -/
theorem last_digit (m e : ℤ) (hm : m ≠ 0) : ∃ (d k : ℤ), ¬ (10 : ℤ) ∣ d ∧ |d| ≤ |m| ∧ (m : ℚ) * 10 ^ e = d * 10 ^ k := by
  by_cases h : (10 : ℤ) ∣ m
  · obtain ⟨c, rfl⟩ := h
    have hc : c ≠ 0 := by rintro rfl; simp at hm
    have hlt : c.natAbs < (10 * c).natAbs := by omega
    obtain ⟨d, k, h1, h2, h3⟩ := last_digit c (e + 1) hc
    refine ⟨d, k, h1, by rw [abs_mul]; have := abs_nonneg c; norm_num; omega, ?_⟩
    rw [← h3, zpow_add₀ (by norm_num)]
    push_cast; ring
  · exact ⟨m, e, h, le_refl _, rfl⟩
termination_by m.natAbs

/-- C79 fails for FloatToBigRat and BigFloatToBigRat, which keep ten digits, and for BigRatToBigFloat, which gives 0 for
1/10^60. -/
theorem c79_rat_refuted : floatToBigRat (.fin 12345678901) = some 12345678900 ∧
    bigFloatToBigRat (.fin 12345678901) = some (some 12345678900) ∧ bigRatToBigFloat (1 / 10 ^ 60) = 0 := by
  refine ⟨by simp only [floatToBigRat, sig10_log], ?_, ?_⟩
  · simp only [bigFloatToBigRat, sig10_log]
    rw [if_pos]
    right
    have := lastPlace_eq 123456789 2 (by decide) (by decide)
    norm_num at this
    rw [this]; decide
  have hnum : (1 / 10 ^ 60 : ℚ).num = 1 := by
    rw [one_div]; exact_mod_cast Rat.inv_natCast_num_of_pos (a := 10 ^ 60) (by norm_num)
  have hp : max 53 (bitsFor (formatInt 1).length) = 53 := by
    have : formatInt 1 = ['1'] := by
      unfold formatInt; rw [if_neg (by decide)]; show natChars 1 = _; rw [natChars]; decide
    rw [this]
    have : bitsFor 1 ≤ 4 := Nat.clog_le_of_le_pow (by norm_num)
    simp only [List.length_singleton]
    omega
  unfold bigRatToBigFloat
  simp only [hnum, hp]
  have : roundDecimals 53 (1 / 10 ^ 60) = 0 := by
    unfold roundDecimals
    have : ⌊|(1 / 10 ^ 60 : ℚ)| * 10 ^ 53 + 1 / 2⌋ = 0 := by
      rw [Int.floor_eq_iff, abs_of_nonneg (by norm_num)]
      norm_num
    simp only [this]
    norm_num
  rw [this]; simp [roundSig]

/-- C79: FloatToBigFloat keeps every float but NaN, which has no *big.Float and is an error; a *big.Rat is refused exactly for NaN and the
infinities. -/
theorem c79_special (x y : Flt) : (floatToBigFloat x = some y ↔ x = y ∧ x ≠ .nan) ∧
    (floatToBigRat x = none ↔ ∀ q, x ≠ .fin q) ∧ (bigFloatToBigRat x = none ↔ ∀ q, x ≠ .fin q) := by
  cases x <;> simp [floatToBigFloat, floatToBigRat, bigFloatToBigRat, eq_comm]
  split <;> simp

/-- C79: BigFloatToBigRat of a number of ten significant digits: the number if its last digit is at most 10^6 places away from the point. Otherwise, for example for
1e1000001, it stores the nil pointer, and returns no error. -/
theorem c79_far_refuted (d k : ℤ) (hd : ¬ (10 : ℤ) ∣ d) (hl : |d| < 10 ^ 10) :
    bigFloatToBigRat (.fin (d * 10 ^ k)) = some (if k.natAbs ≤ 1000000 then some ((d : ℚ) * 10 ^ k) else none) := by
  have hd0 : (d : ℚ) ≠ 0 := by
    rintro h; have : d = 0 := by exact_mod_cast h
    subst this; simp at hd
  simp only [bigFloatToBigRat]
  rw [roundSig10 ⟨d, k, rfl, hl⟩, lastPlace_eq d k hd hl]
  have hne : ¬ ((d : ℚ) * 10 ^ k = 0) := mul_ne_zero hd0 (by positivity)
  by_cases hk : k.natAbs ≤ 1000000
  · rw [if_pos (Or.inr hk), if_pos hk]
  · rw [if_neg (by rintro (h | h); exacts [hne h, hk h]), if_neg hk]

example : bigFloatToBigRat (.fin ((1 : ℤ) * 10 ^ (1000001 : ℤ))) = some none :=
  (c79_far_refuted 1 1000001 (by decide) (by decide)).trans (by rw [if_neg (by decide)])

/-- C79, partial: numbers of ten significant digits reach *big.Rat unchanged, and integers reach *big.Float unchanged through
BigRatToBigFloat; conversions of integers to *big.Rat always are exact. -/
theorem c79_rat_partial (q : ℚ) (h : SigDigits 10 q) (i : Int) (k : Kind) (hi : k.InRange i) :
    floatToBigRat (.fin q) = some q ∧ bigRatToBigFloat i = i ∧ integerToBigRat k i = i := by
  refine ⟨by simp [floatToBigRat, roundSig10 h], ?_, ?_⟩
  · unfold bigRatToBigFloat
    simp only [Rat.num_intCast]
    generalize hp : max 53 (bitsFor (formatInt i).length) = p
    have hd : roundDecimals p (i : ℚ) = i := by
      unfold roundDecimals
      have h10 : (0 : ℚ) < 10 ^ p := by positivity
      have hfl : ⌊|(i : ℚ)| * 10 ^ p + 1 / 2⌋ = |i| * 10 ^ p := by
        rw [Int.floor_eq_iff]
        push_cast
        constructor <;> linarith
      simp only [hfl]
      push_cast
      split
      · rename_i hneg
        rw [abs_of_neg hneg]; field_simp
      · rename_i hpos
        rw [abs_of_nonneg (not_lt.1 hpos)]; field_simp
    rw [hd]
    apply roundSig_int
    refine lt_of_lt_of_le (formatInt_bound i) ?_
    exact pow_le_pow_right₀ (by norm_num) (by omega)
  · unfold integerToBigRat integerToBigInt
    split
    · rw [Kind.wrap_of_inRange]
      cases k <;> simp [Kind.signed] at * <;> kind_norm <;> omega
    · rw [Kind.wrap_of_inRange]
      cases k <;> simp [Kind.signed] at * <;> kind_norm <;> omega

example := c79_rat_partial (131073 / 2) ⟨655365, -1, by norm_num, by norm_num⟩ (-5) .int8 (by decide)

/-! ### C80: float64 to float32 and back -/

/-- C80: a number in the range of float32 becomes a nearest float32; any other one is an error that leaves the target alone. -/
theorem c80_narrow (q : ℚ) (cur : Flt) :
    ((q = 0 ∨ float32.smallest ≤ |q|) ∧ |q| ≤ float32.max →
      ∃ r, floatToFloat true (.fin q) cur = ⟨.fin r, false⟩ ∧ float32.Nearest q r) ∧
    (¬ ((q = 0 ∨ float32.smallest ≤ |q|) ∧ |q| ≤ float32.max) → floatToFloat true (.fin q) cur = ⟨cur, true⟩) := by
  constructor
  · rintro ⟨h1, h2⟩
    refine ⟨roundFloat float32 q, ?_, roundFloat_nearest float32 (by simp [float32]) (by simp [float32]) h2⟩
    simp only [floatToFloat]
    rw [if_neg]
    · simp
    · rintro ⟨_, ⟨ha, hb⟩ | hb⟩
      · rcases h1 with h1 | h1
        · exact ha h1
        · exact absurd hb (not_lt.2 h1)
      · exact absurd hb (not_lt.2 h2)
  · intro h
    simp only [floatToFloat]
    rw [if_pos]
    refine ⟨trivial, ?_⟩
    by_cases h2 : |q| ≤ float32.max
    · left
      constructor
      · intro h0; exact h ⟨Or.inl h0, h2⟩
      · by_contra hc; exact h ⟨Or.inr (not_lt.1 hc), h2⟩
    · right; exact not_le.1 h2

example : floatToFloat true (.fin (1 / 3)) .nan ≠ ⟨.nan, true⟩ := by
  obtain ⟨r, h, _⟩ := (c80_narrow (1 / 3) .nan).1 ⟨Or.inr (by
    rw [abs_of_nonneg (by norm_num)]
    exact (zpow_le_zpow_right₀ (by norm_num) (by norm_num : (-149 : ℤ) ≤ -2)).trans (by norm_num)), by
    rw [abs_of_nonneg (by norm_num)]
    norm_num [Fmt.max, float32]⟩
  rw [h]; simp

/-- C80: a float64 that is a float32 is converted exactly, and every float32 is converted to float64 exactly. -/
theorem c80_exact (q : ℚ) (cur : Flt) (h : float32.Has q) :
    floatToFloat false (.fin q) cur = ⟨.fin q, false⟩ ∧ floatToFloat true (.fin q) cur = ⟨.fin q, false⟩ := by
  obtain ⟨m, e, hq, hm, h1, h2⟩ := h
  have h64 : float64.Has q := by
    refine ⟨m, e, hq, ?_, ?_, ?_⟩
    · exact lt_trans hm (by norm_num [float32, float64])
    · simp [float32, float64] at *; omega
    · simp [float32, float64] at *; omega
  have h32 : float32.Has q := ⟨m, e, hq, hm, h1, h2⟩
  constructor
  · simp [floatToFloat, roundFloat_exact h64]
  · simp only [floatToFloat]
    rw [if_neg]
    · simp [roundFloat_exact h32]
    · rintro ⟨_, ⟨ha, hb⟩ | hb⟩
      · have hm1 : 1 ≤ |m| := by
          apply Int.one_le_abs; rintro rfl; simp [hq] at ha
        have hm1' : (1 : ℚ) ≤ |(m : ℚ)| := by exact_mod_cast hm1
        rw [hq, abs_mul, abs_of_pos (show (0 : ℚ) < 2 ^ e by positivity)] at hb
        have : float32.smallest ≤ (2 : ℚ) ^ e := zpow_le_zpow_right₀ (by norm_num) h1
        have hp : (0 : ℚ) < 2 ^ e := by positivity
        nlinarith
      · rw [hq, abs_mul, abs_of_pos (show (0 : ℚ) < 2 ^ e by positivity)] at hb
        have hm' : |(m : ℚ)| ≤ 2 ^ float32.prec - 1 := by
          have : |m| ≤ 2 ^ float32.prec - 1 := by omega
          exact_mod_cast this
        have he : (2 : ℚ) ^ e ≤ 2 ^ float32.emax := zpow_le_zpow_right₀ (by norm_num) h2
        have : |(m : ℚ)| * 2 ^ e ≤ (2 ^ float32.prec - 1) * 2 ^ float32.emax :=
          mul_le_mul hm' he (by positivity) (by norm_num [float32])
        exact absurd hb (not_lt.2 this)

example := c80_exact (5 / 4) .nan ⟨5, -2, by norm_num, by norm_num [float32], by norm_num [float32], by norm_num [float32]⟩

/-- C80: NaN and the infinities are kept. -/
theorem c80_special (is32 : Bool) (x cur : Flt) (h : ∀ q, x ≠ .fin q) : floatToFloat is32 x cur = ⟨x, false⟩ := by
  cases x with
  | fin q => exact absurd rfl (h q)
  | nan => rfl
  | inf n => rfl

example := c80_special true (.inf true) .nan (by intro q h; cases h)

/-! ### C81: big numbers to floats -/

theorem toNearest_exact {f : Fmt} {q : ℚ} (h : f.Has q) : toNearest f q = (.fin q, true) := by
  unfold toNearest
  simp only [roundFloat_exact h]
  rw [if_neg]
  · simp
  · obtain ⟨m, e, hq, hm, h1, h2⟩ := h
    rw [hq, abs_mul, abs_of_pos (show (0 : ℚ) < 2 ^ e by positivity)]
    have hm' : |(m : ℚ)| ≤ 2 ^ f.prec - 1 := by
      have : |m| ≤ 2 ^ f.prec - 1 := by omega
      exact_mod_cast this
    have he : (2 : ℚ) ^ e ≤ 2 ^ f.emax := zpow_le_zpow_right₀ (by norm_num) h2
    have h1 : (1 : ℚ) ≤ 2 ^ f.prec := one_le_pow₀ (by norm_num)
    exact not_lt.2 (mul_le_mul hm' he (by positivity) (by linarith))

theorem toNearest_inexact {f : Fmt} (hf : IsGo f) {q : ℚ} (h : ¬ f.Has q) : (toNearest f q).2 = false := by
  unfold toNearest
  obtain ⟨h1, h2, h3, h4⟩ := hf.facts
  simp only
  split
  · rfl
  · rename_i hle
    simp only [decide_eq_false_iff_not]
    intro he
    apply h
    have := roundFloat_has f (by omega) h4 (q := q) (by rw [← he]; exact not_lt.1 hle)
    rw [he] at this; exact this

/-- C81: BigIntToFloat32/64, BigFloatToFloat32/64 and BigRatToFloat32/64 succeed, with the exact value, precisely for the
numbers of the format. -/
theorem c81_big (f : Fmt) (hf : IsGo f) (q : ℚ) (i : Int) :
    (f.Has q → bigFloatToFloat f (.fin q) = ⟨.fin q, false⟩ ∧ bigRatToFloat f q = ⟨.fin q, false⟩) ∧
    (¬ f.Has q → (bigFloatToFloat f (.fin q)).failed = true ∧ (bigRatToFloat f q).failed = true) ∧
    (f.Has i → bigIntToFloat f i = ⟨.fin i, false⟩) ∧ (¬ f.Has i → (bigIntToFloat f i).failed = true) := by
  refine ⟨fun h => ?_, fun h => ?_, fun h => ?_, fun h => ?_⟩
  · simp [bigFloatToFloat, bigRatToFloat, toNearest_exact h]
  · simp [bigFloatToFloat, bigRatToFloat, toNearest_inexact hf h]
  · simp [bigIntToFloat, c79_bigInt, toNearest_exact h]
  · simp [bigIntToFloat, c79_bigInt, toNearest_inexact hf h]

example : float32.Has (16777216 / 1024) ∧ IsGo float32 :=
  ⟨⟨1, 14, by norm_num, by norm_num [float32], by norm_num [float32], by norm_num [float32]⟩, Or.inl rfl⟩

theorem odd_not_has : ¬ float32.Has ((16777217 : Int) : ℚ) := by
  rintro ⟨m, e, h, hm, _, _⟩
  have hm' : |m| < 16777216 := by simpa [float32] using hm
  rcases le_or_gt e 0 with he | he
  · have hp : (2 : ℚ) ^ e ≤ 1 := zpow_le_one_of_nonpos₀ (by norm_num) he
    have hpos : (0 : ℚ) < 2 ^ e := by positivity
    have h1 : (m : ℚ) < 16777216 := by
      have := (abs_lt.1 hm').2
      exact_mod_cast this
    push_cast at h
    nlinarith
  · obtain ⟨k, rfl⟩ := Int.eq_ofNat_of_zero_le (show 0 ≤ e by omega)
    obtain ⟨j, rfl⟩ : ∃ j, k = j + 1 := ⟨k - 1, by omega⟩
    have h1 : (16777217 : ℤ) = m * 2 ^ (j + 1) := by
      have : ((16777217 : ℤ) : ℚ) = ((m * 2 ^ (j + 1) : ℤ) : ℚ) := by
        rw [h]; push_cast; rw [← zpow_natCast]; norm_num
      exact_mod_cast this
    have h2 : (16777217 : ℤ) = (m * 2 ^ j) * 2 := by rw [h1]; ring
    clear h1 hm h
    omega

/-- C81 fails through To: the *big.Int 16777217, which is not a float32, is converted to 16777216 without an error. -/
theorem c81_to_refuted : ¬ float32.Has ((16777217 : Int) : ℚ) ∧ bigIntToFloat32Entry 16777217 .nan = ⟨.fin 16777216, false⟩ := by
  refine ⟨odd_not_has, ?_⟩
  have h64 : float64.Has ((16777217 : Int) : ℚ) :=
    ⟨16777217, 0, by norm_num, by norm_num [float64], by norm_num [float64], by norm_num [float64]⟩
  have hr : roundFloat float32 (16777217 : ℚ) = 16777216 := by
    have hl : Int.log 2 |(16777217 : ℚ)| = 24 := by
      rw [abs_of_nonneg (by norm_num)]
      exact log_eq_of (by omega) (by norm_num) (by norm_num) (by norm_num)
    unfold roundFloat
    rw [if_neg (by norm_num), hl]
    have : max ((24 : ℤ) - ((float32.prec : ℤ) - 1)) float32.emin = 1 := by simp [float32]
    rw [this]
    unfold roundAt
    rw [rne_tie (n := 8388608) (by norm_num) (by norm_num)]
    norm_num
  simp only [bigIntToFloat32Entry, (c81_big float64 (Or.inr rfl) 0 16777217).2.2.1 h64, floatToFloat]
  rw [if_neg (by simp), if_neg]
  · simp [hr]
  · rintro ⟨_, ⟨_, hb⟩ | hb⟩
    · rw [abs_of_nonneg (by norm_num)] at hb
      have : float32.smallest ≤ 1 := zpow_le_one_of_nonpos₀ (by norm_num) (by simp [float32])
      have h2 := lt_of_lt_of_le hb this
      norm_num at h2
    · rw [abs_of_nonneg (by norm_num)] at hb
      norm_num [Fmt.max, float32] at hb

/-- C81 through To, partial: every *big.Int that is a float32 is converted exactly. -/
theorem c81_to_partial (i : Int) (cur : Flt) (h : float32.Has i) : bigIntToFloat32Entry i cur = ⟨.fin i, false⟩ := by
  have h64 : float64.Has i := by
    obtain ⟨m, e, hq, hm, h1, h2⟩ := h
    refine ⟨m, e, hq, lt_trans hm (by norm_num [float32, float64]), ?_, ?_⟩
    · simp [float32, float64] at *; omega
    · simp [float32, float64] at *; omega
  simp only [bigIntToFloat32Entry, (c81_big float64 (Or.inr rfl) 0 i).2.2.1 h64]
  simp [(c80_exact i cur h).2]

example := c81_to_partial 16777216 .nan ⟨1, 24, by norm_num, by norm_num [float32], by norm_num [float32], by norm_num [float32]⟩

end Micro.Conv
