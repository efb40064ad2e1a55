import Verif.MathInt.FloatDivModel
import Verif.MathInt.BigDivProps
import Verif.Conv.TextLemmas
set_option linter.unusedSimpArgs false
/-
C127: Div and DivBigOps for *big.Float, and quotients that are nil pointers.
-/
namespace Micro.MathInt
open Micro Micro.Conv

/-! Specification -/

/-- The number of a finite big.Float. -/
def BFVal.num : BFVal → Option ℚ
  | .zero _ => some 0
  | .fin q => some q
  | .inf _ => none

/-- A big.Float as the library makes it: finite values are not zero and have at most as many bits as the precision says. -/
def BF.Ok (x : BF) : Prop := ∀ q, x.val = .fin q → q ≠ 0 ∧ 1 ≤ x.prec ∧ SigBits x.prec q

/-- r is a number of p bits, no number of p bits is closer to x, and r has the sign of x. -/
def Rounded (p : Nat) (x r : ℚ) : Prop :=
  SigBits p r ∧ (∀ r', SigBits p r' → |r - x| ≤ |r' - x|) ∧ (0 < r ↔ 0 < x) ∧ (r < 0 ↔ x < 0)

/-- The precision of the quotient: that of the variable's big.Float, 53 for a nil pointer, and the larger one of the operands for a big.Float
whose precision is not set. -/
def quoPrec (m : BFMem) (de dv : Nat) : Option Nat → Nat
  | none => 53
  | some a => if (m.obj a).prec = 0 then max (m.obj de).prec (m.obj dv).prec else (m.obj a).prec

/-! Lemmas -/

theorem roundSig_bits {p : ℕ} (hp : 1 ≤ p) (q : ℚ) : SigBits p (roundSig 2 p q) := by
  by_cases h0 : q = 0
  · exact ⟨0, 0, by simp [roundSig, h0], by simp⟩
  · set L := Int.log 2 |q| with hL
    let f : Fmt := ⟨p, L - (p - 1), L + 1⟩
    have hround : roundFloat f q = roundSig 2 p q := by
      unfold roundFloat roundSig
      rw [if_neg h0, if_neg h0]
      congr 1
      show max (Int.log 2 |q| - ((p : ℤ) - 1)) (L - (p - 1)) = _
      omega
    have hmax : |q| ≤ f.max := by
      have h1 := Int.lt_zpow_succ_log_self (b := 2) (by omega) |q|
      have h3 : (1 : ℚ) ≤ 2 ^ f.prec - 1 := by
        have : (2 : ℚ) ^ 1 ≤ 2 ^ p := pow_le_pow_right₀ (by norm_num) hp
        show (1 : ℚ) ≤ 2 ^ p - 1
        linarith
      have h4 : (0 : ℚ) < 2 ^ f.emax := by positivity
      unfold Fmt.max
      have h5 : |q| < (2 : ℚ) ^ (L + 1) := by exact_mod_cast h1
      have h6 : (2 : ℚ) ^ (L + 1) = 2 ^ f.emax := rfl
      nlinarith
    obtain ⟨m, e, h1, h2, -, -⟩ := roundFloat_has f hp (by show L - ((p : ℤ) - 1) ≤ L + 1; omega) hmax
    rw [hround] at h1
    exact ⟨m, e, h1, h2⟩

theorem roundSig_rounded {p : ℕ} (hp : 1 ≤ p) (q : ℚ) (h0 : q ≠ 0) : Rounded p q (roundSig 2 p q) := by
  have hn : ∀ r', SigBits p r' → |roundSig 2 p q - q| ≤ |r' - q| := by
    rintro r' ⟨m, e, rfl, hm⟩
    exact roundSig_near hp q m e hm
  have hpos : 0 < |q| := abs_pos.2 h0
  have h1 : (2 : ℚ) ^ Int.log 2 |q| ≤ |q| := by exact_mod_cast Int.zpow_log_le_self (b := 2) (by omega) hpos
  have h2 : (0 : ℚ) < 2 ^ Int.log 2 |q| := by positivity
  have hone : |(1 : ℤ)| < 2 ^ p := by
    have : (2 : ℤ) ^ 1 ≤ 2 ^ p := pow_le_pow_right₀ (by norm_num) hp
    rw [abs_one]; omega
  set t := (2 : ℚ) ^ Int.log 2 |q| with ht
  refine ⟨roundSig_bits hp q, hn, ?_⟩
  rcases lt_or_gt_of_ne h0 with hq | hq
  · rw [abs_of_neg hq] at h1
    have := hn (-t) ⟨-1, Int.log 2 |q|, by push_cast; ring, by rwa [abs_neg]⟩
    have hlt : |-t - q| < |q| := by rw [abs_of_neg hq, abs_of_nonneg (by linarith)]; linarith
    have h3 := abs_lt.1 (lt_of_le_of_lt this hlt)
    rw [abs_of_neg hq] at h3
    exact ⟨⟨fun h => by linarith [h3.2], fun h => by linarith⟩, ⟨fun _ => hq, fun _ => by linarith [h3.2]⟩⟩
  · rw [abs_of_pos hq] at h1
    have := hn t ⟨1, Int.log 2 |q|, by push_cast; ring, hone⟩
    have hlt : |t - q| < |q| := by rw [abs_of_pos hq, abs_of_nonpos (by linarith)]; linarith
    have h3 := abs_lt.1 (lt_of_le_of_lt this hlt)
    rw [abs_of_pos hq] at h3
    exact ⟨⟨fun _ => hq, fun _ => by linarith [h3.1]⟩, ⟨fun h => by linarith [h3.1], fun h => by linarith⟩⟩

/-! Theorems -/

/-- What the memory looks like to the division: a nil quotient is allocated first. -/
theorem divFloatMem_eq (m : BFMem) (de dv : Nat) (q : Option Nat) (hde : de < m.next) (hdv : dv < m.next) :
    ∃ m1 : BFMem, ∃ qb, (∀ a, a < m.next → m1.obj a = m.obj a) ∧ (∀ a, q = some a → qb = a ∧ m1 = m) ∧ (q = none → qb = m.next ∧ m1.obj qb = ⟨53, .zero false⟩) ∧
      m1.obj de = m.obj de ∧ m1.obj dv = m.obj dv ∧
      divFloatMem m de dv q =
        (if ((m.obj de).val.isZero && (m.obj dv).val.isZero) || ((m.obj de).val.isInf && (m.obj dv).val.isInf) then (m1, qb, some .nan)
        else match bfQuo (m1.obj qb) (m.obj de) (m.obj dv) with
          | none => (m1, qb, some .panic)
          | some r => (⟨Function.update m1.obj qb r, m1.next⟩, qb, none)) := by
  cases q with
  | none =>
    have h1 : ∀ a, a < m.next → Function.update m.obj m.next ⟨53, .zero false⟩ a = m.obj a := fun a ha => Function.update_of_ne (by omega) _ _
    refine ⟨⟨Function.update m.obj m.next ⟨53, .zero false⟩, m.next + 1⟩, m.next, h1, by simp, fun _ => ⟨rfl, Function.update_self ..⟩, h1 de hde, h1 dv hdv, ?_⟩
    unfold divFloatMem
    simp only [h1 de hde, h1 dv hdv]
    rfl
  | some a =>
    refine ⟨m, a, fun _ _ => rfl, fun b hb => ⟨by cases hb; rfl, rfl⟩, by simp, rfl, rfl, ?_⟩
    unfold divFloatMem
    rfl

/-- 1 and 3 with 200 bits. -/
def oneThree : BFMem := ⟨fun a => if a = 0 then ⟨200, .fin 1⟩ else ⟨200, .fin 3⟩, 2⟩

theorem oneThree_ok : ∀ a, (oneThree.obj a).Ok := by
  intro a q hq
  unfold oneThree at *
  by_cases ha : a = 0
  · simp only [ha, if_true] at hq ⊢
    cases hq
    exact ⟨by norm_num, by norm_num, 1, 0, by simp, by norm_num⟩
  · simp only [ha, if_false] at hq ⊢
    cases hq
    exact ⟨by norm_num, by norm_num, 3, 0, by simp, by norm_num⟩

/-- C127: there is an error exactly for 0/0 and Inf/Inf, never a panic; every other big.Float keeps its value; and with an error the
quotient keeps its value too (a nil pointer becomes a new 0). -/
theorem c127_float_errors (m : BFMem) (de dv : Nat) (q : Option Nat) (hde : de < m.next) (hdv : dv < m.next)
    (ho : ∀ a, (m.obj a).Ok) :
    ∃ m' a e, divFloatMem m de dv q = (m', a, e) ∧ e ≠ some .panic ∧ (∀ b, q = some b → a = b) ∧ (q = none → a = m.next) ∧
      (e = some .nan ↔ ((m.obj de).val.num = some 0 ∧ (m.obj dv).val.num = some 0) ∨
        ((m.obj de).val.num = none ∧ (m.obj dv).val.num = none)) ∧
      (∀ b, b < m.next → b ≠ a → m'.obj b = m.obj b) ∧
      (e = some .nan → (∀ b, q = some b → m'.obj b = m.obj b) ∧ (q = none → m'.obj a = ⟨53, .zero false⟩)) := by
  obtain ⟨m1, qb, h1, h2, h3, h4, h5, h6⟩ := divFloatMem_eq m de dv q hde hdv
  rw [h6]
  have hq1 : ∀ b, q = some b → qb = b := fun b hb => (h2 b hb).1
  have hq2 : q = none → qb = m.next := fun hn => (h3 hn).1
  have hm1 : ∀ b, q = some b → m1.obj b = m.obj b := fun b hb => by rw [(h2 b hb).2]
  have hm2 : q = none → m1.obj qb = ⟨53, .zero false⟩ := fun hn => (h3 hn).2
  have hup : ∀ r : BF, ∀ b, b < m.next → b ≠ qb → Function.update m1.obj qb r b = m.obj b := fun r b hb hne => by
    rw [Function.update_of_ne hne, h1 b hb]
  cases hx : (m.obj de).val <;> cases hy : (m.obj dv).val <;>
    simp [BFVal.isZero, BFVal.isInf, BFVal.num, bfQuo, hx, hy, hq1, hq2] <;>
    first
      | exact ⟨hq1, hq2, hup _⟩
      | exact ⟨hq1, hq2, fun b hb _ => h1 b hb, hm1, hm2⟩
      | exact ⟨hq1, hq2, (ho _ _ hx).1, hup _⟩
      | exact ⟨hq1, hq2, (ho _ _ hy).1, hup _⟩
      | exact ⟨hq1, hq2, fun h => absurd h (ho _ _ hx).1, hup _⟩

example := c127_float_errors oneThree 0 1 none (by decide) (by decide) oneThree_ok

/-- C127: the quotient of two finite numbers, the divisor not zero: the exact quotient rounded to the precision of the quotient's variable. -/
theorem c127_float_finite (m : BFMem) (de dv : Nat) (q : Option Nat) (hde : de < m.next) (hdv : dv < m.next)
    (ho : ∀ a, (m.obj a).Ok) (x y : ℚ) (hx : (m.obj de).val.num = some x) (hy : (m.obj dv).val.num = some y) (hy0 : y ≠ 0) :
    ∃ m' a r, divFloatMem m de dv q = (m', a, none) ∧ (m'.obj a).prec = quoPrec m de dv q ∧ (m'.obj a).val.num = some r ∧
      (x = 0 → r = 0) ∧ (x ≠ 0 → Rounded (quoPrec m de dv q) (x / y) r) := by
  obtain ⟨m1, qb, h1, h2, h3, h4, h5, h6⟩ := divFloatMem_eq m de dv q hde hdv
  rw [h6]
  have hyf : (m.obj dv).val = .fin y := by
    cases hv : (m.obj dv).val <;> rw [hv] at hy <;> simp [BFVal.num] at hy
    · exact absurd hy.symm hy0
    · rw [hy]
  have hpq : (if (m1.obj qb).prec = 0 then max (m.obj de).prec (m.obj dv).prec else (m1.obj qb).prec) = quoPrec m de dv q := by
    cases q with
    | none => rw [(h3 rfl).2]; simp [quoPrec]
    | some a => obtain ⟨rfl, rfl⟩ := h2 a rfl; simp [quoPrec]
  have hp1 : 1 ≤ quoPrec m de dv q := by
    have := (ho dv y hyf).2.1
    cases q with
    | none => simp [quoPrec]
    | some a => simp only [quoPrec]; split <;> omega
  cases hv : (m.obj de).val with
  | zero n =>
    have hx0 : x = 0 := by rw [hv] at hx; simpa [BFVal.num] using hx.symm
    simp only [hyf, BFVal.isZero, BFVal.isInf, Bool.and_false, Bool.false_and, Bool.or_self, Bool.false_eq_true, if_false, bfQuo, hv, hpq]
    exact ⟨_, _, 0, rfl, by simp, by simp [BFVal.num], fun _ => rfl, fun h => absurd hx0 h⟩
  | inf n => rw [hv] at hx; simp [BFVal.num] at hx
  | fin x' =>
    have hxx : x' = x := by rw [hv] at hx; simpa [BFVal.num] using hx
    subst hxx
    have hx0 := (ho de x' hv).1
    simp only [hyf, BFVal.isZero, BFVal.isInf, Bool.and_false, Bool.false_and, Bool.or_self, Bool.false_eq_true, if_false, bfQuo, hv, hpq]
    exact ⟨_, _, roundSig 2 (quoPrec m de dv q) (x' / y), rfl, by simp, by simp [BFVal.num], fun h => absurd h hx0,
      fun _ => roundSig_rounded hp1 _ (div_ne_zero hx0 hy0)⟩

example := c127_float_finite oneThree 0 1 none (by decide) (by decide) oneThree_ok 1 3 rfl rfl (by norm_num)

/-- C127: a number divided by zero, and an infinity divided by a number, is an infinity; a number divided by an infinity is zero; the signs
multiply. -/
theorem c127_float_infinite (m : BFMem) (de dv : Nat) (q : Option Nat) (hde : de < m.next) (hdv : dv < m.next) :
    ((∃ x, (m.obj de).val = .fin x) ∧ (∃ n, (m.obj dv).val = .zero n) ∨ (∃ n, (m.obj de).val = .inf n) ∧ (m.obj dv).val.num ≠ none →
      ∃ m' a, divFloatMem m de dv q = (m', a, none) ∧ (m'.obj a).val = .inf ((m.obj de).val.neg != (m.obj dv).val.neg)) ∧
    ((m.obj de).val.num ≠ none ∧ (∃ n, (m.obj dv).val = .inf n) →
      ∃ m' a, divFloatMem m de dv q = (m', a, none) ∧ (m'.obj a).val = .zero ((m.obj de).val.neg != (m.obj dv).val.neg)) := by
  obtain ⟨m1, qb, h1, h2, h3, h4, h5, h6⟩ := divFloatMem_eq m de dv q hde hdv
  rw [h6]
  constructor
  · cases hx : (m.obj de).val <;> cases hy : (m.obj dv).val <;>
      simp [BFVal.isZero, BFVal.isInf, BFVal.num, bfQuo, hx, hy]
  · cases hx : (m.obj de).val <;> cases hy : (m.obj dv).val <;>
      simp [BFVal.isZero, BFVal.isInf, BFVal.num, bfQuo, hx, hy]

example : ∃ m' a, divFloatMem ⟨fun a => if a = 0 then ⟨200, .fin 1⟩ else ⟨200, .zero true⟩, 2⟩ 0 1 none = (m', a, none) ∧ (m'.obj a).val = .inf (BFVal.neg (.fin 1) != true) :=
  (c127_float_infinite ⟨fun a => if a = 0 then ⟨200, .fin 1⟩ else ⟨200, .zero true⟩, 2⟩ 0 1 none (by decide) (by decide)).1 (.inl ⟨⟨1, rfl⟩, ⟨true, rfl⟩⟩)

/-- C127: nil quotients for *big.Int and *big.Rat: the same quotient in a new number; with a zero divisor the nil pointer becomes a new 0. -/
theorem c127_nil (m : BigMem) (r : Nat → ℚ) (next de dv : Nat) (hde : de < next) (hdv : dv < next) :
    (∃ m', divBigVar m next de dv none = (m', next, (divBigMem m de dv next).2) ∧
      (m dv ≠ 0 → m' next = (divBigMem m de dv next).1 next) ∧ (m dv = 0 → m' next = 0) ∧ ∀ a < next, m' a = m a) ∧
    (∃ r', divRatVar r next de dv none = (r', next, if r dv = 0 then some .divByZero else none) ∧
      (r dv ≠ 0 → r' next * r dv = r de) ∧ (r dv = 0 → r' next = 0) ∧ ∀ a < next, r' a = r a) := by
  have e1 : ∀ a < next, Function.update m next 0 a = m a := fun a ha => Function.update_of_ne (by omega) _ _
  have e2 : ∀ a < next, Function.update r next 0 a = r a := fun a ha => Function.update_of_ne (by omega) _ _
  constructor
  · unfold divBigVar divBigMem
    simp only [e1 de hde, e1 dv hdv]
    by_cases h0 : m dv = 0
    · simp only [h0, if_true]
      exact ⟨_, rfl, by simp, by simp, e1⟩
    · simp only [h0, if_false]
      have e3 : ∀ t, Function.update (Function.update m next 0) next t dv = m dv := fun t => by
        rw [Function.update_of_ne (by omega), e1 dv hdv]
      have e4 : ∀ t, Function.update m next t dv = m dv := fun t => Function.update_of_ne (by omega) _ _
      simp only [e3, e4, Function.update_self, Function.update_idem]
      have e5 : ∀ t a, a < next → Function.update m next t a = m a := fun t a ha => Function.update_of_ne (by omega) _ _
      split
      · split <;> exact ⟨_, rfl, fun _ => rfl, fun h => by simp at h, fun a ha => e5 _ a ha⟩
      · exact ⟨_, rfl, fun _ => rfl, fun h => by simp at h, fun a ha => e5 _ a ha⟩
  · unfold divRatVar divRatMem
    simp only [e2 de hde, e2 dv hdv]
    by_cases h0 : r dv = 0
    · simp only [h0, if_true]
      exact ⟨_, rfl, by simp, by simp, e2⟩
    · simp only [h0, if_false]
      refine ⟨_, rfl, fun _ => by rw [Function.update_self, div_mul_cancel₀ _ h0], fun h => by simp at h, fun a ha => ?_⟩
      rw [Function.update_of_ne (by omega), e2 a ha]

example := c127_nil (fun a => if a = 0 then 7 else 0) (fun a => if a = 0 then 7 else 0) 2 0 1 (by decide) (by decide)

/-- The claim "the quotient is as precise as the operands" is false for a nil quotient: 1/3 of 200 bit numbers is only rounded to 53 bits, so
that it is at least 2^-60 off. -/
theorem c127_precision_refuted :
    (∃ m' a r, divFloatMem oneThree 0 1 none = (m', a, none) ∧ (m'.obj a).val.num = some r ∧ 1 / 2 ^ 60 ≤ |r - 1 / 3|) := by
  obtain ⟨m', a, r, h1, h2, h3, h4, h5⟩ := c127_float_finite oneThree 0 1 none (by decide) (by decide) oneThree_ok 1 3 rfl rfl (by norm_num)
  refine ⟨m', a, r, h1, h3, ?_⟩
  have hq : quoPrec oneThree 0 1 none = 53 := rfl
  rw [hq] at h5
  obtain ⟨⟨k, e, hr, hk⟩, hn, hp, -⟩ := h5 (by norm_num)
  rcases Int.lt_or_le e 0 with he | he
  · obtain ⟨n, rfl⟩ : ∃ n : Nat, e = -(n : ℤ) := ⟨e.natAbs, by omega⟩
    rw [zpow_neg, zpow_natCast] at hr
    have hpos : (0 : ℚ) < 2 ^ n := by positivity
    have hk' : |(k : ℚ)| < 2 ^ 53 := by exact_mod_cast hk
    by_cases hn56 : n ≤ 56
    · have hne : 3 * k - 2 ^ n ≠ 0 := by
        intro hc
        have h3 : (2 : ℤ) ^ n % 3 = 0 := by omega
        have hcop : ∀ j : Nat, (2 : ℤ) ^ j % 3 = 1 ∨ (2 : ℤ) ^ j % 3 = 2 := by
          intro j
          induction j with
          | zero => left; rfl
          | succ j ih => rw [pow_succ]; omega
        rcases hcop n with h | h <;> omega
      have hge : (1 : ℤ) ≤ |3 * k - 2 ^ n| := Int.one_le_abs hne
      have hge' : (1 : ℚ) ≤ |3 * (k : ℚ) - 2 ^ n| := by exact_mod_cast hge
      have heq : r - 1 / 3 = (3 * (k : ℚ) - 2 ^ n) / (3 * 2 ^ n) := by rw [hr]; field_simp
      rw [heq, abs_div, abs_of_pos (by positivity : (0 : ℚ) < 3 * 2 ^ n), div_le_div_iff₀ (by positivity) (by positivity)]
      have h56 : (2 : ℚ) ^ n ≤ 2 ^ 56 := pow_le_pow_right₀ (by norm_num) hn56
      nlinarith
    · have h57 : (2 : ℚ) ^ 57 ≤ 2 ^ n := pow_le_pow_right₀ (by norm_num) (by omega)
      have hsmall : |r| ≤ 1 / 16 := by
        rw [hr, abs_mul, abs_inv, abs_of_pos hpos, ← div_eq_mul_inv, div_le_iff₀ hpos]
        linarith
      have h1 := (abs_le.1 hsmall).2
      rw [abs_of_neg (by linarith)]
      norm_num
      linarith
  · obtain ⟨n, rfl⟩ := Int.eq_ofNat_of_zero_le he
    have hint : r = ((k * 2 ^ n : ℤ) : ℚ) := by rw [hr]; push_cast; rw [zpow_natCast]
    rw [hint]
    generalize k * 2 ^ n = z
    rcases Int.lt_or_le z 1 with hz | hz
    · have : (z : ℚ) ≤ 0 := by exact_mod_cast (by omega : z ≤ 0)
      rw [abs_of_neg (by linarith)]
      norm_num
      linarith
    · have : (1 : ℚ) ≤ z := by exact_mod_cast hz
      rw [abs_of_pos (by linarith)]
      norm_num
      linarith

/-- 7 / 2 into a nil quotient of a memory with two numbers. -/
example : (oneThree.obj 0).val.num = some 1 ∧ (oneThree.obj 1).val.num = some 3 ∧ (0 : Nat) < oneThree.next := ⟨rfl, rfl, by decide⟩
example : (divBigVar sevenTwo 2 0 1 none).2 = (2, none) ∧ (divBigVar sevenTwo 2 0 1 none).1 2 = 4 := by decide

end Micro.MathInt
