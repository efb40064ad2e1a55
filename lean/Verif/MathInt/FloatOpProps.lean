import Verif.MathInt.FloatOpModel
import Verif.MathInt.FloatDivProps
import Verif.MathInt.Props
import Mathlib.Tactic.Positivity
import Mathlib.Tactic.Linarith
set_option linter.unusedSimpArgs false
/-
C130: Abs and Div of floats, Abs of big numbers.
-/
namespace Micro.MathInt
open Micro Micro.Conv

/-! Specification -/

/-- A value that a variable of the format can have. -/
def GoFlt.Of (f : Fmt) : GoFlt → Prop
  | .fin q => q ≠ 0 ∧ f.Has q
  | _ => True

/-- The number a finite value is. -/
def GoFlt.num : GoFlt → Option ℚ
  | .zero _ => some 0
  | .fin q => some q
  | _ => none

/-- The formats of Go. -/
def GoFmt (f : Fmt) : Prop := f = float32 ∨ f = float64

/-- The smallest number that is rounded to an infinity: half a unit above the largest finite number. -/
def overflowAt (f : Fmt) : ℚ := f.max + (2 : ℚ) ^ f.emax / 2

/-- r is the number of the format nearest to q, and if another number r' of the format is as near, r is an even multiple of the distance between
the two (round half to even). -/
def RoundHalfEven (f : Fmt) (q r : ℚ) : Prop :=
  f.Nearest q r ∧ ∀ r', f.Has r' → r' ≠ r → |r - q| = |r' - q| → ∃ n : ℤ, r = 2 * n * |r - r'|

/-! Lemmas -/

theorem rne_tie (x : ℚ) (n : ℤ) (hn : n ≠ rne x) (h : |(rne x : ℚ) - x| = |(n : ℚ) - x|) :
    (∃ k, rne x = 2 * k) ∧ |((rne x : ℚ)) - n| = 1 := by
  have h0 : (0 : ℚ) ≤ x - ⌊x⌋ := by linarith [Int.floor_le x]
  have h1 : x - ⌊x⌋ < 1 := by linarith [Int.lt_floor_add_one x]
  generalize hf : ⌊x⌋ = fl at *
  obtain ⟨t, ht⟩ : ∃ t, t = x - fl := ⟨_, rfl⟩
  have hx : x = fl + t := by rw [ht]; ring
  rw [← ht] at h0 h1
  unfold rne at hn h ⊢
  rw [hf] at hn h ⊢
  rw [← ht] at hn h ⊢
  -- the distance from n, as an integer distance from the floor
  have hd : ∀ r : ℤ, |(r : ℚ) - x| = |((r - fl : ℤ) : ℚ) - t| := by intro r; rw [hx]; congr 1; push_cast; ring
  have key : ∀ r : ℤ, r ≠ n → (r = fl ∧ t ≤ 1 / 2 ∨ r = fl + 1 ∧ 1 / 2 ≤ t) → |(r : ℚ) - x| = |(n : ℚ) - x| → t = 1 / 2 ∧ |(r : ℚ) - n| = 1 := by
    intro r hrn hr he
    rw [hd, hd] at he
    have hz : n - fl ≠ r - fl := by omega
    have hrn' : (r : ℚ) - n = ((r - fl : ℤ) : ℚ) - ((n - fl : ℤ) : ℚ) := by push_cast; ring
    rw [hrn']
    rcases hr with ⟨rfl, hle⟩ | ⟨rfl, hle⟩
    · generalize n - r = z at *
      simp only [sub_self, Int.cast_zero, zero_sub, abs_neg, abs_of_nonneg h0] at he ⊢
      rcases le_or_gt z 0 with hz0 | hz0
      · have : z ≤ -1 := by omega
        have : (z : ℚ) ≤ -1 := by exact_mod_cast this
        rw [abs_of_nonpos (by linarith)] at he
        linarith
      · have h1z : (1 : ℚ) ≤ z := by exact_mod_cast hz0
        rw [abs_of_nonneg (by linarith)] at he
        have hz2 : (z : ℚ) = 2 * t := by linarith
        have : (z : ℚ) ≤ 1 := by linarith
        have : (z : ℚ) = 1 := by linarith
        rw [this]
        exact ⟨by linarith, by norm_num⟩
    · have hs : fl + 1 - fl = 1 := by omega
      rw [hs] at he hz ⊢
      generalize n - fl = z at *
      rw [Int.cast_one, abs_of_nonneg (by linarith)] at he
      rw [Int.cast_one]
      rcases le_or_gt z 0 with hz0 | hz0
      · have hzq : (z : ℚ) ≤ 0 := by exact_mod_cast hz0
        rw [abs_of_nonpos (by linarith)] at he
        have : (0 : ℚ) ≤ z := by linarith
        have : (z : ℚ) = 0 := by linarith
        rw [this]
        exact ⟨by linarith, by norm_num⟩
      · have : 2 ≤ z := by omega
        have : (2 : ℚ) ≤ z := by exact_mod_cast this
        rw [abs_of_nonneg (by linarith)] at he
        linarith
  by_cases c1 : t < 1 / 2
  · rw [if_pos c1] at hn h
    exact absurd (key fl (Ne.symm hn) (Or.inl ⟨rfl, c1.le⟩) h).1 c1.ne
  · rw [if_neg c1] at hn h ⊢
    by_cases c2 : t > 1 / 2
    · rw [if_pos c2] at hn h
      exact absurd (key (fl + 1) (Ne.symm hn) (Or.inr ⟨rfl, le_of_lt c2⟩) h).1 (ne_of_gt c2)
    · rw [if_neg c2] at hn h ⊢
      by_cases c3 : fl % 2 = 0
      · rw [if_pos c3] at hn h ⊢
        exact ⟨⟨fl / 2, by omega⟩, (key fl (Ne.symm hn) (Or.inl ⟨rfl, not_lt.1 c2⟩) h).2⟩
      · rw [if_neg c3] at hn h ⊢
        exact ⟨⟨(fl + 1) / 2, by omega⟩, (key (fl + 1) (Ne.symm hn) (Or.inr ⟨rfl, not_lt.1 c1⟩) h).2⟩

theorem rne_half (x : ℚ) : |(rne x : ℚ) - x| ≤ 1 / 2 := by
  have h0 : (0 : ℚ) ≤ x - ⌊x⌋ := by linarith [Int.floor_le x]
  have h1 : x - ⌊x⌋ < 1 := by linarith [Int.lt_floor_add_one x]
  rw [abs_le]
  unfold rne
  split
  · constructor <;> linarith
  · rename_i c1
    split
    · push_cast; constructor <;> linarith
    · rename_i c2
      split
      · constructor <;> linarith
      · push_cast; constructor <;> linarith

/-- The exponent of the last place when q is rounded to the format. -/
def lastPlace (f : Fmt) (q : ℚ) : ℤ := max (Int.log 2 |q| - ((f.prec : ℤ) - 1)) f.emin

theorem roundFloat_eq (f : Fmt) {q : ℚ} (h0 : q ≠ 0) :
    roundFloat f q = rne (q / (2 : ℚ) ^ lastPlace f q) * (2 : ℚ) ^ lastPlace f q := by
  unfold roundFloat roundAt lastPlace
  rw [if_neg h0]
  norm_num

theorem scaled_lt (f : Fmt) {q : ℚ} : |q / (2 : ℚ) ^ lastPlace f q| < 2 ^ f.prec := by
  have hpe : (0 : ℚ) < (2 : ℚ) ^ lastPlace f q := by positivity
  have hlog := Int.lt_zpow_succ_log_self (b := 2) (by omega) |q|
  rw [abs_div, abs_of_pos hpe, div_lt_iff₀ hpe]
  calc |q| < (2 : ℚ) ^ (Int.log 2 |q| + 1) := by exact_mod_cast hlog
    _ ≤ (2 : ℚ) ^ ((f.prec : ℤ) + lastPlace f q) := zpow_le_zpow_right₀ (by norm_num) (by unfold lastPlace; omega)
    _ = _ := by rw [zpow_add₀ (by norm_num), zpow_natCast]

theorem rne_abs_le (x : ℚ) (n : ℤ) (h : |x| ≤ n) : |rne x| ≤ n := by
  rw [abs_le] at h ⊢
  exact ⟨rne_mono_int' _ _ (by push_cast; exact h.1), rne_mono_int _ _ h.2⟩

theorem two_pow_prec (f : Fmt) (hp : 1 ≤ f.prec) : (2 : ℚ) ^ f.prec = 2 * 2 ^ (f.prec - 1) := by
  obtain ⟨k, hk⟩ : ∃ k, f.prec = k + 1 := ⟨f.prec - 1, by omega⟩
  rw [hk, pow_succ]; simp; ring

/-- Below the limit the result is a number of the format. -/
theorem roundFloat_fits (f : Fmt) (hp : 1 ≤ f.prec) (hle : f.emin ≤ f.emax) {q : ℚ} (h : |q| < overflowAt f) :
    |roundFloat f q| ≤ f.max ∧ f.Has (roundFloat f q) := by
  by_cases h0 : q = 0
  · have : roundFloat f q = 0 := by simp [roundFloat, h0]
    rw [this]
    refine ⟨?_, 0, f.emin, by simp, by simp, le_refl _, hle⟩
    have h3 : (1 : ℚ) ≤ 2 ^ f.prec := one_le_pow₀ (by norm_num)
    unfold Fmt.max
    rw [abs_zero]
    have : (0 : ℚ) < 2 ^ f.emax := by positivity
    exact mul_nonneg (by linarith) this.le
  · have hemax : (0 : ℚ) < (2 : ℚ) ^ f.emax := by positivity
    have hov : overflowAt f = (2 ^ f.prec - 1 / 2) * (2 : ℚ) ^ f.emax := by unfold overflowAt Fmt.max; ring
    have hE : lastPlace f q ≤ f.emax := by
      have hlt : |q| < (2 : ℚ) ^ ((f.prec : ℤ) + f.emax) := by
        rw [zpow_add₀ (by norm_num), zpow_natCast]
        refine h.trans_le ?_
        rw [hov]
        exact mul_le_mul_of_nonneg_right (by linarith) hemax.le
      have := (Int.lt_zpow_iff_log_lt (b := 2) (by omega) (abs_pos.2 h0)).1 (by exact_mod_cast hlt)
      unfold lastPlace
      omega
    have hmin : f.emin ≤ lastPlace f q := by unfold lastPlace; omega
    have hsc := scaled_lt f (q := q)
    have hhalf := rne_half (q / (2 : ℚ) ^ lastPlace f q)
    have heq := roundFloat_eq f h0
    have hqe : |q| = |q / (2 : ℚ) ^ lastPlace f q| * (2 : ℚ) ^ lastPlace f q := by
      rw [abs_div, abs_of_pos (show (0 : ℚ) < (2 : ℚ) ^ lastPlace f q by positivity), div_mul_cancel₀ _ (by positivity)]
    generalize hx : q / (2 : ℚ) ^ lastPlace f q = x at *
    generalize lastPlace f q = e at *
    have hpe : (0 : ℚ) < (2 : ℚ) ^ e := by positivity
    have hm : |rne x| ≤ 2 ^ f.prec := rne_abs_le x _ (by push_cast; exact hsc.le)
    have hmq : |(rne x : ℚ)| ≤ 2 ^ f.prec := by exact_mod_cast hm
    rcases lt_or_eq_of_le hE with hlt | heqe
    · -- a smaller exponent
      have hpow : (2 : ℚ) ^ e * 2 ≤ (2 : ℚ) ^ f.emax := by
        rw [← zpow_add_one₀ (by norm_num)]
        exact zpow_le_zpow_right₀ (by norm_num) (by omega)
      have hpp := two_pow_prec f hp
      have hpp1 : (1 : ℚ) ≤ 2 ^ (f.prec - 1) := one_le_pow₀ (by norm_num)
      constructor
      · rw [heq, abs_mul, abs_of_pos hpe]
        unfold Fmt.max
        calc |(rne x : ℚ)| * 2 ^ e ≤ 2 ^ f.prec * 2 ^ e := mul_le_mul_of_nonneg_right hmq hpe.le
          _ = 2 ^ (f.prec - 1) * (2 ^ e * 2) := by rw [hpp]; ring
          _ ≤ 2 ^ (f.prec - 1) * 2 ^ f.emax := mul_le_mul_of_nonneg_left hpow (by positivity)
          _ ≤ _ := mul_le_mul_of_nonneg_right (by linarith) hemax.le
      · by_cases hin : |rne x| < 2 ^ f.prec
        · exact ⟨rne x, e, heq, hin, hmin, hE⟩
        · have hEq : |rne x| = 2 ^ f.prec := le_antisymm hm (not_lt.1 hin)
          have h2k : |(2 : ℤ) ^ (f.prec - 1)| < 2 ^ f.prec := by
            rw [abs_of_pos (by positivity)]
            exact pow_lt_pow_right₀ (by norm_num) (by omega)
          rcases abs_choice (rne x) with hc | hc <;> rw [hc] at hEq
          · refine ⟨2 ^ (f.prec - 1), e + 1, ?_, h2k, by omega, by omega⟩
            rw [heq, hEq, zpow_add_one₀ (by norm_num)]
            push_cast
            rw [hpp]; ring
          · have : rne x = -2 ^ f.prec := by omega
            refine ⟨-2 ^ (f.prec - 1), e + 1, ?_, by rwa [abs_neg], by omega, by omega⟩
            rw [heq, this, zpow_add_one₀ (by norm_num)]
            push_cast
            rw [hpp]; ring
    · -- the largest exponent
      rw [heqe] at hqe heq hpe hmin hE
      have hxl : |x| < 2 ^ f.prec - 1 / 2 := by
        rw [hqe, hov] at h
        exact lt_of_mul_lt_mul_right h hemax.le
      have hin : |rne x| < 2 ^ f.prec := by
        have h1 : |(rne x : ℚ)| < 2 ^ f.prec := by
          have := abs_sub_abs_le_abs_sub (rne x : ℚ) x
          linarith
        exact_mod_cast h1
      have hin' : |(rne x : ℚ)| ≤ 2 ^ f.prec - 1 := by
        have : |rne x| ≤ 2 ^ f.prec - 1 := by omega
        exact_mod_cast this
      refine ⟨?_, rne x, f.emax, heq, hin, hmin, le_refl _⟩
      rw [heq, abs_mul, abs_of_pos hemax]
      exact mul_le_mul_of_nonneg_right hin' hemax.le

/-- From the limit on the result is too large. -/
theorem roundFloat_over (f : Fmt) (hp : 1 ≤ f.prec) (hle : f.emin ≤ f.emax) {q : ℚ} (h : overflowAt f ≤ |q|) :
    f.max < |roundFloat f q| := by
  have hemax : (0 : ℚ) < (2 : ℚ) ^ f.emax := by positivity
  have hov : overflowAt f = (2 ^ f.prec - 1 / 2) * (2 : ℚ) ^ f.emax := by unfold overflowAt Fmt.max; ring
  have hpp := two_pow_prec f hp
  have hpp1 : (1 : ℚ) ≤ 2 ^ (f.prec - 1) := one_le_pow₀ (by norm_num)
  have h0 : q ≠ 0 := by
    rintro rfl
    rw [hov, abs_zero] at h
    have : (0 : ℚ) < (2 ^ f.prec - 1 / 2) * (2 : ℚ) ^ f.emax := mul_pos (by linarith) hemax
    linarith
  have hqp : 0 < |q| := abs_pos.2 h0
  have hL : (f.prec : ℤ) - 1 + f.emax ≤ Int.log 2 |q| := by
    have : (2 : ℚ) ^ ((f.prec : ℤ) - 1 + f.emax) ≤ |q| := by
      refine le_trans ?_ h
      rw [hov, zpow_add₀ (by norm_num)]
      refine mul_le_mul_of_nonneg_right ?_ hemax.le
      have : ((f.prec : ℤ) - 1) = ((f.prec - 1 : ℕ) : ℤ) := by omega
      rw [this, zpow_natCast, hpp]
      linarith
    exact (Int.zpow_le_iff_le_log (b := 2) (by omega) hqp).1 (by exact_mod_cast this)
  have hlp : lastPlace f q = Int.log 2 |q| - ((f.prec : ℤ) - 1) := by unfold lastPlace; omega
  have heq := roundFloat_eq f h0
  have hlog : (2 : ℚ) ^ Int.log 2 |q| ≤ |q| := by exact_mod_cast Int.zpow_log_le_self (b := 2) (by omega) hqp
  have hpe : (0 : ℚ) < (2 : ℚ) ^ lastPlace f q := by positivity
  have hqe : |q| = |q / (2 : ℚ) ^ lastPlace f q| * (2 : ℚ) ^ lastPlace f q := by
    rw [abs_div, abs_of_pos hpe, div_mul_cancel₀ _ hpe.ne']
  have hhalf := rne_half (q / (2 : ℚ) ^ lastPlace f q)
  have htie := rne_tie (q / (2 : ℚ) ^ lastPlace f q)
  have hmi := rne_mono_int (q / (2 : ℚ) ^ lastPlace f q)
  have hmi' := rne_mono_int' (q / (2 : ℚ) ^ lastPlace f q)
  generalize q / (2 : ℚ) ^ lastPlace f q = x at *
  rw [heq, abs_mul, abs_of_pos hpe]
  unfold Fmt.max
  rcases lt_or_eq_of_le (show f.emax ≤ lastPlace f q by rw [hlp]; omega) with hlt | heqe
  · -- beyond the largest exponent
    have hx : (2 : ℚ) ^ (f.prec - 1) ≤ |x| := by
      rw [hqe] at hlog
      have : (2 : ℚ) ^ Int.log 2 |q| = 2 ^ (f.prec - 1) * (2 : ℚ) ^ lastPlace f q := by
        rw [← zpow_natCast, ← zpow_add₀ (by norm_num)]
        congr 1
        rw [hlp]; omega
      rw [← hqe, this, hqe] at hlog
      exact le_of_mul_le_mul_right hlog hpe
    have hr : (2 : ℚ) ^ (f.prec - 1) ≤ |(rne x : ℚ)| := by
      rcases le_total 0 x with hx0 | hx0
      · rw [abs_of_nonneg hx0] at hx
        have := hmi' (2 ^ (f.prec - 1)) (by push_cast; exact hx)
        have h2 : (2 : ℚ) ^ (f.prec - 1) ≤ (rne x : ℚ) := by exact_mod_cast this
        exact h2.trans (le_abs_self _)
      · rw [abs_of_nonpos hx0] at hx
        have := hmi (-2 ^ (f.prec - 1)) (by push_cast; linarith)
        have h2 : (rne x : ℚ) ≤ -(2 : ℚ) ^ (f.prec - 1) := by exact_mod_cast this
        have := neg_abs_le (rne x : ℚ)
        linarith
    have hpow : (2 : ℚ) ^ f.emax * 2 ≤ (2 : ℚ) ^ lastPlace f q := by
      rw [← zpow_add_one₀ (by norm_num)]
      exact zpow_le_zpow_right₀ (by norm_num) (by omega)
    calc (2 ^ f.prec - 1) * (2 : ℚ) ^ f.emax < 2 ^ f.prec * 2 ^ f.emax := mul_lt_mul_of_pos_right (by linarith) hemax
      _ = 2 ^ (f.prec - 1) * (2 ^ f.emax * 2) := by rw [hpp]; ring
      _ ≤ 2 ^ (f.prec - 1) * 2 ^ lastPlace f q := mul_le_mul_of_nonneg_left hpow (by positivity)
      _ ≤ _ := mul_le_mul_of_nonneg_right hr hpe.le
  · rw [← heqe] at hqe hpe ⊢
    refine mul_lt_mul_of_pos_right ?_ hemax
    have hxl : 2 ^ f.prec - 1 / 2 ≤ |x| := by
      rw [hqe, hov] at h
      exact le_of_mul_le_mul_right h hemax
    by_contra hcon
    have hcon : |(rne x : ℚ)| ≤ 2 ^ f.prec - 1 := not_lt.1 hcon
    have hb := abs_sub_abs_le_abs_sub x (rne x : ℚ)
    rw [abs_sub_comm] at hb
    have hxe : |x| = 2 ^ f.prec - 1 / 2 := by linarith
    have hre : |(rne x : ℚ)| = 2 ^ f.prec - 1 := by linarith
    have hodd : ¬ ∃ k, rne x = 2 * k := by
      rintro ⟨k, hk⟩
      have h1 : |rne x| = 2 ^ f.prec - 1 := by exact_mod_cast hre
      have h2 : (2 : ℤ) ^ f.prec = 2 * 2 ^ (f.prec - 1) := by exact_mod_cast hpp
      rw [h2] at h1
      rcases abs_choice (rne x) with hc | hc <;> rw [hc] at h1 <;> omega
    have hh : |(rne x : ℚ) - x| = 1 / 2 := le_antisymm hhalf (by linarith)
    rcases le_total 0 x with hx0 | hx0
    · rw [abs_of_nonneg hx0] at hxe
      have hr0 : 0 ≤ rne x := hmi' 0 (by simpa using hx0)
      have hr0q : (0 : ℚ) ≤ rne x := by exact_mod_cast hr0
      rw [abs_of_nonneg hr0q] at hre
      refine hodd (htie (2 ^ f.prec) (fun hn => ?_) ?_).1
      · have : ((2 ^ f.prec : ℤ) : ℚ) = rne x := by rw [hn]
        push_cast at this
        linarith
      · rw [hh, hxe]; push_cast; rw [abs_of_nonneg (by linarith)]; ring
    · rw [abs_of_nonpos hx0] at hxe
      have hr0 : rne x ≤ 0 := hmi 0 (by simpa using hx0)
      have hr0q : (rne x : ℚ) ≤ 0 := by exact_mod_cast hr0
      rw [abs_of_nonpos hr0q] at hre
      have hxv : x = -(2 ^ f.prec - 1 / 2) := by linarith
      refine hodd (htie (-2 ^ f.prec) (fun hn => ?_) ?_).1
      · have : ((-2 ^ f.prec : ℤ) : ℚ) = rne x := by rw [hn]
        push_cast at this
        linarith
      · rw [hh, hxv]; push_cast; rw [abs_of_nonpos (by linarith)]; ring

/-- No number of the format is nearer than the result, and a number as near is an odd multiple. -/
theorem roundFloat_compare (f : Fmt) (hp : 1 ≤ f.prec) {q : ℚ} (r' : ℚ) (hr' : f.Has r') :
    |roundFloat f q - q| ≤ |r' - q| ∧
    (r' ≠ roundFloat f q → |roundFloat f q - q| = |r' - q| → ∃ n : ℤ, roundFloat f q = 2 * n * |roundFloat f q - r'|) := by
  by_cases h0 : q = 0
  · have : roundFloat f q = 0 := by simp [roundFloat, h0]
    rw [this, h0]
    exact ⟨by simp, fun _ _ => ⟨0, by simp⟩⟩
  · obtain ⟨m', e', hq', hm', he', -⟩ := hr'
    have hpos : 0 < |q| := abs_pos.2 h0
    have hlog : (2 : ℚ) ^ Int.log 2 |q| ≤ |q| := by exact_mod_cast Int.zpow_log_le_self (b := 2) (by omega) hpos
    have heq := roundFloat_eq f h0
    have hpe : (0 : ℚ) < (2 : ℚ) ^ lastPlace f q := by positivity
    have key : ∀ z : ℚ, |z * (2 : ℚ) ^ lastPlace f q - q| = |z - q / (2 : ℚ) ^ lastPlace f q| * (2 : ℚ) ^ lastPlace f q := by
      intro z
      rw [← abs_of_pos hpe, ← abs_mul, abs_of_pos hpe]
      congr 1
      rw [sub_mul, div_mul_cancel₀ _ hpe.ne']
    have hnear : ∀ n : ℤ, |roundFloat f q - q| ≤ |(n : ℚ) * (2 : ℚ) ^ lastPlace f q - q| := fun n => by
      rw [heq, key, key]
      exact mul_le_mul_of_nonneg_right (rne_near _ n) hpe.le
    rcases lt_or_ge e' (lastPlace f q) with hlt | hge
    · have hE : lastPlace f q = Int.log 2 |q| - ((f.prec : ℤ) - 1) := by unfold lastPlace at hlt ⊢; omega
      have hr'abs : |r'| < (2 : ℚ) ^ Int.log 2 |q| := by
        rw [hq', abs_mul, abs_of_pos (show (0 : ℚ) < 2 ^ e' by positivity)]
        calc |(m' : ℚ)| * 2 ^ e' < (2 : ℚ) ^ (f.prec : ℤ) * 2 ^ e' := by
              refine mul_lt_mul_of_pos_right ?_ (by positivity)
              rw [zpow_natCast]; exact_mod_cast hm'
          _ = (2 : ℚ) ^ ((f.prec : ℤ) + e') := by rw [zpow_add₀ (by norm_num)]
          _ ≤ _ := zpow_le_zpow_right₀ (by norm_num) (by omega)
      have h2L : (2 : ℚ) ^ Int.log 2 |q| = ((2 ^ (f.prec - 1) : ℤ) : ℚ) * (2 : ℚ) ^ lastPlace f q := by
        push_cast
        rw [← zpow_natCast, ← zpow_add₀ (by norm_num)]
        congr 1
        rw [hE]; omega
      have hstrict : |roundFloat f q - q| < |r' - q| := by
        have hn1 := hnear (2 ^ (f.prec - 1))
        have hn2 := hnear (-2 ^ (f.prec - 1))
        have hneg : ((-2 ^ (f.prec - 1) : ℤ) : ℚ) * (2 : ℚ) ^ lastPlace f q = -(2 : ℚ) ^ Int.log 2 |q| := by rw [h2L]; push_cast; ring
        rw [← h2L] at hn1
        rw [hneg] at hn2
        clear hneg h2L hnear key heq hpe hE hlt hq'
        generalize (2 : ℚ) ^ Int.log 2 |q| = t at *
        rcases le_or_gt 0 q with hq | hq
        · rw [abs_of_nonneg hq] at hlog
          refine hn1.trans_lt ?_
          have := le_abs_self r'
          rw [abs_of_nonpos (by linarith), abs_of_nonpos (by linarith)]
          linarith
        · rw [abs_of_neg hq] at hlog
          refine hn2.trans_lt ?_
          have := neg_abs_le r'
          rw [abs_of_nonneg (by linarith), abs_of_nonneg (by linarith)]
          linarith
      exact ⟨hstrict.le, fun _ h => absurd h hstrict.ne⟩
    · obtain ⟨n, hn⟩ := mul_of_le (b := 2) (by omega) hge m'
      have hrn : r' = n * (2 : ℚ) ^ lastPlace f q := by
        rw [hq']
        have : (m' : ℚ) * ((2 : ℕ) : ℚ) ^ e' = n * ((2 : ℕ) : ℚ) ^ lastPlace f q := hn
        exact_mod_cast this
      refine ⟨by rw [hrn]; exact hnear n, fun hne htie => ?_⟩
      rw [hrn, heq, key, key] at htie
      have htie' := mul_right_cancel₀ hpe.ne' htie
      have hnr : n ≠ rne (q / (2 : ℚ) ^ lastPlace f q) := fun h => hne (by rw [hrn, heq, h])
      obtain ⟨⟨k, hk⟩, hd⟩ := rne_tie _ n hnr htie'
      refine ⟨k, ?_⟩
      rw [hrn, heq, ← sub_mul, abs_mul, hd, abs_of_pos hpe, one_mul, hk]
      push_cast
      ring

theorem goFmt_ok {f : Fmt} (h : GoFmt f) : 1 ≤ f.prec ∧ f.emin ≤ f.emax := by
  rcases h with rfl | rfl <;> simp [float32, float64]

/-- Rounding of an exact result: what the value is. -/
theorem ieeeRound_spec {f : Fmt} (hf : GoFmt f) (q : ℚ) (h0 : q ≠ 0) :
    (ieeeRound f q).Of f ∧ (ieeeRound f q).neg = decide (q < 0) ∧ ieeeRound f q ≠ .nan ∧
    (|q| < overflowAt f → (ieeeRound f q).num = some (roundFloat f q)) ∧
    (overflowAt f ≤ |q| → ieeeRound f q = .inf (decide (q < 0))) := by
  obtain ⟨hp, hle⟩ := goFmt_ok hf
  rcases lt_or_ge |q| (overflowAt f) with h | h
  · obtain ⟨h1, h2⟩ := roundFloat_fits f hp hle h
    unfold ieeeRound
    simp only
    rw [if_neg (not_lt.2 h1)]
    by_cases hr : roundFloat f q = 0
    · rw [if_pos hr]
      exact ⟨trivial, rfl, by simp, fun _ => by rw [hr]; rfl, fun hh => absurd h (not_lt.2 hh)⟩
    · rw [if_neg hr]
      refine ⟨⟨hr, h2⟩, ?_, by simp, fun _ => rfl, fun hh => absurd h (not_lt.2 hh)⟩
      show decide (roundFloat f q < 0) = decide (q < 0)
      have hpe : (0 : ℚ) < (2 : ℚ) ^ lastPlace f q := by positivity
      have heq := roundFloat_eq f h0
      congr 1
      rw [eq_iff_iff]
      rcases lt_or_gt_of_ne h0 with hq | hq
      · have : rne (q / (2 : ℚ) ^ lastPlace f q) ≤ 0 := rne_mono_int _ 0 (by push_cast; exact (div_neg_of_neg_of_pos hq hpe).le)
        have h3 : (rne (q / (2 : ℚ) ^ lastPlace f q) : ℚ) ≤ 0 := by exact_mod_cast this
        have h4 : roundFloat f q ≤ 0 := by rw [heq]; exact mul_nonpos_of_nonpos_of_nonneg h3 hpe.le
        exact ⟨fun _ => hq, fun _ => lt_of_le_of_ne h4 hr⟩
      · have : 0 ≤ rne (q / (2 : ℚ) ^ lastPlace f q) := rne_mono_int' _ 0 (by push_cast; exact (div_pos hq hpe).le)
        have h3 : (0 : ℚ) ≤ (rne (q / (2 : ℚ) ^ lastPlace f q) : ℚ) := by exact_mod_cast this
        have h4 : 0 ≤ roundFloat f q := by rw [heq]; exact mul_nonneg h3 hpe.le
        exact ⟨fun hh => absurd hh (not_lt.2 h4), fun hh => absurd hh (not_lt.2 hq.le)⟩
  · have h1 := roundFloat_over f hp hle h
    unfold ieeeRound
    simp only
    rw [if_pos h1]
    exact ⟨trivial, rfl, by simp, fun hh => absurd hh (not_lt.2 h), fun _ => rfl⟩

theorem roundFloat_halfEven {f : Fmt} (hf : GoFmt f) (q : ℚ) (h : |q| < overflowAt f) : RoundHalfEven f q (roundFloat f q) := by
  obtain ⟨hp, hle⟩ := goFmt_ok hf
  exact ⟨⟨(roundFloat_fits f hp hle h).2, fun r' hr' => (roundFloat_compare f hp r' hr').1⟩,
    fun r' hr' hne ht => (roundFloat_compare f hp r' hr').2 hne ht⟩

/-! Theorems -/

/-- The value is an infinity. -/
def GoFlt.IsInf (x : GoFlt) : Prop := ∃ n, x = .inf n

/-- C130: Div of floats never returns an error, not even for a zero divisor. The quotient is a value of the type; it is NaN exactly if an operand
is NaN, both are zero or both are infinite; otherwise its sign bit is set exactly if those of the operands differ. -/
theorem c130_div (f : Fmt) (hf : GoFmt f) (x y cur : GoFlt) (hx : x.Of f) (hy : y.Of f) :
    (divF f x y cur).2 = none ∧ (divF f x y cur).1.Of f ∧
    ((divF f x y cur).1 = .nan ↔ x = .nan ∨ y = .nan ∨ (x.num = some 0 ∧ y.num = some 0) ∨ (x.IsInf ∧ y.IsInf)) ∧
    ((divF f x y cur).1 ≠ .nan → (divF f x y cur).1.neg = (x.neg != y.neg)) := by
  cases x with
  | fin a =>
    cases y with
    | fin b =>
      obtain ⟨ha, -⟩ := hx
      obtain ⟨hb, -⟩ := hy
      obtain ⟨h1, h2, h3, -, -⟩ := ieeeRound_spec hf (a / b) (div_ne_zero ha hb)
      refine ⟨rfl, h1, ?_, fun _ => ?_⟩
      · show ieeeRound f (a / b) = .nan ↔ _
        simp [h3, GoFlt.num, ha, hb, GoFlt.IsInf]
      · show (ieeeRound f (a / b)).neg = _
        rw [h2]
        show decide (a / b < 0) = (decide (a < 0) != decide (b < 0))
        rcases lt_or_gt_of_ne ha with ha' | ha' <;> rcases lt_or_gt_of_ne hb with hb' | hb'
        · simp [ha', hb', not_lt.2 (div_pos_of_neg_of_neg ha' hb').le]
        · simp [ha', not_lt.2 hb'.le, div_neg_of_neg_of_pos ha' hb']
        · simp [not_lt.2 ha'.le, hb', div_neg_of_pos_of_neg ha' hb']
        · simp [not_lt.2 ha'.le, not_lt.2 hb'.le, not_lt.2 (div_pos ha' hb').le]
    | _ => obtain ⟨ha, -⟩ := hx; simp [divF, ieeeQuo, GoFlt.Of, GoFlt.num, GoFlt.neg, GoFlt.IsInf, ha]
  | zero n => cases y <;> simp_all [divF, ieeeQuo, GoFlt.Of, GoFlt.num, GoFlt.neg, GoFlt.IsInf]
  | inf n => cases y <;> simp [divF, ieeeQuo, GoFlt.Of, GoFlt.num, GoFlt.neg, GoFlt.IsInf]
  | nan => cases y <;> simp [divF, ieeeQuo, GoFlt.Of, GoFlt.num, GoFlt.neg, GoFlt.IsInf]

example := c130_div float64 (.inr rfl) (.inf true) (.zero false) .nan trivial trivial

/-- C130: finite operands, the divisor not zero: the exact quotient rounded half to even; from half a unit above the largest number of the type on it is
an infinity. -/
theorem c130_div_finite (f : Fmt) (hf : GoFmt f) (x y cur : GoFlt) (a b : ℚ) (hx : x.num = some a) (hy : y.num = some b) (hb : b ≠ 0) :
    (|a / b| < overflowAt f → ∃ r, (divF f x y cur).1.num = some r ∧ RoundHalfEven f (a / b) r) ∧
    (overflowAt f ≤ |a / b| → (divF f x y cur).1.IsInf) := by
  have hy' : y = .fin b := by
    cases y <;> simp [GoFlt.num] at hy
    · exact absurd hy.symm hb
    · rw [hy]
  subst hy'
  cases x with
  | zero n =>
    simp only [GoFlt.num, Option.some.injEq] at hx
    subst hx
    rw [zero_div]
    have h0 : (0 : ℚ) < overflowAt f := by
      have h3 : (1 : ℚ) ≤ 2 ^ f.prec := one_le_pow₀ (by norm_num)
      have : (0 : ℚ) < 2 ^ f.emax := by positivity
      unfold overflowAt Fmt.max
      have := mul_nonneg (by linarith : (0 : ℚ) ≤ 2 ^ f.prec - 1) this.le
      linarith
    refine ⟨fun h => ⟨0, rfl, ?_⟩, fun h => ?_⟩
    · have := roundFloat_halfEven hf 0 h
      simpa [roundFloat] using this
    · rw [abs_zero] at h; linarith
  | fin a' =>
    simp only [GoFlt.num, Option.some.injEq] at hx
    subst hx
    show (_ → ∃ r, (ieeeRound f (a' / b)).num = some r ∧ _) ∧ (_ → (ieeeRound f (a' / b)).IsInf)
    by_cases ha : a' = 0
    · subst ha
      rw [zero_div]
      have hmax : (0 : ℚ) ≤ f.max := by
        have h3 : (1 : ℚ) ≤ 2 ^ f.prec := one_le_pow₀ (by norm_num)
        have : (0 : ℚ) < 2 ^ f.emax := by positivity
        unfold Fmt.max
        exact mul_nonneg (by linarith) this.le
      have h0 : (0 : ℚ) < overflowAt f := by
        have : (0 : ℚ) < 2 ^ f.emax := by positivity
        unfold overflowAt
        linarith
      have hr : roundFloat f 0 = 0 := by simp [roundFloat]
      refine ⟨fun h => ⟨0, ?_, ?_⟩, fun h => ?_⟩
      · unfold ieeeRound
        simp [hr, not_lt.2 hmax, GoFlt.num]
      · simpa [hr] using roundFloat_halfEven hf 0 h
      · rw [abs_zero] at h; linarith
    · obtain ⟨-, -, -, h4, h5⟩ := ieeeRound_spec hf (a' / b) (div_ne_zero ha hb)
      exact ⟨fun h => ⟨_, h4 h, roundFloat_halfEven hf _ h⟩, fun h => ⟨_, h5 h⟩⟩
  | nan => simp [GoFlt.num] at hx
  | inf n => simp [GoFlt.num] at hx

example := c130_div_finite float64 (.inr rfl) (.fin 1) (.fin 3) .nan 1 3 rfl rfl (by norm_num)

/-- C130: the other quotients: a number other than 0 by zero and an infinity by a finite number are infinite, a finite number by an infinity is zero. -/
theorem c130_div_special (f : Fmt) (x y cur : GoFlt) :
    (x ≠ .nan → (x.num ≠ some 0) → y.num = some 0 → (∀ q, y ≠ .fin q) → (divF f x y cur).1.IsInf) ∧
    (x.IsInf → y ≠ .nan → ¬ y.IsInf → (divF f x y cur).1.IsInf) ∧
    (x.num ≠ none → y.IsInf → (divF f x y cur).1.num = some 0) := by
  cases x <;> cases y <;> simp [divF, ieeeQuo, GoFlt.num, GoFlt.IsInf]

/-- The absolute value: never a sign, the same magnitude. -/
def AbsOf (x r : GoFlt) : Prop :=
  (x = .nan ∧ r = .nan) ∨ (x.IsInf ∧ r = .inf false) ∨ (x.num = some 0 ∧ r = .zero false) ∨ (∃ q, x = .fin q ∧ r = .fin |q|)

theorem has_abs {f : Fmt} {q : ℚ} (h : f.Has q) : f.Has |q| := by
  obtain ⟨m, e, rfl, h1, h2, h3⟩ := h
  refine ⟨|m|, e, ?_, by rwa [abs_abs], h2, h3⟩
  rw [abs_mul, abs_of_pos (show (0 : ℚ) < 2 ^ e by positivity)]
  push_cast; ring

theorem has_mono {q : ℚ} (h : float32.Has q) : float64.Has q := by
  obtain ⟨m, e, rfl, h1, h2, h3⟩ := h
  simp only [float32, float64, Fmt.Has] at *
  refine ⟨m, e, rfl, ?_, by omega, by omega⟩
  exact h1.trans (pow_lt_pow_right₀ (by norm_num) (by norm_num))

theorem has_le_max {f : Fmt} {q : ℚ} (h : f.Has q) : |q| ≤ f.max := by
  obtain ⟨m, e, rfl, h1, -, h3⟩ := h
  rw [abs_mul, abs_of_pos (show (0 : ℚ) < 2 ^ e by positivity)]
  unfold Fmt.max
  have h4 : |(m : ℚ)| ≤ 2 ^ f.prec - 1 := by
    have : |m| ≤ 2 ^ f.prec - 1 := by omega
    exact_mod_cast this
  exact mul_le_mul h4 (zpow_le_zpow_right₀ (by norm_num) h3) (by positivity) ((abs_nonneg _).trans h4)

theorem toFmt_of {f : Fmt} {x : GoFlt} (h : x.Of f) : toFmt f x = x := by
  cases x with
  | fin q =>
    obtain ⟨h1, h2⟩ := h
    simp only [toFmt, ieeeRound, roundFloat_exact h2]
    rw [if_neg (not_lt.2 (has_le_max h2)), if_neg h1]
  | _ => rfl

/-- C130: Abs of a float64 and of a float32 never fails; it gives the same magnitude without a sign (+0 for -0, +Inf for -Inf), and NaN for NaN. The way
through float64 does not change a float32. -/
theorem c130_abs (x : GoFlt) :
    ((absF64 x).2 = none ∧ (x.Of float64 → AbsOf x (absF64 x).1 ∧ (absF64 x).1.Of float64)) ∧
    ((absF32 x).2 = none ∧ (x.Of float32 → AbsOf x (absF32 x).1 ∧ (absF32 x).1.Of float32)) := by
  have hA : AbsOf x (f64Abs x) := by
    cases x <;> simp [AbsOf, f64Abs, GoFlt.IsInf, GoFlt.num]
  have hO : ∀ f, x.Of f → (f64Abs x).Of f := by
    intro f h
    cases x with
    | fin q => exact ⟨abs_ne_zero.2 h.1, has_abs h.2⟩
    | _ => trivial
  refine ⟨⟨rfl, fun h => ⟨hA, hO _ h⟩⟩, rfl, fun h => ?_⟩
  have h64 : x.Of float64 := by
    cases x with
    | fin q => exact ⟨h.1, has_mono h.2⟩
    | _ => trivial
  have : (absF32 x).1 = f64Abs x := by
    show toFmt float32 (f64Abs (toFmt float64 x)) = _
    rw [toFmt_of h64, toFmt_of (hO _ h)]
  rw [this]
  exact ⟨hA, hO _ h⟩

/-- C130: Abs of a *big.Int or *big.Rat variable changes the number it points to: every variable with the same pointer has the absolute value
afterwards, all other numbers are unchanged. It panics exactly for a nil pointer. -/
theorem c130_absBig (m : Nat → ℤ) (mr : Nat → ℚ) (p : Option Nat) :
    (absBigMem m p = none ↔ p = none) ∧ (absBigMem mr p = none ↔ p = none) ∧
    (∀ a, p = some a → (∃ m', absBigMem m p = some m' ∧ ∀ b, m' b = if b = a then |m b| else m b) ∧
      (∃ m', absBigMem mr p = some m' ∧ ∀ b, m' b = if b = a then |mr b| else mr b)) := by
  refine ⟨by simp [absBigMem], by simp [absBigMem], ?_⟩
  rintro a rfl
  constructor <;> refine ⟨_, rfl, fun b => ?_⟩ <;> by_cases hb : b = a
  · subst hb; simp
  · simp [hb, Function.update_of_ne hb]
  · subst hb; simp
  · simp [hb, Function.update_of_ne hb]

/-- C130: the same for *big.Float; the precision stays, and so does the magnitude. -/
theorem c130_absBigFloat (m : BFMem) (p : Option Nat) :
    (absFloatMem m p = none ↔ p = none) ∧
    (∀ a, p = some a → ∃ m', absFloatMem m p = some m' ∧ (∀ b, b ≠ a → m'.obj b = m.obj b) ∧ (m'.obj a).prec = (m.obj a).prec ∧
      (m'.obj a).val.neg = false ∧ (m'.obj a).val.num = (m.obj a).val.num.map (|·|)) := by
  refine ⟨by simp [absFloatMem], ?_⟩
  rintro a rfl
  refine ⟨_, rfl, fun b hb => by simp [Function.update_of_ne hb], by simp, ?_⟩
  simp only [Function.update_self]
  cases (m.obj a).val <;> simp [BFVal.neg, BFVal.num]

/-- Cases: 1/3 in float32 is rounded; 1 by -0 is -Inf; the largest float64 divided by 1/2 is +Inf. -/
example : GoFlt.Of float64 (.fin 3) ∧ GoFlt.num (.fin 3) = some 3 ∧ (divF float64 (.fin 1) (.zero true) .nan).1 = .inf true ∧
    overflowAt float64 ≤ |float64.max / (1 / 2)| := by
  refine ⟨⟨by norm_num, 3, 0, by norm_num, by simp [float64], by simp [float64], by simp [float64]⟩, rfl, rfl, ?_⟩
  have h : (0 : ℚ) < (2 : ℚ) ^ float64.emax := by positivity
  have h2 : (1 : ℚ) ≤ 2 ^ float64.prec - 1 := by simp [float64]; norm_num
  have h3 : (2 : ℚ) ^ float64.emax ≤ float64.max := by
    unfold Fmt.max
    exact le_mul_of_one_le_left h.le h2
  unfold overflowAt
  rw [abs_of_pos (by linarith)]
  linarith

end Micro.MathInt
