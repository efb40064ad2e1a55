import Verif.Stream.ParFloatModel
import Verif.Stream.ParProps
import Verif.Conv.FloatLemmas
import Mathlib.Data.Real.Sqrt
import Mathlib.Data.Set.Finite.Lattice
import Mathlib.Tactic.Linarith
import Mathlib.Tactic.Positivity
import Mathlib.Tactic.NormNum
/-
C41: the ranges are the ones of the exact computation although the sizes are computed with float64 numbers.
-/
namespace Micro.Stream
open Micro Micro.Conv

/-- math.Sqrt is correctly rounded: the result is a float64, and no float64 is nearer to the square root. -/
def CorrectSqrt (sqrt : ℚ → ℚ) : Prop :=
  ∀ q, 0 ≤ q → float64.Has q → float64.Has (sqrt q) ∧ ∀ y, float64.Has y → |(sqrt q : ℝ) - √(q : ℝ)| ≤ |(y : ℝ) - √(q : ℝ)|

theorem has_int (i : Int) (h : |i| < 9007199254740992) : float64.Has i :=
  ⟨i, 0, by simp, by simpa [float64] using h, by norm_num [float64], by norm_num [float64]⟩

theorem clampFloat_eq (n : Nat) (hn : n < 9007199254740992) (N : Int) (hN : Kind.int64.InRange N) : clampFloat n N = clampN n N := by
  have hN' : -9223372036854775808 ≤ N ∧ N ≤ 9223372036854775807 := hN
  have e1 : roundFloat float64 (n : ℚ) = n := by
    have := roundFloat_exact (has_int n (by rw [abs_of_nonneg (by omega)]; omega))
    simpa using this
  have hnear := roundFloat_nearest float64 (by norm_num [float64]) (by norm_num [float64]) (q := N) (by
    have : |(N : ℚ)| ≤ 9223372036854775808 := by
      rw [abs_le]; constructor
      · exact_mod_cast hN'.1
      · have : N ≤ 9223372036854775808 := by omega
        exact_mod_cast this
    refine this.trans ?_
    have h2 : (9223372036854775808 : ℚ) = (2 : ℚ) ^ (63 : ℤ) := by norm_num
    have h3 : (2 : ℚ) ^ (63 : ℤ) ≤ (2 : ℚ) ^ (971 : ℤ) := zpow_le_zpow_right₀ (by norm_num) (by norm_num)
    have h4 : (0 : ℚ) < (2 : ℚ) ^ (971 : ℤ) := by positivity
    unfold Fmt.max float64
    simp only
    generalize (2 : ℚ) ^ (971 : ℤ) = z at h3 h4 ⊢
    rw [h2]
    norm_num at h3 ⊢
    linarith)
  unfold clampFloat clampN
  rw [e1]
  rcases lt_trichotomy N 1 with h | h | h
  · have h0 : roundFloat float64 (N : ℚ) ≤ 1 := by
      by_contra hc
      push Not at hc
      have := hnear.2 1 (by have := has_int 1 (by decide); simpa using this)
      have hq : (N : ℚ) < 1 := by exact_mod_cast h
      rw [abs_of_pos (by linarith), abs_of_pos (by linarith)] at this
      linarith
    rw [max_eq_left h0, max_eq_left (a := (1 : Int)) (b := N) (by omega)]
    rcases Nat.eq_zero_or_pos n with rfl | hp
    · simp [trunc]
    · have : (1 : ℚ) ≤ n := by exact_mod_cast hp
      rw [min_eq_right this]
      have : min n (1 : Int).toNat = 1 := by simp; omega
      rw [this]; simp [trunc]
  · subst h
    have : roundFloat float64 ((1 : Int) : ℚ) = 1 := by simpa using roundFloat_exact (has_int 1 (by decide))
    rw [this, max_self, max_self]
    rcases Nat.eq_zero_or_pos n with rfl | hp
    · simp [trunc]
    · have : (1 : ℚ) ≤ n := by exact_mod_cast hp
      rw [min_eq_right this]
      have : min n (1 : Int).toNat = 1 := by simp; omega
      rw [this]; simp [trunc]
  · rw [max_eq_right (a := (1 : Int)) (b := N) (by omega)]
    rcases lt_or_ge N 9007199254740992 with hs | hs
    · have e2 : roundFloat float64 (N : ℚ) = N := roundFloat_exact (has_int N (by rw [abs_of_pos (by omega)]; exact hs))
      rw [e2]
      have : (1 : ℚ) ≤ (N : ℚ) := by exact_mod_cast h.le
      rw [max_eq_right this]
      have e3 : (min (n : ℚ) (N : ℚ)) = ((min n N.toNat : Nat) : ℚ) := by
        have : ((N.toNat : Nat) : ℚ) = (N : ℚ) := by
          have : ((N.toNat : Nat) : Int) = N := Int.toNat_of_nonneg (by omega)
          exact_mod_cast this
        rw [Nat.cast_min, this]
      rw [e3]
      unfold trunc
      rw [if_pos (Nat.cast_nonneg _), Int.floor_natCast, Int.toNat_natCast]
    · have hbig : (9007199254740992 : ℚ) ≤ roundFloat float64 (N : ℚ) := by
        by_contra hc
        push Not at hc
        have hH : float64.Has 9007199254740992 := ⟨4503599627370496, 1, by norm_num, by norm_num [float64], by norm_num [float64], by norm_num [float64]⟩
        have := hnear.2 _ hH
        have hq : (9007199254740992 : ℚ) ≤ (N : ℚ) := by exact_mod_cast hs
        rw [abs_of_neg (by linarith), abs_of_nonpos (by linarith)] at this
        linarith
      have hnq : (n : ℚ) < 9007199254740992 := by exact_mod_cast hn
      rw [max_eq_right (by linarith), min_eq_left (by linarith)]
      have : min n N.toNat = n := by omega
      rw [this]; simp [trunc]

theorem sqrtFloat_eq (sqrt : ℚ → ℚ) (hs : CorrectSqrt sqrt) (n : Nat) (hn : n < 562949953421312) : sqrtFloat sqrt n = roundSqrt n := by
  have hH : float64.Has (n : ℚ) := by
    have := has_int n (by rw [abs_of_nonneg (by omega)]; omega)
    simpa using this
  obtain ⟨-, hnear⟩ := hs n (by positivity) hH
  unfold sqrtFloat
  rw [roundFloat_exact hH]
  generalize hx : sqrt (n : ℚ) = x at hnear
  -- the exact result
  have hk1 : n ≤ roundSqrt n * roundSqrt n + roundSqrt n := by
    unfold roundSqrt
    simp only
    have h2 := Nat.lt_succ_sqrt n
    split
    · assumption
    · simp only [Nat.succ_eq_add_one] at h2; nlinarith
  have hk2 : roundSqrt n * roundSqrt n ≤ n + roundSqrt n - 1 ∨ roundSqrt n = 0 := by
    unfold roundSqrt
    simp only
    have h1 := Nat.sqrt_le n
    have h2 := Nat.lt_succ_sqrt n
    split
    · rcases Nat.eq_zero_or_pos (Nat.sqrt n) with h | h
      · exact .inr h
      · left; omega
    · left; rename_i h; push Not at h; 
      have : (n.sqrt + 1) * (n.sqrt + 1) = n.sqrt * n.sqrt + n.sqrt + (n.sqrt + 1) := by ring
      omega
  generalize roundSqrt n = k at hk1 hk2
  have hkb : k < 23726567 := by
    by_contra hc
    push Not at hc
    rcases hk2 with h | h
    · have : 23726567 * k ≤ k * k := Nat.mul_le_mul_right _ hc
      omega
    · omega
  have hs0 : (0 : ℝ) ≤ √((n : ℚ) : ℝ) := Real.sqrt_nonneg _
  have hcast : (((n : ℚ) : ℝ)) = (n : ℝ) := by push_cast; rfl
  rw [hcast] at hnear hs0
  have hlow : (k : ℝ) - 1 / 2 ≤ √(n : ℝ) := by
    rcases hk2 with h | rfl
    · rcases Nat.eq_zero_or_pos k with rfl | hkp
      · simp; linarith
      apply Real.le_sqrt_of_sq_le
      have h' : (k : ℝ) * k + 1 ≤ n + k := by
        have : k * k + 1 ≤ n + k := by omega
        exact_mod_cast this
      nlinarith
    · simp; linarith
  have hup : √(n : ℝ) < (k : ℝ) + 1 / 2 - 1 / 268435456 := by
    rw [Real.sqrt_lt' (by have : (0 : ℝ) ≤ k := by positivity
                          linarith)]
    have h' : (n : ℝ) ≤ k * k + k := by exact_mod_cast hk1
    have hk' : (k : ℝ) < 23726567 := by exact_mod_cast hkb
    nlinarith
  have hx1 : (k : ℚ) - 1 / 2 ≤ x := by
    by_contra hc
    push Not at hc
    have hc' : (x : ℝ) < (k : ℝ) - 1 / 2 := by
      have : ((x : ℚ) : ℝ) < (((k : ℚ) - 1 / 2 : ℚ) : ℝ) := by exact_mod_cast hc
      push_cast at this; exact this
    have := hnear ((k : ℚ) - 1 / 2) ⟨2 * k - 1, -1, by push_cast; norm_num; ring, by
      rw [abs_lt]; simp [float64]; omega, by norm_num [float64], by norm_num [float64]⟩
    push_cast at this
    rw [abs_of_neg (by linarith), abs_of_nonpos (by linarith)] at this
    linarith
  have hx2 : x < (k : ℚ) + 1 / 2 := by
    by_contra hc
    push Not at hc
    have hc' : (k : ℝ) + 1 / 2 ≤ (x : ℝ) := by
      have : (((k : ℚ) + 1 / 2 : ℚ) : ℝ) ≤ ((x : ℚ) : ℝ) := by exact_mod_cast hc
      push_cast at this; exact this
    have := hnear ((k : ℚ) + 1 / 2 - 1 / 134217728) ⟨134217728 * k + 67108863, -27, by push_cast; norm_num; ring, by
      rw [abs_lt]; simp [float64]; omega, by norm_num [float64], by norm_num [float64]⟩
    push_cast at this
    rw [abs_of_pos (by linarith)] at this
    rcases abs_cases ((k : ℝ) + 1 / 2 - 1 / 134217728 - √(n : ℝ)) with h | h <;> rw [h.1] at this <;> linarith
  have : ⌊x + 1 / 2⌋ = (k : ℤ) := by
    rw [Int.floor_eq_iff]
    push_cast
    constructor <;> linarith
  rw [this]; simp

/-- C41 with the float64 arithmetic of the code: for less than 2^49 items, and any correctly rounded square root, the sizes computed with float64 numbers
are the exact ones, so that the theorems above hold of the code as it is written. -/
theorem c41_float (sqrt : ℚ → ℚ) (hs : CorrectSqrt sqrt) (n : Nat) (hn : n < 2 ^ 49) (info : Option PInfo)
    (hi : ∀ i, info = some i → Kind.int64.InRange i.n) : generateRangesFloat sqrt n info = generateRanges n info := by
  have hn' : n < 562949953421312 := hn
  cases info with
  | none => simp only [generateRangesFloat, generateRanges, sqrtFloat_eq sqrt hs n hn']
  | some i => simp only [generateRangesFloat, generateRanges, clampFloat_eq n (by omega) i.n (hi i rfl)]

/-- C41 with the float64 arithmetic of the code, up to 2^53 items (from 2^50 on the rounded square root can be one more than the nearest integer): the
ranges are still non-empty, contiguous, begin at 0 and end at the number of items. -/
theorem c41_float_partition (sqrt : ℚ → ℚ) (hs : CorrectSqrt sqrt) (n : Nat) (h0 : 0 < n) (hn : n < 2 ^ 53) (info : Option PInfo)
    (hi : ∀ i, info = some i → Kind.int64.InRange i.n) : Chain 0 (generateRangesFloat sqrt n info) n := by
  have hn' : n < 9007199254740992 := hn
  cases info with
  | none =>
    refine bucketRanges_chain n _ ?_
    have hH : float64.Has (n : ℚ) := by
      have := has_int n (by rw [abs_of_nonneg (by omega)]; omega)
      simpa using this
    obtain ⟨-, hnear⟩ := hs n (by positivity) hH
    unfold sqrtFloat
    rw [roundFloat_exact hH]
    generalize sqrt (n : ℚ) = x at hnear
    have h1 : (1 : ℝ) ≤ √(((n : ℚ)) : ℝ) := by
      rw [Real.one_le_sqrt]
      push_cast
      exact_mod_cast h0
    have hx : (1 : ℚ) ≤ x := by
      by_contra hc
      push Not at hc
      have hc' : (x : ℝ) < 1 := by exact_mod_cast hc
      have := hnear 1 (by simpa using has_int 1 (by decide))
      push_cast at this h1
      rw [abs_of_neg (by linarith), abs_of_nonpos (by linarith)] at this
      linarith
    have : 1 ≤ ⌊x + 1 / 2⌋ := by
      rw [Int.le_floor]; push_cast; linarith
    omega
  | some i =>
    have := c41_partition n h0 (some i)
    simp only [generateRangesFloat, generateRanges, clampFloat_eq n hn' i.n (hi i rfl)] at this ⊢
    exact this

/-- There is a correctly rounded square root. -/
theorem correctSqrt_exists : ∃ sqrt, CorrectSqrt sqrt := by
  have hfin : {y : ℚ | float64.Has y}.Finite := by
    refine ((Set.finite_Icc (-(2 ^ 53) : ℤ) (2 ^ 53)).prod (Set.finite_Icc (-1074 : ℤ) 971)).image (fun p => (p.1 : ℚ) * 2 ^ p.2) |>.subset ?_
    rintro y ⟨m, e, rfl, hm, he1, he2⟩
    rw [abs_lt] at hm
    exact ⟨(m, e), ⟨⟨by simpa [float64] using hm.1.le, by simpa [float64] using hm.2.le⟩, ⟨he1, he2⟩⟩, rfl⟩
  have hex : ∀ q : ℚ, ∃ x, float64.Has x ∧ ∀ y, float64.Has y → |(x : ℝ) - √(q : ℝ)| ≤ |(y : ℝ) - √(q : ℝ)| := by
    intro q
    obtain ⟨x, hx, h⟩ := Set.exists_min_image _ (fun y : ℚ => |(y : ℝ) - √(q : ℝ)|) hfin ⟨0, by simpa using has_int 0 (by decide)⟩
    exact ⟨x, hx, h⟩
  choose f hf using hex
  exact ⟨f, fun q _ _ => hf q⟩

/-- 1000 items without a PInfo: ranges of 32 items. -/
example : ∃ sqrt, CorrectSqrt sqrt ∧ generateRangesFloat sqrt 1000 none = generateRanges 1000 none := by
  obtain ⟨sqrt, h⟩ := correctSqrt_exists
  exact ⟨sqrt, h, c41_float sqrt h 1000 (by norm_num) none (by simp)⟩

/-- 2^52 items, 7 threads. -/
example : ∃ sqrt, CorrectSqrt sqrt ∧ Chain 0 (generateRangesFloat sqrt (2 ^ 52) (some ⟨7, false⟩)) (2 ^ 52) := by
  obtain ⟨sqrt, h⟩ := correctSqrt_exists
  exact ⟨sqrt, h, c41_float_partition sqrt h (2 ^ 52) (by positivity) (by norm_num) _ (by rintro i ⟨⟩; decide)⟩

end Micro.Stream
