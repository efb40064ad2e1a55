import Verif.Stream.BigProps
import Verif.Conv.SharpProps
import Verif.Iter.ReaderProps
set_option linter.unusedSimpArgs false
/-
C40, C99: the inputs left out of the partial theorems are exactly those for which the code is wrong.
-/
namespace Micro.Stream
open Micro Micro.Iter

/-- C40: for every sequence of signed integers whose mean lies strictly between -1 and -1/2, or is -1/2, AvgInt yields +1, although the mean rounds to -1. -/
theorem c40_avgInt_wrong (k : Kind) (hk : k.signed = true) (next : Call σ Int) (s : σ) (xs : List Int)
    (h : YieldsForever next s xs .eoi) (hx : ∀ x ∈ xs, k.InRange x) (hc : xs.length < 2 ^ 63)
    (hso : sumsOk k 0 xs = none) (hw : MathInt.WrongSide xs.sum xs.length) :
    YieldsForever (It.next (avgIntCall k next)) (ofIter s) [1] .eoi ∧
    MathInt.RoundsTo xs.sum xs.length (-1) ∧ ¬ MathInt.RoundsTo xs.sum xs.length 1 := by
  have hcount : Kind.int64.InRange (xs.length : Int) := by
    constructor
    · simp [Kind.minV, Kind.signed, Kind.bits]
    · simp [Kind.maxV, Kind.signed, Kind.bits]; omega
  have hne : xs ≠ [] := by rintro rfl; unfold MathInt.WrongSide at hw; simp at hw
  have hy := avg_yields MathInt.addInt k .int64 (addInt_spec k hk) h hx hcount
  have hsum : k.InRange xs.sum := by
    have := sumsOk_inRange k xs 0 (by cases k <;> decide) hso
    simpa using this
  have hsum64 : Kind.int64.InRange xs.sum := by
    cases k <;> simp [Kind.signed] at hk <;> clear hy hw <;> kind_norm <;> omega
  obtain ⟨hq, h1, h2⟩ := MathInt.c18_div_signed_wrong .int64 xs.sum xs.length 0 rfl hsum64 hcount hw
  refine ⟨?_, h1, h2⟩
  have h1k : k.InRange 1 ∧ Kind.int64.InRange 1 := by cases k <;> simp [Kind.signed] at hk <;> decide
  have : avgResult k .int64 xs.sum xs.length = 1 := by
    simp only [avgResult, Conv.c21_to_exact k .int64 _ _ hsum, if_pos hsum64, hq,
      Conv.c21_to_exact .int64 k 1 _ h1k.2, if_pos h1k.1]
  rw [if_pos ⟨hso, rfl, hne⟩, this, hso] at hy
  exact hy

example : sumsOk .int8 0 [-3, 1, 0] = none ∧ MathInt.WrongSide ([-3, 1, 0] : List Int).sum ([-3, 1, 0] : List Int).length := by
  refine ⟨by decide, ?_⟩
  unfold MathInt.WrongSide; decide

theorem avgLoop_rest (add : Kind → Int → Int → Int × Option MathInt.MErr) (k c64 : Kind)
    (hadd : ∀ v s, k.InRange v → k.InRange s →
      (k.maxV < s + v → ∃ r, add k v s = (r, some .overflow)) ∧
      (s + v < k.minV → ∃ r, add k v s = (r, some .underflow)) ∧
      (k.InRange (s + v) → add k v s = (s + v, none)))
    {next : Call σ Int} {e : Err} (v : Int) (ys : List Int) (hv : k.InRange v) : ∀ (xs : List Int) (s : σ) (sum count : Int),
    YieldsForever next s (xs ++ v :: ys) e → (∀ x ∈ xs, k.InRange x) → k.InRange sum → sumsOk k sum xs = none →
    ¬ k.InRange (sum + xs.sum + v) →
    ∃ s' e', avgLoop add k c64 next sum count s = some (.error e', s') ∧ YieldsForever next s' ys e := by
  intro xs
  induction xs with
  | nil =>
    intro s sum count h _ hs _ hn
    obtain ⟨s1, h1, h2⟩ := forever_cons h
    simp only [List.sum_nil, Int.add_zero] at hn
    rw [avgLoop, h1]
    dsimp only
    by_cases ho : k.maxV < sum + v
    · obtain ⟨r, hr⟩ := (hadd v sum hv hs).1 ho
      rw [hr]; exact ⟨s1, _, rfl, h2⟩
    · have hu : sum + v < k.minV := by
        by_contra hc
        exact hn ⟨by omega, by omega⟩
      obtain ⟨r, hr⟩ := (hadd v sum hv hs).2.1 hu
      rw [hr]; exact ⟨s1, _, rfl, h2⟩
  | cons x xs ih =>
    intro s sum count h hx hs hso hn
    obtain ⟨s1, h1, h2⟩ := forever_cons h
    unfold sumsOk at hso
    by_cases ho : k.maxV < sum + x
    · rw [if_pos ho] at hso; cases hso
    rw [if_neg ho] at hso
    by_cases hu : sum + x < k.minV
    · rw [if_pos hu] at hso; cases hso
    rw [if_neg hu] at hso
    have hin : k.InRange (sum + x) := ⟨by omega, by omega⟩
    obtain ⟨s', e', g1, g2⟩ := ih s1 (sum + x) (c64.wrap (count + 1)) h2 (fun y hy => hx y (by simp [hy])) hin hso
      (by rw [List.sum_cons] at hn; rw [Int.add_assoc sum x]; exact hn)
    refine ⟨s', e', ?_, g2⟩
    rw [avgLoop, h1]
    dsimp only
    rw [(hadd x sum (hx x (by simp)) hs).2.2 hin]
    exact g1

/-- C40: when the sum leaves the type at a value v, the average stops there: the values after v are still in the source, and no others. -/
theorem c40_avg_rest (k : Kind) (next : Call σ Int) (s : σ) (xs ys : List Int) (v : Int) (e : Err)
    (h : YieldsForever next s (xs ++ v :: ys) e) (hx : ∀ x ∈ xs, k.InRange x) (hv : k.InRange v) (hso : sumsOk k 0 xs = none)
    (hn : ¬ k.InRange (xs.sum + v)) :
    (k.signed = true → ∃ s' e', avgIntCall k next s = some (.error e', s') ∧ YieldsForever next s' ys e) ∧
    (k.signed = false → ∃ s' e', avgUintCall k next s = some (.error e', s') ∧ YieldsForever next s' ys e) := by
  have hz : k.InRange 0 := by cases k <;> decide
  exact ⟨fun hk => avgLoop_rest MathInt.addInt k .int64 (addInt_spec k hk) v ys hv xs s 0 0 h hx hz hso (by simpa using hn),
    fun hk => avgLoop_rest MathInt.addUint k .uint64 (addUint_spec k hk) v ys hv xs s 0 0 h hx hz hso (by simpa using hn)⟩

example : sumsOk .int8 0 [100, 27] = none ∧ ¬ Kind.int8.InRange (([100, 27] : List Int).sum + 1) ∧ Kind.int8.InRange 1 := by decide

/-- C99: the same for AvgBigOps of *big.Int. -/
theorem c99_avg_int_wrong (next : Call σ Int) (s : σ) (xs : List Int) (h : YieldsForever next s xs .eoi)
    (hw : MathInt.WrongSide xs.sum xs.length) :
    YieldsForever (It.next (avgBigCall intOps next)) (ofIter s) [1] .eoi ∧
    MathInt.RoundsTo xs.sum xs.length (-1) ∧ ¬ MathInt.RoundsTo xs.sum xs.length 1 := by
  have hne : xs ≠ [] := by rintro rfl; unfold MathInt.WrongSide at hw; simp at hw
  have h0 : (xs.length : Int) ≠ 0 := by
    have : 0 < xs.length := List.length_pos_iff.mpr hne
    omega
  have := avgBig_yields intOps h
  rw [intOps_count, intOps_sum, if_pos ⟨rfl, h0⟩] at this
  have hdb := MathInt.c18_divBig_wrong xs.sum xs.length 0 hw
  refine ⟨?_, hdb.2⟩
  have e1 : intOps.div xs.sum xs.length = 1 := congrArg Prod.fst hdb.1
  rwa [e1] at this

example : MathInt.WrongSide ([-2, 0, 0] : List Int).sum ([-2, 0, 0] : List Int).length := by
  unfold MathInt.WrongSide; decide

theorem floatOps_bits (a b : ℚ) : Bits 4 (floatOps.add a b) := by
  obtain ⟨m, e, h, hm⟩ := Conv.roundSig_sig (b := 2) (by omega) (n := 4) (by omega) (a + b)
  refine ⟨m, e, by exact_mod_cast hm, ?_⟩
  show Conv.roundSig 2 (Conv.bitsFor (Conv.integerToString .int 0).length) (a + b) = _
  rw [floatBits, h]; norm_num

/-- C99: whatever the values, SumBigOps of two or more *big.Float values has at most 4 significant bits, so that it is wrong whenever the sum has more. -/
theorem c99_float_bits (next : Call σ ℚ) (s : σ) (xs : List ℚ) (h : Yields next s xs .eoi) (hx : 2 ≤ xs.length) :
    ∃ r, YieldsForever (It.next (sumBigCall floatOps next)) (ofIter (false, s)) [r] .eoi ∧ Bits 4 r ∧ (¬ Bits 4 xs.sum → r ≠ xs.sum) := by
  have := c33_reduce floatOps.add next s xs .eoi h
  cases xs with
  | nil => simp at hx
  | cons x xs =>
    simp only [if_true] at this
    have hb : Bits 4 (xs.foldl floatOps.add x) := by
      have hne : xs ≠ [] := by rintro rfl; simp at hx
      obtain ⟨ys, y, rfl⟩ := List.eq_nil_or_concat' xs |>.resolve_left hne
      rw [List.foldl_append]
      exact floatOps_bits _ _
    exact ⟨_, this, hb, fun hn he => hn (he ▸ hb)⟩

example := c99_float_bits (It.next (sliceCall [16, 1])) (ofIter 0) [16, 1] (yields_of_forever (c26_slice _)) (by decide)

theorem floatOps_count (n : ℕ) : ∀ xs : List ℚ, xs.length = n → xs.foldl (fun c _ => floatOps.add c floatOps.one) floatOps.zero = ((min n 16 : ℕ) : ℚ) := by
  have add17 : floatOps.add 16 1 = 16 := by
    show Conv.roundSig 2 (Conv.bitsFor (Conv.integerToString .int 0).length) (16 + 1) = _
    rw [floatBits, show (16 + 1 : ℚ) = 17 by norm_num]
    have hl : Int.log 2 |(17 : ℚ)| = 4 := by
      rw [abs_of_nonneg (by norm_num)]
      exact Conv.log_eq_of (by omega) (by norm_num) (by norm_num) (by norm_num)
    unfold Conv.roundSig
    rw [if_neg (by norm_num), hl]
    unfold Conv.roundAt
    rw [Conv.rne_tie (n := 8) (by norm_num) (by norm_num)]
    norm_num
  induction n with
  | zero =>
    intro xs hx
    have : xs = [] := List.length_eq_zero_iff.mp hx
    subst this
    simp only [List.foldl_nil, Nat.zero_min, Nat.cast_zero]; rfl
  | succ n ih =>
    intro xs hx
    have hne : xs ≠ [] := by rintro rfl; simp at hx
    obtain ⟨ys, y, rfl⟩ := List.eq_nil_or_concat' xs |>.resolve_left hne
    rw [List.foldl_append, ih ys (by simpa using hx)]
    simp only [List.foldl_cons, List.foldl_nil]
    show floatOps.add _ 1 = _
    by_cases h16 : 16 ≤ n
    · rw [Nat.min_eq_right h16, Nat.min_eq_right (by omega)]
      push_cast; exact add17
    · rw [Nat.min_eq_left (by omega), Nat.min_eq_left (by omega), floatOps_add]
      · push_cast; rfl
      · by_cases h15 : n = 15
        · exact ⟨1, 4, by norm_num, by rw [h15]; norm_num⟩
        · refine ⟨n + 1, 0, ?_, by push_cast; simp⟩
          rw [abs_of_nonneg (by omega)]; norm_num; omega

/-- C99: AvgBigOps of *big.Float values divides by 16 however many more than 16 values there are. -/
theorem c99_float_count (next : Call σ ℚ) (s : σ) (xs : List ℚ) (h : YieldsForever next s xs .eoi) (hx : 16 ≤ xs.length) :
    ∃ sum, Bits 4 sum ∧ YieldsForever (It.next (avgBigCall floatOps next)) (ofIter s) [Conv.roundSig 2 53 (sum / 16)] .eoi := by
  have := avgBig_yields floatOps h
  rw [floatOps_count xs.length xs rfl, Nat.min_eq_right hx] at this
  rw [if_pos ⟨rfl, by show ((16 : ℕ) : ℚ) ≠ 0; norm_num⟩] at this
  refine ⟨xs.foldl floatOps.add floatOps.zero, ?_, ?_⟩
  · have hne : xs ≠ [] := by rintro rfl; simp at hx
    obtain ⟨ys, y, rfl⟩ := List.eq_nil_or_concat' xs |>.resolve_left hne
    rw [List.foldl_append]
    exact floatOps_bits _ _
  · exact_mod_cast this

example : 16 ≤ (List.replicate 20 (1 : ℚ)).length ∧ ¬ Bits 4 17 := by
  refine ⟨by simp, ?_⟩
  intro h
  have := round4 h
  have h17 : Conv.roundSig 2 4 17 = 16 := by
    have hl : Int.log 2 |(17 : ℚ)| = 4 := by
      rw [abs_of_nonneg (by norm_num)]
      exact Conv.log_eq_of (by omega) (by norm_num) (by norm_num) (by norm_num)
    unfold Conv.roundSig
    rw [if_neg (by norm_num), hl]
    unfold Conv.roundAt
    rw [Conv.rne_tie (n := 8) (by norm_num) (by norm_num)]
    norm_num
  rw [h17] at this
  norm_num at this

/-- C102, exactly: a Generator behaves as documented just for the histories in which the same iterator is never used twice in a row. -/
theorem c102_iff (its : List Nat) : genUses genInit (its.map some) = some (docUses none 0 its) ↔ its.IsChain (· ≠ ·) := by
  refine ⟨fun h => ?_, c102_partial its⟩
  rw [c102_fresh, List.range_eq_range', Option.some.injEq] at h
  have gen : ∀ (its : List Nat) (p f made : Nat), f < made → List.range' made its.length = docUses (some (p, f)) made its → (p :: its).IsChain (· ≠ ·) := by
    intro its
    induction its with
    | nil => intro p f made _ _; simp
    | cons it its ih =>
      intro p f made hf h
      rw [List.isChain_cons_cons]
      by_cases hp : p = it
      · simp only [docUses, if_pos hp, List.length_cons, List.range'_succ] at h
        injection h with h1 _
        omega
      · simp only [docUses, if_neg hp, List.length_cons, List.range'_succ] at h
        injection h with _ h2
        exact ⟨hp, ih it made (made + 1) (by omega) h2⟩
  cases its with
  | nil => simp
  | cons it its =>
    simp only [docUses, List.length_cons, List.range'_succ] at h
    injection h with _ h2
    exact gen its it 0 1 (by omega) h2

example : ¬ [1, 2, 2].IsChain (· ≠ ·) ∧ [1, 2, 1].IsChain (· ≠ ·) := by decide

/-- C100, exactly: Sum of a non-empty stream of integers delivers their sum just if it is in the range of the type. -/
theorem c100_sum_iff (k : Kind) (next : Call σ Int) (s : σ) (xs : List Int) (h : Yields next s xs .eoi) (hx : ∀ x ∈ xs, k.InRange x) (h0 : xs ≠ []) :
    YieldsForever (It.next (sumCall k next)) (ofIter (false, s)) [xs.sum] .eoi ↔ k.InRange xs.sum := by
  refine ⟨fun hy => ?_, fun hs => c100_sum_partial k next s xs h hx hs h0⟩
  have h1 := c100_sum_wrap k next s xs .eoi h hx
  rw [if_neg (by simp [h0])] at h1
  have := yieldsForever_unique hy h1
  injection this with h2 _
  rw [h2]
  exact Kind.wrap_inRange k _

example : Kind.int8.InRange ([100, 100, -100] : List Int).sum ∧ ¬ Kind.int8.InRange ([100, 100] : List Int).sum := by decide

end Micro.Stream
