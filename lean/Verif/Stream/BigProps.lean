import Verif.Stream.BigModel
import Verif.Stream.Props
import Verif.Conv.FloatProps
import Mathlib.Order.OrderDual
set_option linter.unusedSimpArgs false
/-
C33 (any ordered type), C99 sums and averages of big numbers, C100 Sum, Abs and AbsBigOps, C101 ExpandMaps, C102 Generator.
-/
namespace Micro.Stream
open Micro Micro.Iter

variable {σ α β : Type}

/-! ### C33 for every ordered type -/

/-- Folding with "the better one, the second if they are equal" finds the last best element. -/
theorem fold_best {γ : Type} [LinearOrder γ] (better : α → α → Prop) [DecidableRel better] (r : α → γ)
    (hb : ∀ a b, better a b ↔ r b < r a) (xs : List α) (x : α) :
    ∃ before m after, x :: xs = before ++ m :: after ∧ xs.foldl (fun a b => if better a b then a else b) x = m ∧
      (∀ y ∈ before, r y ≤ r m) ∧ ∀ y ∈ after, r y < r m := by
  induction xs generalizing x with
  | nil => exact ⟨[], x, [], rfl, rfl, by simp, by simp⟩
  | cons z xs ih =>
    simp only [List.foldl_cons]
    by_cases h : better x z
    · rw [if_pos h]
      have hlt := (hb x z).mp h
      obtain ⟨before, m, after, h1, h2, h3, h4⟩ := ih x
      cases before with
      | nil =>
        simp only [List.nil_append, List.cons.injEq] at h1
        obtain ⟨rfl, rfl⟩ := h1
        refine ⟨[], x, z :: xs, rfl, h2, by simp, ?_⟩
        intro y hy
        rcases List.mem_cons.mp hy with rfl | hy
        · exact hlt
        · exact h4 y hy
      | cons w before =>
        simp only [List.cons_append, List.cons.injEq] at h1
        obtain ⟨rfl, rfl⟩ := h1
        refine ⟨x :: z :: before, m, after, rfl, h2, ?_, h4⟩
        intro y hy
        simp only [List.mem_cons] at hy
        rcases hy with rfl | rfl | hy
        · exact h3 _ (by simp)
        · exact hlt.le.trans (h3 x (by simp))
        · exact h3 y (by simp [hy])
    · rw [if_neg h]
      have hle : r x ≤ r z := not_lt.mp (fun g => h ((hb x z).mpr g))
      obtain ⟨before, m, after, h1, h2, h3, h4⟩ := ih z
      refine ⟨x :: before, m, after, by rw [h1]; rfl, h2, ?_, h4⟩
      intro y hy
      rcases List.mem_cons.mp hy with rfl | hy
      · cases before with
        | nil =>
          simp only [List.nil_append, List.cons.injEq] at h1
          rw [← h1.1]; exact hle
        | cons w before =>
          simp only [List.cons_append, List.cons.injEq] at h1
          exact hle.trans (h1.1 ▸ h3 w (by simp))
      · exact h3 y hy

/-- C33. Max and Min over any type with a linear order (all integer types, strings): the largest and the smallest element, and nothing for an
empty source. -/
theorem c33_max_min_ordered [LinearOrder α] (next : Call σ α) (s : σ) (xs : List α) (e : Err) (h : Yields next s xs e) :
    (xs = [] ∨ e ≠ .eoi → YieldsForever (It.next (maxCall next)) (ofIter (false, s)) [] e ∧
      YieldsForever (It.next (minCall next)) (ofIter (false, s)) [] e) ∧
    (xs ≠ [] → e = .eoi → ∃ m M, YieldsForever (It.next (maxCall next)) (ofIter (false, s)) [M] .eoi ∧
      YieldsForever (It.next (minCall next)) (ofIter (false, s)) [m] .eoi ∧
      m ∈ xs ∧ M ∈ xs ∧ ∀ y ∈ xs, m ≤ y ∧ y ≤ M) := by
  have hmax := c33_reduce (fun a b : α => if a > b then a else b) next s xs e h
  have hmin := c33_reduce (fun a b : α => if a < b then a else b) next s xs e h
  cases xs with
  | nil => exact ⟨fun _ => ⟨hmax, hmin⟩, fun h => absurd rfl h⟩
  | cons x xs =>
    constructor
    · rintro (h | h)
      · cases h
      · simp only [if_neg h] at hmax hmin
        exact ⟨hmax, hmin⟩
    · rintro - rfl
      obtain ⟨b1, M, a1, p1, p2, p3, p4⟩ := fold_best (fun a b : α => a > b) id (by simp) xs x
      obtain ⟨b2, m, a2, q1, q2, q3, q4⟩ := fold_best (fun a b : α => a < b) (OrderDual.toDual) (by simp) xs x
      simp only [if_true] at hmax hmin
      rw [p2] at hmax
      rw [q2] at hmin
      refine ⟨m, M, hmax, hmin, by rw [q1]; simp, by rw [p1]; simp, fun y hy => ⟨?_, ?_⟩⟩
      · rw [q1] at hy
        simp only [List.mem_append, List.mem_cons] at hy
        rcases hy with hy | rfl | hy
        · exact OrderDual.toDual_le_toDual.mp (q3 y hy)
        · exact le_refl _
        · exact (OrderDual.toDual_lt_toDual.mp (q4 y hy)).le
      · rw [p1] at hy
        simp only [List.mem_append, List.mem_cons] at hy
        rcases hy with hy | rfl | hy
        · exact p3 y hy
        · exact le_refl _
        · exact (p4 y hy).le

example := c33_max_min_ordered (It.next (sliceCall [3, 5, 1, 5])) (ofIter 0) [3, 5, 1, 5] .eoi (yields_of_forever (c26_slice _))

/-- C33. MaxCmp and MinCmp, for a type whose Cmp method compares by some rank (as *big.Int, *big.Rat, finite *big.Float do: values, not
pointers): the result is the last element of greatest (least) rank. -/
theorem c33_max_min_cmp {γ : Type} [LinearOrder γ] (cmp : α → α → Int) (r : α → γ)
    (hpos : ∀ a b, 0 < cmp a b ↔ r b < r a) (hneg : ∀ a b, cmp a b < 0 ↔ r a < r b)
    (next : Call σ α) (s : σ) (x : α) (xs : List α) (h : Yields next s (x :: xs) .eoi) :
    (∃ before M after, x :: xs = before ++ M :: after ∧ (∀ y ∈ before, r y ≤ r M) ∧ (∀ y ∈ after, r y < r M) ∧
      YieldsForever (It.next (maxCmpCall cmp next)) (ofIter (false, s)) [M] .eoi) ∧
    (∃ before m after, x :: xs = before ++ m :: after ∧ (∀ y ∈ before, r m ≤ r y) ∧ (∀ y ∈ after, r m < r y) ∧
      YieldsForever (It.next (minCmpCall cmp next)) (ofIter (false, s)) [m] .eoi) := by
  have hmax := c33_reduce (fun a b : α => if cmp a b > 0 then a else b) next s (x :: xs) .eoi h
  have hmin := c33_reduce (fun a b : α => if cmp a b < 0 then a else b) next s (x :: xs) .eoi h
  obtain ⟨b1, M, a1, p1, p2, p3, p4⟩ := fold_best (fun a b : α => cmp a b > 0) r hpos xs x
  obtain ⟨b2, m, a2, q1, q2, q3, q4⟩ := fold_best (fun a b : α => cmp a b < 0) (fun a => OrderDual.toDual (r a)) (by simpa using hneg) xs x
  simp only [if_true] at hmax hmin
  rw [p2] at hmax
  rw [q2] at hmin
  exact ⟨⟨b1, M, a1, p1, p3, p4, hmax⟩, ⟨b2, m, a2, q1, fun y hy => OrderDual.toDual_le_toDual.mp (q3 y hy),
    fun y hy => OrderDual.toDual_lt_toDual.mp (q4 y hy), hmin⟩⟩

/-- Non-vacuity: of the pairs, compared by their first component, the last of the largest ones is delivered. -/
example : ∃ r : Int × Nat → Int, (∀ a b : Int × Nat, 0 < a.1 - b.1 ↔ r b < r a) ∧ (∀ a b : Int × Nat, a.1 - b.1 < 0 ↔ r a < r b) ∧
    Yields (It.next (sliceCall [((3 : Int), 0), (5, 1), (2, 2), (5, 3), (1, 4)])) (ofIter 0) [(3, 0), (5, 1), (2, 2), (5, 3), (1, 4)] .eoi :=
  ⟨Prod.fst, by intros; omega, by intros; omega, yields_of_forever (c26_slice _)⟩

/-! ### C99 -/

/-- What AvgBigOps computes, in terms of the operations on numbers. -/
theorem avgBigLoop_eq [DecidableEq α] (o : BigOps α) {next : Call σ α} {s : σ} {xs : List α} {e : Err} (h : YieldsForever next s xs e)
    (sum count : α) :
    ∃ s', YieldsForever next s' [] e ∧ avgBigLoop o next sum count s =
      some (if e = .eoi then
          (if xs.foldl (fun c _ => o.add c o.one) count = o.zero then .error e
            else .ok (o.div (xs.foldl o.add sum) (xs.foldl (fun c _ => o.add c o.one) count)))
        else .error e, s') := by
  induction xs generalizing s sum count with
  | nil =>
    obtain ⟨s', h1, h2⟩ := forever_nil h
    refine ⟨s', h2, ?_⟩
    rw [avgBigLoop]; simp only [h1, List.foldl_nil]
    by_cases he : e = .eoi <;> by_cases hc : count = o.zero <;> simp [he, hc]
  | cons x xs ih =>
    obtain ⟨s1, h1, h2⟩ := forever_cons h
    obtain ⟨s', h3, h4⟩ := ih h2 (o.add sum x) (o.add count o.one)
    refine ⟨s', h3, ?_⟩
    rw [avgBigLoop]; simp only [h1, List.foldl_cons]
    exact h4

theorem avgBig_yields [DecidableEq α] (o : BigOps α) {next : Call σ α} {s : σ} {xs : List α} {e : Err} (h : YieldsForever next s xs e) :
    YieldsForever (It.next (avgBigCall o next)) (ofIter s)
      (if e = .eoi ∧ xs.foldl (fun c _ => o.add c o.one) o.zero ≠ o.zero
        then [o.div (xs.foldl o.add o.zero) (xs.foldl (fun c _ => o.add c o.one) o.zero)] else []) e := by
  refine ofIter_forever ?_
  obtain ⟨s', h1, h2⟩ := avgBigLoop_eq o h o.zero o.zero
  by_cases he : e = .eoi
  · subst he
    by_cases hc : xs.foldl (fun c _ => o.add c o.one) o.zero = o.zero
    · simp only [hc, if_true, ne_eq, not_true_eq_false, and_false, if_false] at h2 ⊢
      exact .stop h2
    · simp only [hc, if_true, if_false, ne_eq, not_false_eq_true, and_self] at h2 ⊢
      refine .value h2 ?_
      obtain ⟨s2, -, g2⟩ := avgBigLoop_eq o h1 o.zero o.zero
      simp only [if_true, List.foldl_nil] at g2
      exact .stop g2
  · simp only [he, if_false, false_and] at h2 ⊢
    exact .stop h2

theorem foldl_add_eq {γ : Type} [AddCommMonoid γ] (xs : List γ) (a : γ) : xs.foldl (· + ·) a = a + xs.sum := by
  induction xs generalizing a with
  | nil => simp
  | cons x xs ih => simp [ih, add_assoc]

theorem foldl_count_eq {γ : Type} [AddCommMonoidWithOne γ] (xs : List α) (a : γ) : xs.foldl (fun c _ => c + 1) a = a + xs.length := by
  induction xs generalizing a with
  | nil => simp
  | cons x xs ih =>
    simp only [List.foldl_cons, ih, List.length_cons, Nat.cast_add, Nat.cast_one, add_assoc]
    rw [add_comm (1 : γ)]

/-- C99. SumBigOps of *big.Int and of *big.Rat values is their exact sum, however large; nothing for an empty source; an error of the source is
passed on. -/
theorem c99_sum_exact (next : Call σ Int) (nextR : Call σ ℚ) (s : σ) (xs : List Int) (qs : List ℚ) (e : Err) :
    (Yields next s xs e → YieldsForever (It.next (sumBigCall intOps next)) (ofIter (false, s))
      (if xs = [] ∨ e ≠ .eoi then [] else [xs.sum]) e) ∧
    (Yields nextR s qs e → YieldsForever (It.next (sumBigCall ratOps nextR)) (ofIter (false, s))
      (if qs = [] ∨ e ≠ .eoi then [] else [qs.sum]) e) := by
  constructor
  · intro h
    have := c33_reduce (fun a b : Int => a + b) next s xs e h
    change YieldsForever (It.next (sumBigCall intOps next)) _ _ _ at this
    cases xs with
    | nil => simpa using this
    | cons x xs =>
      by_cases he : e = .eoi
      · simpa [he, foldl_add_eq] using this
      · simpa [he] using this
  · intro h
    have := c33_reduce (fun a b : ℚ => a + b) nextR s qs e h
    change YieldsForever (It.next (sumBigCall ratOps nextR)) _ _ _ at this
    cases qs with
    | nil => simpa using this
    | cons x xs =>
      by_cases he : e = .eoi
      · simpa [he, foldl_add_eq] using this
      · simpa [he] using this

theorem ratOps_count (xs : List ℚ) : xs.foldl (fun c _ => ratOps.add c ratOps.one) ratOps.zero = xs.length := by
  have := foldl_count_eq xs (0 : ℚ)
  rwa [zero_add] at this

theorem ratOps_sum (xs : List ℚ) : xs.foldl ratOps.add ratOps.zero = xs.sum := by
  have := foldl_add_eq xs (0 : ℚ)
  rwa [zero_add] at this

theorem intOps_count (xs : List Int) : xs.foldl (fun c _ => intOps.add c intOps.one) intOps.zero = xs.length := by
  have := foldl_count_eq xs (0 : Int)
  rwa [zero_add] at this

theorem intOps_sum (xs : List Int) : xs.foldl intOps.add intOps.zero = xs.sum := by
  have := foldl_add_eq xs (0 : Int)
  rwa [zero_add] at this

/-- C99. AvgBigOps of *big.Rat values is the exact mean; nothing for an empty source; an error of the source is passed on. -/
theorem c99_avg_rat (next : Call σ ℚ) (s : σ) (xs : List ℚ) (e : Err) (h : YieldsForever next s xs e) :
    YieldsForever (It.next (avgBigCall ratOps next)) (ofIter s) (if xs = [] ∨ e ≠ .eoi then [] else [xs.sum / xs.length]) e := by
  have := avgBig_yields ratOps h
  rw [ratOps_count, ratOps_sum] at this
  by_cases he : e = .eoi
  · by_cases hx : xs = []
    · subst hx; subst he
      rwa [if_neg (by simp [ratOps])] at this
    · have h0 : (xs.length : ℚ) ≠ ratOps.zero := by
        have : 0 < xs.length := List.length_pos_iff.mpr hx
        change (xs.length : ℚ) ≠ 0
        positivity
      rw [if_pos ⟨he, h0⟩] at this
      rw [if_neg (by simp [he, hx])]
      exact this
  · rw [if_neg (by simp [he])] at this
    rw [if_pos (by simp [he])]
    exact this

example := c99_avg_rat (It.next (sliceCall [1, 2, 2])) (ofIter 0) [1, 2, 2] .eoi (c26_slice _)

/-- C99 is violated by AvgBigOps of *big.Int: the average of -1 and 0 is -1/2, which rounds to -1 (or 0), but the result is +1. -/
theorem c99_avg_int_refuted :
    YieldsForever (It.next (avgBigCall intOps (It.next (sliceCall [-1, 0])))) (ofIter (ofIter 0)) [1] .eoi ∧
    MathInt.RoundsTo (-1 + 0) 2 (-1) ∧ ¬ MathInt.RoundsTo (-1 + 0) 2 1 := by
  refine ⟨?_, by unfold MathInt.RoundsTo; decide, by unfold MathInt.RoundsTo; decide⟩
  have := avgBig_yields intOps (c26_slice [(-1 : Int), 0])
  rw [if_pos (by decide)] at this
  exact this

/-- C99 (partial): AvgBigOps of *big.Int values is the mean rounded to the nearest integer, provided that the mean is not strictly between -1
and -1/2 or equal to -1/2; nothing for an empty source; an error of the source is passed on. Missing: those means, where the result is wrong
(`c99_avg_int_refuted`). -/
theorem c99_avg_int_partial (next : Call σ Int) (s : σ) (xs : List Int) (e : Err) (h : YieldsForever next s xs e) :
    (xs = [] ∨ e ≠ .eoi → YieldsForever (It.next (avgBigCall intOps next)) (ofIter s) [] e) ∧
    (xs ≠ [] → e = .eoi → ¬ MathInt.WrongSide xs.sum xs.length →
      ∃ q, MathInt.RoundsTo xs.sum xs.length q ∧ YieldsForever (It.next (avgBigCall intOps next)) (ofIter s) [q] .eoi) := by
  have := avgBig_yields intOps h
  rw [intOps_count, intOps_sum] at this
  constructor
  · intro h
    rwa [if_neg (by rintro ⟨h1, h2⟩; rcases h with rfl | h; exacts [h2 rfl, h h1])] at this
  · rintro hx rfl hw
    have h0 : (xs.length : Int) ≠ 0 := by
      have : 0 < xs.length := List.length_pos_iff.mpr hx
      omega
    obtain ⟨q, hq, hr⟩ := MathInt.c18_divBig_partial xs.sum xs.length 0 h0 hw
    refine ⟨q, hr, ?_⟩
    rw [if_pos ⟨rfl, h0⟩] at this
    have e1 : intOps.div xs.sum xs.length = q := congrArg Prod.fst hq
    rwa [e1] at this

/-- Non-vacuity: -7, 2, 1 have the mean -4/3. -/
example : ¬ MathInt.WrongSide ([-7, 2, 1] : List Int).sum ([-7, 2, 1] : List Int).length ∧ MathInt.RoundsTo (-4) 3 (-1) := by
  unfold MathInt.WrongSide MathInt.RoundsTo; decide

/-- `q` has at most `p` significant bits. -/
def Bits (p : ℕ) (q : ℚ) : Prop := ∃ m e : ℤ, |m| < 2 ^ p ∧ q = m * 2 ^ e

theorem floatBits : Conv.bitsFor (Conv.integerToString .int 0).length = 4 := by
  have h1 : (Conv.integerToString .int 0).length = 1 := by
    have h0 : Kind.int64.wrap 0 = 0 := by decide
    unfold Conv.integerToString Conv.formatInt
    rw [h0]
    simp [Kind.signed, natChars]
  rw [h1]
  unfold Conv.bitsFor
  apply le_antisymm
  · exact Nat.clog_le_of_le_pow (by norm_num)
  · exact (Nat.lt_clog_iff_pow_lt (by norm_num)).mpr (by norm_num)

theorem round4 {q : ℚ} {p : ℕ} (h : Bits p q) : Conv.roundSig 2 p q = q := by
  obtain ⟨m, e, hm, rfl⟩ := h
  have := Conv.roundSig_exact (b := 2) (by omega) (n := p) (m := m) (e := e) (by exact_mod_cast hm)
  exact_mod_cast this

theorem floatOps_add {a b : ℚ} (h : Bits 4 (a + b)) : floatOps.add a b = a + b := by
  show Conv.roundSig 2 (Conv.bitsFor (Conv.integerToString .int 0).length) (a + b) = _
  rw [floatBits, round4 h]

theorem floatOps_fold (xs : List ℚ) (a : ℚ) (h : ∀ n, 1 ≤ n → n ≤ xs.length → Bits 4 (a + (xs.take n).sum)) :
    xs.foldl floatOps.add a = a + xs.sum := by
  induction xs generalizing a with
  | nil => simp
  | cons x xs ih =>
    have h1 := h 1 (by omega) (by simp)
    simp only [List.take_succ_cons, List.take_zero, List.sum_cons, List.sum_nil, add_zero] at h1
    rw [List.foldl_cons, floatOps_add h1, ih]
    · simp [add_assoc]
    · intro n hn hn'
      have := h (n + 1) (by omega) (by simp; omega)
      simpa [List.take_succ_cons, add_assoc] using this

/-- C99 is violated by SumBigOps and AvgBigOps of *big.Float: the accumulator has a precision of 4 bits. The sum of 16 and 1 is 16 and
their average is 8, although every *big.Float made from a float64 could hold 17 and 8.5. -/
theorem c99_float_refuted :
    YieldsForever (It.next (sumBigCall floatOps (It.next (sliceCall [16, 1])))) (ofIter (false, ofIter 0)) [16] .eoi ∧
    YieldsForever (It.next (avgBigCall floatOps (It.next (sliceCall [16, 1])))) (ofIter (ofIter 0)) [8] .eoi := by
  have add17 : floatOps.add 16 1 = 16 := by
    show Conv.roundSig 2 (Conv.bitsFor (Conv.integerToString .int 0).length) (16 + 1) = _
    rw [floatBits, show (16 + 1 : ℚ) = 17 by norm_num]
    have hl : Int.log 2 |(17 : ℚ)| = 4 := by
      rw [abs_of_nonneg (by norm_num)]
      exact Conv.log_eq_of (by omega) (by norm_num) (by norm_num) (by norm_num)
    unfold Conv.roundSig
    rw [if_neg (by norm_num), hl]
    unfold Conv.roundAt
    rw [Conv.rne_tie (n := 8) (by norm_num) (by norm_num)]
    norm_num
  constructor
  · have := c33_reduce floatOps.add (It.next (sliceCall [(16 : ℚ), 1])) (ofIter 0) [16, 1] .eoi (yields_of_forever (c26_slice _))
    simp only [if_true, List.foldl_cons, List.foldl_nil, add17] at this
    exact this
  · have := avgBig_yields floatOps (c26_slice [(16 : ℚ), 1])
    have a1 : floatOps.add 0 16 = 16 := by rw [floatOps_add ⟨1, 4, by norm_num, by norm_num⟩]; norm_num
    have a2 : floatOps.add 0 1 = 1 := by rw [floatOps_add ⟨1, 0, by norm_num, by norm_num⟩]; norm_num
    have a3 : floatOps.add 1 1 = 2 := by rw [floatOps_add ⟨1, 1, by norm_num, by norm_num⟩]; norm_num
    have d : floatOps.div 16 2 = 8 := by
      show Conv.roundSig 2 53 (16 / 2) = 8
      rw [round4 ⟨1, 3, by norm_num, by norm_num⟩]; norm_num
    have z : floatOps.zero = 0 := rfl
    have o : floatOps.one = 1 := rfl
    simp only [z, o, List.foldl_cons, List.foldl_nil, a1, a2, a3, add17, d] at this
    rwa [if_pos (by simp)] at this

/-- C99 (partial): SumBigOps and AvgBigOps of finite *big.Float values are exact (the average: rounded to 53 bits), if there are at most 16
values and every partial sum has at most 4 significant bits. Missing: all other inputs, where the accumulator loses bits
(`c99_float_refuted`). -/
theorem c99_float_partial (next : Call σ ℚ) (s : σ) (xs : List ℚ) (h : YieldsForever next s xs .eoi) (hx : xs ≠ [])
    (hs : ∀ n, n ≤ xs.length → Bits 4 (xs.take n).sum) (hl : xs.length ≤ 16) :
    YieldsForever (It.next (sumBigCall floatOps next)) (ofIter (false, s)) [xs.sum] .eoi ∧
    YieldsForever (It.next (avgBigCall floatOps next)) (ofIter s) [Conv.roundSig 2 53 (xs.sum / xs.length)] .eoi ∧
    (Bits 53 (xs.sum / xs.length) → YieldsForever (It.next (avgBigCall floatOps next)) (ofIter s) [xs.sum / xs.length] .eoi) := by
  have hsum : xs.foldl floatOps.add floatOps.zero = xs.sum := by
    show xs.foldl floatOps.add 0 = _
    rw [floatOps_fold, zero_add]
    intro n _ hn
    rw [zero_add]; exact hs n hn
  have hcnt : ∀ (ys : List ℚ) (c : ℕ), c + ys.length ≤ 16 → ys.foldl (fun c _ => floatOps.add c floatOps.one) (c : ℚ) = ((c + ys.length : ℕ) : ℚ) := by
    intro ys
    induction ys with
    | nil => intro c _; simp
    | cons y ys ih =>
      intro c hc
      simp only [List.length_cons] at hc
      have : floatOps.add (c : ℚ) floatOps.one = ((c + 1 : ℕ) : ℚ) := by
        show floatOps.add (c : ℚ) 1 = _
        rw [floatOps_add]
        · push_cast; rfl
        · by_cases h16 : c = 15
          · exact ⟨1, 4, by norm_num, by rw [h16]; norm_num⟩
          · refine ⟨c + 1, 0, ?_, by push_cast; simp⟩
            rw [abs_of_nonneg (by omega)]; norm_num; omega
      simp only [List.foldl_cons, this]
      rw [ih (c + 1) (by omega)]
      simp only [List.length_cons]; congr 1; omega
  have hcnt' : xs.foldl (fun c _ => floatOps.add c floatOps.one) floatOps.zero = (xs.length : ℚ) := by
    have := hcnt xs 0 (by omega)
    rw [Nat.zero_add, Nat.cast_zero] at this
    exact this
  have havg := avgBig_yields floatOps h
  have h0 : (xs.length : ℚ) ≠ floatOps.zero := by
    have : 0 < xs.length := List.length_pos_iff.mpr hx
    change (xs.length : ℚ) ≠ 0
    positivity
  rw [hsum, hcnt', if_pos ⟨rfl, h0⟩] at havg
  refine ⟨?_, havg, fun hb => ?_⟩
  · have := c33_reduce floatOps.add next s xs .eoi (yields_of_forever h)
    cases xs with
    | nil => exact absurd rfl hx
    | cons x xs =>
      simp only [if_true] at this
      rw [floatOps_fold] at this
      · exact this
      · intro n _ hn
        have := hs (n + 1) (by simp; omega)
        simpa using this
  · have hd : floatOps.div xs.sum (xs.length : ℚ) = xs.sum / xs.length := round4 hb
    rwa [hd] at havg

/-- Non-vacuity: 1.5, 2.5 and 3.5 (partial sums 1.5, 4 and 7.5). -/
example : ∀ n, n ≤ ([3 / 2, 5 / 2, 7 / 2] : List ℚ).length → Bits 4 (([3 / 2, 5 / 2, 7 / 2] : List ℚ).take n).sum := by
  intro n hn
  simp only [List.length_cons, List.length_nil] at hn
  obtain rfl | rfl | rfl | rfl : n = 0 ∨ n = 1 ∨ n = 2 ∨ n = 3 := by omega
  · exact ⟨0, 0, by norm_num, by norm_num⟩
  · exact ⟨3, -1, by norm_num, by norm_num⟩
  · exact ⟨1, 2, by norm_num, by norm_num⟩
  · exact ⟨15, -1, by norm_num, by norm_num⟩

/-! ### C100 -/

theorem wrap_wrap_add (k : Kind) (a b : Int) : k.wrap (k.wrap a + b) = k.wrap (a + b) := by
  cases k <;> simp [Kind.wrap, Kind.signed, Kind.bits] <;> grind

theorem sum_fold (k : Kind) (xs : List Int) (a : Int) (ha : k.InRange a) : xs.foldl (fun a b => k.wrap (a + b)) a = k.wrap (a + xs.sum) := by
  induction xs generalizing a with
  | nil => simp [Kind.wrap_of_inRange ha]
  | cons x xs ih =>
    simp only [List.foldl_cons, List.sum_cons]
    rw [ih _ (Kind.wrap_inRange k _), wrap_wrap_add, add_assoc]

/-- C100. Sum of integers: the exact sum reduced to the type (with wrap-around); nothing for an empty source; an error of the source is passed
on. -/
theorem c100_sum_wrap (k : Kind) (next : Call σ Int) (s : σ) (xs : List Int) (e : Err) (h : Yields next s xs e) (hx : ∀ x ∈ xs, k.InRange x) :
    YieldsForever (It.next (sumCall k next)) (ofIter (false, s)) (if xs = [] ∨ e ≠ .eoi then [] else [k.wrap xs.sum]) e := by
  have := c33_reduce (fun a b : Int => k.wrap (a + b)) next s xs e h
  change YieldsForever (It.next (sumCall k next)) _ _ _ at this
  cases xs with
  | nil => simpa using this
  | cons x xs =>
    have hf := sum_fold k xs x (hx x (by simp))
    by_cases he : e = .eoi
    · simp only [he, if_true, hf] at this
      simpa [he] using this
    · simp only [he, if_false] at this
      simpa [he] using this

example := c100_sum_wrap .int8 (It.next (sliceCall [100, 100, -3])) (ofIter 0) [100, 100, -3] .eoi (yields_of_forever (c26_slice _)) (by decide)

/-- C100 is violated by Sum: the sum of the int8 values 100 and 100 is delivered as -56, without an error. -/
theorem c100_sum_refuted :
    YieldsForever (It.next (sumCall .int8 (It.next (sliceCall [100, 100])))) (ofIter (false, ofIter 0)) [-56] .eoi := by
  have := c100_sum_wrap .int8 _ _ _ _ (yields_of_forever (c26_slice [(100 : Int), 100])) (by decide)
  exact this

/-- C100 (partial): Sum is exact whenever the sum of all the values is in the range of the type, even if a partial sum is not. Missing: sums
out of range, which wrap around without an error (`c100_sum_refuted`). -/
theorem c100_sum_partial (k : Kind) (next : Call σ Int) (s : σ) (xs : List Int) (h : Yields next s xs .eoi)
    (hx : ∀ x ∈ xs, k.InRange x) (hs : k.InRange xs.sum) (h0 : xs ≠ []) :
    YieldsForever (It.next (sumCall k next)) (ofIter (false, s)) [xs.sum] .eoi := by
  have := c100_sum_wrap k next s xs .eoi h hx
  simpa [h0, Kind.wrap_of_inRange hs] using this

/-- Non-vacuity: 100 + 100 - 100 as int8 overflows on the way. -/
example : (∀ x ∈ ([100, 100, -100] : List Int), Kind.int8.InRange x) ∧ Kind.int8.InRange ([100, 100, -100] : List Int).sum ∧
    ¬ Kind.int8.InRange (100 + 100) := by decide

theorem absFn_eq (k : Kind) (hk : k.signed = true) (v : Int) (h : k.InRange v) :
    absFn k v = if v = k.minV then .error .abs else .ok |v| := by
  rw [Int.abs_eq_natAbs]
  cases k <;> simp [Kind.signed] at hk <;>
    simp [absFn, Kind.InRange, Kind.minV, Kind.maxV, Kind.wrap, Kind.signed, Kind.bits] at h ⊢ <;> grind

/-- C100. Abs delivers the absolute values, up to the first value that has none (the minimum of the type), where it delivers an error. -/
theorem c100_abs (k : Kind) (hk : k.signed = true) (next : Call σ Int) (s : σ) (xs : List Int) (e : Err) (h : Yields next s xs e)
    (hx : ∀ x ∈ xs, k.InRange x) :
    (k.minV ∉ xs → YieldsForever (It.next (mapErrorCall (absFn k) next)) (ofIter s) (xs.map (|·|)) e) ∧
    (∀ before after, xs = before ++ k.minV :: after → k.minV ∉ before →
      YieldsForever (It.next (mapErrorCall (absFn k) next)) (ofIter s) (before.map (|·|)) .abs) := by
  have hm := c32_mapError (absFn k) next s xs e h
  have gen : ∀ (before after : List Int), (∀ x ∈ before, k.InRange x) → k.minV ∉ before →
      mapUntil (absFn k) e (before ++ after) = (before.map (|·|) ++ (mapUntil (absFn k) e after).1, (mapUntil (absFn k) e after).2) := by
    intro before after h1 h2
    induction before with
    | nil => simp
    | cons b before ih =>
      have hb := absFn_eq k hk b (h1 b (by simp))
      rw [if_neg (by rintro rfl; simp at h2)] at hb
      simp only [List.cons_append, mapUntil, hb]
      rw [ih (fun x hx => h1 x (by simp [hx])) (by simp at h2; exact h2.2)]
      simp
  constructor
  · intro h0
    have := gen xs [] hx h0
    simp only [List.append_nil, mapUntil] at this
    rwa [this] at hm
  · rintro before after rfl h0
    have := gen before (k.minV :: after) (fun x hx' => hx x (by simp [hx'])) h0
    have hb := absFn_eq k hk k.minV (hx _ (by simp))
    rw [if_pos rfl] at hb
    simp only [mapUntil, hb, List.append_nil] at this
    rwa [this] at hm

/-- Non-vacuity. -/
example : (-128 : Int) ∉ ([-5, 7] : List Int) ∧ Kind.int8.minV = -128 ∧ ([-5, 7, -128, 3] : List Int) = [-5, 7] ++ -128 :: [3] := by decide

/-- C100 is violated by AbsBigOps: it changes the numbers the source points to. Reading one element of a stream of pointers through AbsBigOps
turns the -5 at address 0, which belongs to the owner of the source, into 5. -/
theorem c100_absBig_refuted :
    takeN (absBigCall (sliceCall [0])) 1 (fun _ => -5, 0) = some ([0], (fun b => if b = 0 then 5 else -5, 1)) := by
  simp only [takeN, absBigCall, sliceCall]
  simp

/-- C100 (partial): AbsBigOps delivers the pointers of the source in order, and afterwards each of them points to the absolute value of the
number it pointed to before; no other number is changed. Missing: the numbers of the source themselves are changed
(`c100_absBig_refuted`). -/
theorem c100_absBig_partial (next : Call σ Nat) (n : Nat) (m : Nat → Int) (s s' : σ) (ps : List Nat) (h : takeN next n s = some (ps, s')) :
    takeN (absBigCall next) n (m, s) = some (ps, (fun a => if a ∈ ps then |m a| else m a, s')) := by
  induction n generalizing s ps m with
  | zero => simp [takeN] at h ⊢; obtain ⟨rfl, rfl⟩ := h; simp
  | succ n ih =>
    simp only [takeN] at h ⊢
    split at h
    · rename_i v s1 hs
      rcases ht : takeN next n s1 with _ | ⟨vs, s2⟩ <;> simp [ht] at h
      obtain ⟨rfl, rfl⟩ := h
      simp only [absBigCall, hs]
      rw [ih _ _ _ ht]
      simp only [Option.map_some, Option.some.injEq, Prod.mk.injEq, true_and, and_true]
      funext a
      by_cases h1 : a = v <;> by_cases h2 : a ∈ vs <;> simp [h1, h2]
    · simp at h

example := c100_absBig_partial (sliceCall [4, 9, 4]) 3 (fun a => -a) 0 3 [4, 9, 4] (by simp [takeN, sliceCall])

/-- C100 for AbsBigOps: errors of the source are passed on, and nothing changes then. -/
theorem c100_absBig_error (next : Call σ Nat) (m : Nat → Int) (s s' : σ) (e : Err) (h : next s = some (.error e, s')) :
    absBigCall next (m, s) = some (.error e, (m, s')) := by
  simp [absBigCall, h]

/-- Non-vacuity: three pointers, two of them equal. -/
example : takeN (sliceCall [4, 9, 4]) 3 0 = some ([4, 9, 4], 3) := by
  simp [takeN, sliceCall]

/-! ### C101 -/

theorem nextMap_eq {κ ν : Type} {next : Call σ (Option (List (κ × ν)))} {s : σ} {ls : List (Option (List (κ × ν)))} {e : Err}
    (h : Yields next s ls e) :
    (∃ v vs s' ls', nextMap next s = some (.ok (v, vs), s') ∧ Yields next s' ls' e ∧
      (ls.map (·.getD [])).flatten = (v :: vs) ++ (ls'.map (·.getD [])).flatten ∧ ls'.length < ls.length) ∨
    (∃ s', nextMap next s = some (.error e, s') ∧ (ls.map (·.getD [])).flatten = []) := by
  induction h with
  | @stop s s' e h => right; exact ⟨s', by rw [nextMap]; simp only [h], rfl⟩
  | @value s s' x xs e h hy ih =>
    rw [nextMap]; simp only [h]
    rcases x with _ | _ | ⟨v, vs⟩
    · rcases ih with ⟨v, vs, s1, ls', h1, h2, h3, h4⟩ | ⟨s1, h1, h2⟩
      · left; exact ⟨v, vs, s1, ls', h1, h2, by simpa using h3, by simp; omega⟩
      · right; exact ⟨s1, h1, by simpa using h2⟩
    · rcases ih with ⟨v, vs, s1, ls', h1, h2, h3, h4⟩ | ⟨s1, h1, h2⟩
      · left; exact ⟨v, vs, s1, ls', h1, h2, by simpa using h3, by simp; omega⟩
      · right; exact ⟨s1, h1, by simpa using h2⟩
    · left; exact ⟨v, vs, s', xs, rfl, hy, by simp, by simp⟩

theorem expandMaps_within {κ ν : Type} {nilK : κ → Bool} {nilV : ν → Bool} {next : Call σ (Option (List (κ × ν)))} (l : List (κ × ν))
    {s : σ} {ys : List (κ × ν)} {e : Err} (hn : ∀ kv ∈ l, nilK kv.1 = false ∧ nilV kv.2 = false)
    (h : Yields (expandMapsCall nilK nilV next) (some [], s) ys e) : Yields (expandMapsCall nilK nilV next) (some l, s) (l ++ ys) e := by
  induction l with
  | nil => exact h
  | cons kv l ih =>
    obtain ⟨h1, h2⟩ := hn kv List.mem_cons_self
    exact .value (s' := (some l, s)) (by simp [expandMapsCall, assertIface, h1, h2]) (ih (fun kv hkv => hn kv (List.mem_cons_of_mem _ hkv)))

theorem expandMaps_yields {κ ν : Type} {nilK : κ → Bool} {nilV : ν → Bool} {next : Call σ (Option (List (κ × ν)))} (n : Nat) :
    ∀ {s : σ} {ls : List (Option (List (κ × ν)))} {e : Err},
    ls.length ≤ n → (∀ kv ∈ (ls.map (·.getD [])).flatten, nilK kv.1 = false ∧ nilV kv.2 = false) → Yields next s ls e →
    ∀ cur : Option (List (κ × ν)), cur = none ∨ cur = some [] →
    Yields (expandMapsCall nilK nilV next) (cur, s) (ls.map (·.getD [])).flatten e := by
  induction n with
  | zero =>
    intro s ls e hl _ h cur hc
    have : ls = [] := List.length_eq_zero_iff.mp (by omega)
    subst this
    rcases nextMap_eq h with ⟨_, _, _, _, _, _, _, h4⟩ | ⟨s1, h1, _⟩
    · simp at h4
    · refine .stop (s' := (none, s1)) ?_
      rcases hc with rfl | rfl <;> simp [expandMapsCall, h1]
  | succ n ih =>
    intro s ls e hl hn h cur hc
    rcases nextMap_eq h with ⟨v, vs, s1, ls', h1, h2, h3, h4⟩ | ⟨s1, h1, h3⟩
    · rw [h3] at hn ⊢
      obtain ⟨hn1, hn2⟩ := List.forall_mem_append.mp hn
      obtain ⟨hv1, hv2⟩ := hn1 v List.mem_cons_self
      refine .value (s' := (some vs, s1)) ?_ ?_
      · rcases hc with rfl | rfl <;> simp [expandMapsCall, h1, assertIface, hv1, hv2]
      · exact expandMaps_within vs (fun kv hkv => hn1 kv (List.mem_cons_of_mem _ hkv)) (ih (by omega) hn2 h2 (some []) (.inr rfl))
    · rw [h3]
      refine .stop (s' := (none, s1)) ?_
      rcases hc with rfl | rfl <;> simp [expandMapsCall, h1]

/-- Every value that ExpandMaps delivers is neither a nil key nor a nil value. -/
theorem expandMaps_ok {κ ν : Type} {nilK : κ → Bool} {nilV : ν → Bool} {next : Call σ (Option (List (κ × ν)))}
    {st st' : Option (List (κ × ν)) × σ} {kv : κ × ν} (h : expandMapsCall nilK nilV next st = some (.ok kv, st')) :
    nilK kv.1 = false ∧ nilV kv.2 = false := by
  obtain ⟨cur, s⟩ := st
  have key : ∀ (e : κ × ν) (t : Option (List (κ × ν)) × σ),
      (match assertIface nilK e.1, assertIface nilV e.2 with
        | some k, some v => some (Except.ok (ε := Err) (k, v), t)
        | _, _ => none) = some (.ok kv, st') → nilK kv.1 = false ∧ nilV kv.2 = false := by
    intro e t he
    cases hk : nilK e.1
    · cases hv : nilV e.2
      · simp only [assertIface, hk, hv] at he
        simp only [Bool.false_eq_true, if_false, Option.some.injEq, Prod.mk.injEq, Except.ok.injEq] at he
        rw [← he.1]; exact ⟨hk, hv⟩
      · simp [assertIface, hk, hv] at he
    · simp [assertIface, hk] at he
  simp only [expandMapsCall] at h
  split at h
  · exact key _ _ h
  · split at h
    · cases h
    · simp at h
    · exact key _ _ h

/-- C101. Exactly when ExpandMaps delivers the entries of the maps of the source, map by map, each entry once, nil and empty maps skipped, an error of
the source passed on after the entries of the maps before it: when no key and no value is a nil interface. (Each map is given by its entries in the order
in which the runtime visits them.) -/
theorem c101_expandMaps_iff {κ ν : Type} (nilK : κ → Bool) (nilV : ν → Bool) (next : Call σ (Option (List (κ × ν)))) (s : σ)
    (ls : List (Option (List (κ × ν)))) (e : Err) (h : Yields next s ls e) :
    YieldsForever (It.next (expandMapsCall nilK nilV next)) (ofIter (none, s)) (ls.map (·.getD [])).flatten e ↔
      ∀ l, some l ∈ ls → ∀ kv ∈ l, nilK kv.1 = false ∧ nilV kv.2 = false := by
  have hflat : (∀ kv ∈ (ls.map (·.getD [])).flatten, nilK kv.1 = false ∧ nilV kv.2 = false) ↔
      ∀ l, some l ∈ ls → ∀ kv ∈ l, nilK kv.1 = false ∧ nilV kv.2 = false := by
    constructor
    · intro hh l hl kv hkv
      exact hh kv (List.mem_flatten.mpr ⟨l, List.mem_map.mpr ⟨some l, hl, rfl⟩, hkv⟩)
    · intro hh kv hkv
      obtain ⟨l, hl, hm⟩ := List.mem_flatten.mp hkv
      obtain ⟨o, ho, rfl⟩ := List.mem_map.mp hl
      cases o with
      | none => simp at hm
      | some l => exact hh l ho kv hm
  rw [← hflat]
  constructor
  · intro hy kv hkv
    have h2 := yields_of_forever hy
    have gen : ∀ (it : It (Option (List (κ × ν)) × σ) (κ × ν)) (xs : List (κ × ν)) (e : Err), it.buffer = [] →
        Yields (It.next (expandMapsCall nilK nilV next)) it xs e → ∀ kv ∈ xs, nilK kv.1 = false ∧ nilV kv.2 = false := by
      intro it xs e hb hyy
      induction hyy with
      | stop _ => simp
      | @value it it' x xs e hc _ ih =>
        have hstep : (nilK x.1 = false ∧ nilV x.2 = false) ∧ it'.buffer = [] := by
          simp only [It.next, hb, List.getLast?_nil] at hc
          split at hc
          · split at hc
            · cases hc
            · rename_i hcall
              simp only [Option.some.injEq, Prod.mk.injEq, Except.ok.injEq] at hc
              obtain ⟨rfl, rfl⟩ := hc
              exact ⟨expandMaps_ok hcall, by first | rfl | exact hb⟩
            · simp at hc
          · simp only [It.stopped] at hc
            split at hc <;> simp at hc
        intro kv hkv
        rcases List.mem_cons.mp hkv with rfl | hkv
        · exact hstep.1
        · exact ih hstep.2 kv hkv
    exact gen _ _ _ rfl h2 kv hkv
  · intro hn
    exact ofIter_forever (expandMaps_yields ls.length (le_refl _) hn h none (.inl rfl))

/-- C101 is violated: ExpandMaps over map[string]any{"a": nil} panics (`none` is the nil interface). -/
theorem c101_refuted : It.next (expandMapsCall (fun _ : String => false) (Option.isNone (α := Nat)) (It.next (sliceCall [some [("a", none)]])))
    (ofIter (none, ofIter 0)) = none := by
  simp only [It.next, ofIter, List.getLast?_nil, expandMapsCall]
  rw [nextMap]
  simp [It.next, sliceCall, assertIface]

/-- C101. For maps without nil interfaces, ReduceToMap after ExpandMaps is the union of the maps, later maps winning; for a single map (whose keys
are distinct) it is that map, whatever the order of its entries. Missing: maps with nil interfaces (`c101_refuted`). -/
theorem c101_inverse_partial {κ ν : Type} [DecidableEq κ] (nilK : κ → Bool) (nilV : ν → Bool) (next : Call σ (Option (List (κ × ν)))) (s : σ)
    (ls : List (Option (List (κ × ν)))) (h : Yields next s ls .eoi)
    (hn : ∀ l, some l ∈ ls → ∀ kv ∈ l, nilK kv.1 = false ∧ nilV kv.2 = false) :
    ∃ m : κ → Option ν,
      YieldsForever (It.next (reduceToMapCall (It.next (expandMapsCall nilK nilV next)))) (ofIter (false, ofIter (none, s))) [m] .eoi ∧
      (∀ k v, m k = some v ↔ ∃ before after, (ls.map (·.getD [])).flatten = before ++ (k, v) :: after ∧ ∀ kv ∈ after, kv.1 ≠ k) ∧
      (∀ l, ls = [some l] → (l.map Prod.fst).Nodup → ∀ k v, m k = some v ↔ (k, v) ∈ l) := by
  obtain ⟨m, h1, h2, h3⟩ := c37_reduceToMap _ _ _ (yields_of_forever ((c101_expandMaps_iff nilK nilV next s ls .eoi h).mpr hn))
  refine ⟨m, h1, h2, ?_⟩
  rintro l rfl hnd k v
  rw [h2]
  simp only [List.map_cons, List.map_nil, Option.getD_some, List.flatten_cons, List.flatten_nil, List.append_nil]
  constructor
  · rintro ⟨b, a, rfl, -⟩; simp
  · intro hm
    obtain ⟨b, a, rfl⟩ := List.append_of_mem hm
    refine ⟨b, a, rfl, fun kv hkv hk => ?_⟩
    simp only [List.map_append, List.map_cons, List.nodup_append, List.nodup_cons] at hnd
    exact hnd.2.1.1 (List.mem_map.mpr ⟨kv, hkv, hk⟩)

/-- Non-vacuity: two maps with a nil and an empty one between them. -/
example : YieldsForever (It.next (expandMapsCall (fun _ => false) (fun _ => false) (It.next (sliceCall [some [(1, 'a'), (2, 'b')], none, some [], some [(3, 'c')]]))))
    (ofIter (none, ofIter 0)) [(1, 'a'), (2, 'b'), (3, 'c')] .eoi :=
  (c101_expandMaps_iff _ _ _ _ _ _ (yields_of_forever (c26_slice [some [(1, 'a'), (2, 'b')], none, some [], some [(3, 'c')]]))).mpr (by simp)

/-! ### C102 -/

/-- The documented behaviour of Generator: a new function is made when the iterator differs from the one of the previous use. `prev` is the
iterator and the function number of the previous use, `made` the number of functions made. -/
def docUses : Option (Nat × Nat) → Nat → List Nat → List Nat
  | _, _, [] => []
  | none, made, it :: its => made :: docUses (some (it, made)) (made + 1) its
  | some (p, f), made, it :: its => if p = it then f :: docUses (some (p, f)) made its else made :: docUses (some (it, made)) (made + 1) its

/-- C102 is violated: used twice on the same iterator, Generator makes two functions, so the state of the first one is lost. -/
theorem c102_refuted : docUses none 0 [7, 7] = [0, 0] ∧ genUses genInit [some 7, some 7] = some [0, 1] := by decide

theorem genUses_fresh (its : List Nat) (fn : Option Nat) (made : Nat) :
    genUses ⟨none, fn, made⟩ (its.map some) = some (List.range' made its.length) := by
  induction its generalizing fn made with
  | nil => rfl
  | cons it its ih =>
    have : genUse ⟨none, fn, made⟩ (some it) = some (made, ⟨none, some made, made + 1⟩) := by simp [genUse]
    simp only [List.map_cons, genUses, this]
    rw [ih]
    simp [List.range'_succ]

/-- C102. Every use of a Generator on an iterator starts with a new function: use number i applies the i-th function made, for all histories of
uses. In particular no state is carried from one data set to another. -/
theorem c102_fresh (its : List Nat) : genUses genInit (its.map some) = some (List.range its.length) := by
  rw [genInit, genUses_fresh, List.range_eq_range']

/-- C102 (partial): the documented behaviour, for histories in which the same iterator is never used twice in a row. Missing: those, where the
function is not reused (`c102_refuted`). -/
theorem c102_partial (its : List Nat) (h : its.IsChain (· ≠ ·)) : genUses genInit (its.map some) = some (docUses none 0 its) := by
  rw [c102_fresh, List.range_eq_range']
  have gen : ∀ (its : List Nat) (p f made : Nat), (p :: its).IsChain (· ≠ ·) → docUses (some (p, f)) made its = List.range' made its.length := by
    intro its
    induction its with
    | nil => intro p f made _; rfl
    | cons it its ih =>
      intro p f made h
      rw [List.isChain_cons_cons] at h
      simp only [docUses, if_neg h.1]
      rw [ih it made (made + 1) h.2]
      simp [List.range'_succ]
  cases its with
  | nil => rfl
  | cons it its =>
    simp only [docUses, List.length_cons, List.range'_succ]
    rw [gen its it 0 1 h]

/-- Non-vacuity. -/
example : [1, 2, 1, 3].IsChain (· ≠ ·) ∧ docUses none 0 [1, 2, 1, 3] = [0, 1, 2, 3] := by decide

/-- C102. A nil iterator: as the first use it panics; later it is given to the function of the use before. -/
theorem c102_nil (its : List Nat) (it : Nat) :
    genUses genInit [none] = none ∧
    genUses genInit ((its ++ [it]).map some ++ [none]) = some (List.range (its.length + 1) ++ [its.length]) := by
  refine ⟨by decide, ?_⟩
  have gen : ∀ (its : List Nat) (fn : Option Nat) (made it : Nat),
      genUses ⟨none, fn, made⟩ ((its ++ [it]).map some ++ [none]) = some (List.range' made (its.length + 1) ++ [made + its.length]) := by
    intro its
    induction its with
    | nil =>
      intro fn made it
      simp [genUses, genUse, List.range'_succ]
    | cons jt its ih =>
      intro fn made it
      have : genUse ⟨none, fn, made⟩ (some jt) = some (made, ⟨none, some made, made + 1⟩) := by simp [genUse]
      simp only [List.cons_append, List.map_cons, genUses, this]
      rw [ih]
      simp [List.range'_succ]
      omega
  rw [genInit, gen, List.range_eq_range', Nat.zero_add]

end Micro.Stream
