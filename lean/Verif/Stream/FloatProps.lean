import Verif.Stream.FloatModel
import Verif.Stream.Props
import Verif.MathInt.RangeProps
set_option linter.unusedSimpArgs false
/-
C121: Max and Min of a stream of any ordered type, with NaN. C38 for every comparable type, with NaN.
-/
namespace Micro.Stream
open Micro Micro.Iter Micro.Funcs Micro.MathInt

variable {σ α : Type}

/-! ### C121 -/

section
variable [GoOrdered α] [LawfulOrdered α]

/-- The fold of the values after a NaN n. -/
def afterNan {α : Type} (pick : α → α → α) (n : α) : List α → α
  | [] => n
  | y :: ys => ys.foldl pick y

/-- What is in front of a value that is no number, and that value itself, do not matter. -/
theorem fold_pick_last (pick : α → α → α) (hn : ∀ a b : α, ¬ Numbers.isNum a ∨ ¬ Numbers.isNum b → pick a b = b) (x n : α)
    (pre post : List α) (hnn : ¬ Numbers.isNum n) :
    (pre ++ n :: post).foldl pick x = afterNan pick n post := by
  rw [List.foldl_append, List.foldl_cons, hn _ n (.inr hnn)]
  cases post with
  | nil => rfl
  | cons y ys => rw [List.foldl_cons, hn n y (.inl hnn)]; rfl

theorem fold_pick_best (pick : α → α → α) (le : α → α → Prop) (refl : ∀ a, le a a) (htrans : ∀ a b c, le a b → le b c → le a c)
    (hp : ∀ a b : α, Numbers.isNum a → Numbers.isNum b → (pick a b = a ∨ pick a b = b) ∧ le a (pick a b) ∧ le b (pick a b))
    (xs : List α) (x : α) (hx : ∀ y ∈ x :: xs, Numbers.isNum y) :
    xs.foldl pick x ∈ x :: xs ∧ ∀ y ∈ x :: xs, le y (xs.foldl pick x) := by
  induction xs generalizing x with
  | nil => exact ⟨by simp, by simpa using refl x⟩
  | cons z xs ih =>
    obtain ⟨h1, h2, h3⟩ := hp x z (hx x (by simp)) (hx z (by simp))
    have hnum : Numbers.isNum (pick x z) := by rcases h1 with h | h <;> rw [h] <;> exact hx _ (by simp)
    obtain ⟨i1, i2⟩ := ih (pick x z) (by
      intro y hy
      rcases List.mem_cons.mp hy with rfl | hy
      · exact hnum
      · exact hx y (by simp [hy]))
    rw [List.foldl_cons]
    have ip := i2 (pick x z) (by simp)
    refine ⟨?_, ?_⟩
    · rcases List.mem_cons.mp i1 with h | h
      · rw [h]; rcases h1 with h | h <;> simp [h]
      · simp [h]
    · intro y hy
      simp only [List.mem_cons] at hy
      rcases hy with rfl | rfl | hy
      · exact htrans _ _ _ h2 ip
      · exact htrans _ _ _ h3 ip
      · exact i2 y (by simp [hy])

theorem pick_max_nan (a b : α) (h : ¬ Numbers.isNum a ∨ ¬ Numbers.isNum b) : (if GoOrdered.lt b a then a else b) = b := by
  have : GoOrdered.lt b a ≠ true := by rw [Ne, LawfulOrdered.lt_iff]; tauto
  simp [this]

theorem pick_min_nan (a b : α) (h : ¬ Numbers.isNum a ∨ ¬ Numbers.isNum b) : (if GoOrdered.lt a b then a else b) = b := by
  have : GoOrdered.lt a b ≠ true := by rw [Ne, LawfulOrdered.lt_iff]; tauto
  simp [this]

theorem pick_max_num (a b : α) (ha : Numbers.isNum a) (hb : Numbers.isNum b) :
    ((if GoOrdered.lt b a then a else b) = a ∨ (if GoOrdered.lt b a then a else b) = b) ∧
    Numbers.key a ≤ Numbers.key (if GoOrdered.lt b a then a else b) ∧ Numbers.key b ≤ Numbers.key (if GoOrdered.lt b a then a else b) := by
  by_cases h : GoOrdered.lt b a = true
  · have := ((LawfulOrdered.lt_iff b a).mp h).2.2
    simp [h, this.le]
  · have : Numbers.key a ≤ Numbers.key b := not_lt.mp (fun g => h ((LawfulOrdered.lt_iff b a).mpr ⟨hb, ha, g⟩))
    simp [h, this]

theorem pick_min_num (a b : α) (ha : Numbers.isNum a) (hb : Numbers.isNum b) :
    ((if GoOrdered.lt a b then a else b) = a ∨ (if GoOrdered.lt a b then a else b) = b) ∧
    Numbers.key (if GoOrdered.lt a b then a else b) ≤ Numbers.key a ∧ Numbers.key (if GoOrdered.lt a b then a else b) ≤ Numbers.key b := by
  by_cases h : GoOrdered.lt a b = true
  · have := ((LawfulOrdered.lt_iff a b).mp h).2.2
    simp [h, this.le]
  · have : Numbers.key b ≤ Numbers.key a := not_lt.mp (fun g => h ((LawfulOrdered.lt_iff a b).mpr ⟨ha, hb, g⟩))
    simp [h, this]

/-- C121, the full demand for Max and Min on the values xs of a stream: both are numbers of the stream, and no number of the stream is greater than the
one or less than the other. -/
def MaxMinOk (next : Call σ α) (s : σ) (xs : List α) : Prop :=
  ∃ m M, YieldsForever (It.next (maxGoCall next)) (ofIter (false, s)) [M] .eoi ∧
    YieldsForever (It.next (minGoCall next)) (ofIter (false, s)) [m] .eoi ∧
    m ∈ xs ∧ M ∈ xs ∧ Numbers.isNum m ∧ Numbers.isNum M ∧
    ∀ y ∈ xs, Numbers.isNum y → Numbers.key m ≤ Numbers.key y ∧ Numbers.key y ≤ Numbers.key M

/-- C121. Max and Min of a stream without NaN are its greatest and least value. Missing: NaN (`c121_refuted`, `c121_after_nan`). -/
theorem c121_numbers_partial (next : Call σ α) (s : σ) (xs : List α) (h : Yields next s xs .eoi) (hne : xs ≠ [])
    (hnum : ∀ x ∈ xs, Numbers.isNum x) : MaxMinOk next s xs := by
  cases xs with
  | nil => exact absurd rfl hne
  | cons x xs =>
    have hmax := c33_reduce (fun a b : α => if GoOrdered.lt b a then a else b) next s (x :: xs) .eoi h
    have hmin := c33_reduce (fun a b : α => if GoOrdered.lt a b then a else b) next s (x :: xs) .eoi h
    simp only [if_true] at hmax hmin
    obtain ⟨a1, a2⟩ := fold_pick_best (fun a b : α => if GoOrdered.lt b a then a else b) (fun a b => Numbers.key a ≤ Numbers.key b)
      (fun _ => le_refl _) (fun _ _ _ => le_trans) pick_max_num xs x hnum
    obtain ⟨b1, b2⟩ := fold_pick_best (fun a b : α => if GoOrdered.lt a b then a else b) (fun a b => Numbers.key b ≤ Numbers.key a)
      (fun _ => le_refl _) (fun _ _ _ h1 h2 => le_trans h2 h1) pick_min_num xs x hnum
    exact ⟨_, _, hmax, hmin, b1, a1, hnum _ b1, hnum _ a1, fun y hy _ => ⟨b2 y hy, a2 y hy⟩⟩

/-- C121. What Max and Min of a stream with NaN are, exactly: the values up to and including the last NaN do not count; if the last value is a
NaN, the result is NaN. -/
theorem c121_after_nan (next : Call σ α) (s : σ) (pre post : List α) (n : α) (hn : ¬ Numbers.isNum n) (hpost : ∀ y ∈ post, Numbers.isNum y)
    (h : Yields next s (pre ++ n :: post) .eoi) :
    (post = [] → YieldsForever (It.next (maxGoCall next)) (ofIter (false, s)) [n] .eoi ∧
      YieldsForever (It.next (minGoCall next)) (ofIter (false, s)) [n] .eoi) ∧
    (post ≠ [] → ∃ m M, YieldsForever (It.next (maxGoCall next)) (ofIter (false, s)) [M] .eoi ∧
      YieldsForever (It.next (minGoCall next)) (ofIter (false, s)) [m] .eoi ∧
      m ∈ post ∧ M ∈ post ∧ ∀ y ∈ post, Numbers.key m ≤ Numbers.key y ∧ Numbers.key y ≤ Numbers.key M) := by
  have red : ∀ (pick : α → α → α), (∀ a b : α, ¬ Numbers.isNum a ∨ ¬ Numbers.isNum b → pick a b = b) →
      YieldsForever (It.next (reduceCall pick none next)) (ofIter (false, s)) [afterNan pick n post] .eoi := by
    intro pick hp
    obtain ⟨x, t, hx, ht⟩ : ∃ x t, pre ++ n :: post = x :: t ∧ t.foldl pick x = afterNan pick n post := by
      cases pre with
      | nil =>
        refine ⟨n, post, rfl, ?_⟩
        cases post with
        | nil => rfl
        | cons y ys => rw [List.foldl_cons, hp n y (.inl hn)]; rfl
      | cons x pre => exact ⟨x, pre ++ n :: post, rfl, fold_pick_last pick hp x n pre post hn⟩
    rw [hx] at h
    have := c33_reduce pick next s (x :: t) .eoi h
    simp only [if_true] at this
    rw [ht] at this
    exact this
  have hmax := red _ pick_max_nan
  have hmin := red _ pick_min_nan
  constructor
  · rintro rfl; exact ⟨hmax, hmin⟩
  · intro hne
    cases post with
    | nil => exact absurd rfl hne
    | cons x xs =>
      obtain ⟨a1, a2⟩ := fold_pick_best (fun a b : α => if GoOrdered.lt b a then a else b) (fun a b => Numbers.key a ≤ Numbers.key b)
        (fun _ => le_refl _) (fun _ _ _ => le_trans) pick_max_num xs x hpost
      obtain ⟨b1, b2⟩ := fold_pick_best (fun a b : α => if GoOrdered.lt a b then a else b) (fun a b => Numbers.key b ≤ Numbers.key a)
        (fun _ => le_refl _) (fun _ _ _ h1 h2 => le_trans h2 h1) pick_min_num xs x hpost
      exact ⟨_, _, hmax, hmin, b1, a1, fun y hy => ⟨b2 y hy, a2 y hy⟩⟩

end

example := c121_after_nan (It.next (sliceCall [Conv.Flt.fin 9, .nan, .fin 1, .fin 3])) (ofIter 0) [.fin 9] [.fin 1, .fin 3] .nan (by simp [Numbers.isNum])
  (by simp [Numbers.isNum]) (yields_of_forever (c26_slice _))

/-- C121 is violated: Max of 3, NaN, 1 is 1. -/
theorem c121_refuted :
    YieldsForever (It.next (maxGoCall (It.next (sliceCall [Conv.Flt.fin 3, .nan, .fin 1])))) (ofIter (false, ofIter 0)) [.fin 1] .eoi ∧
    ¬ MaxMinOk (It.next (sliceCall [Conv.Flt.fin 3, .nan, .fin 1])) (ofIter 0) [.fin 3, .nan, .fin 1] := by
  have hmax := c33_reduce (fun a b : Conv.Flt => if GoOrdered.lt b a then a else b) _ _ _ .eoi
    (yields_of_forever (c26_slice [Conv.Flt.fin 3, .nan, .fin 1]))
  have h1 : YieldsForever (It.next (maxGoCall (It.next (sliceCall [Conv.Flt.fin 3, .nan, .fin 1])))) (ofIter (false, ofIter 0)) [.fin 1] .eoi := by
    have e1 : GoOrdered.lt Conv.Flt.nan (.fin 3) = false := rfl
    have e2 : GoOrdered.lt (Conv.Flt.fin 1) .nan = false := rfl
    simp only [if_true, List.foldl_cons, List.foldl_nil, e1, e2, Bool.false_eq_true, if_false] at hmax
    exact hmax
  refine ⟨h1, ?_⟩
  rintro ⟨m, M, hM, -, -, -, -, -, hall⟩
  have : M = .fin 1 := by
    obtain ⟨st1, a0, a1, -⟩ := h1
    obtain ⟨st2, b0, b1, -⟩ := hM
    have x1 := a1 0 (by simp)
    have x2 := b1 0 (by simp)
    rw [a0] at x1; rw [b0, x1] at x2
    simpa using (congrArg Prod.fst (Option.some.inj x2)).symm
  subst this
  have := (hall (.fin 3) (by simp) (by simp [Numbers.isNum])).2
  revert this
  simp only [Numbers.key, fltKey]
  have : ¬ ((((3 : ℚ) : WithTop ℚ) : WithBot (WithTop ℚ)) ≤ (((1 : ℚ) : WithTop ℚ) : WithBot (WithTop ℚ))) := by
    rw [WithBot.coe_le_coe, WithTop.coe_le_coe]; norm_num
  exact this

/-- Non-vacuity: a stream with infinities. -/
example : MaxMinOk (It.next (sliceCall [Conv.Flt.fin 3, .inf true, .fin 1])) (ofIter 0) [.fin 3, .inf true, .fin 1] :=
  c121_numbers_partial _ _ _ (yields_of_forever (c26_slice [Conv.Flt.fin 3, .inf true, .fin 1])) (by simp) (by simp [Numbers.isNum])

/-! ### C38 for every comparable type -/

/-- Types whose values are all equal to themselves: ints, strings, structs of them. -/
@[reducible] def GoComparable.ofDecEq (α : Type) [DecidableEq α] : GoComparable α :=
  ⟨fun a b => decide (a = b), fun a b h => by simp_all, fun a b c h1 h2 => by simp_all⟩

/-- Floats. -/
instance : GoComparable Conv.Flt where
  eq := GoOrdered.eq
  symm := by
    intro a b
    rcases a with _ | (_ | _) | p <;> rcases b with _ | (_ | _) | q <;> simp [GoOrdered.eq]
    exact fun h => h.symm
  trans := by
    intro a b c
    rcases a with _ | (_ | _) | p <;> rcases b with _ | (_ | _) | q <;> rcases c with _ | (_ | _) | r <;> simp [GoOrdered.eq]
    exact fun h1 h2 => h1.trans h2

/-- C38 for every comparable type, NaN included: Distinct yields the elements that are not equal to an element before them. -/
theorem c38_distinct_go [GoComparable α] (next : Call σ α) (s : σ) (xs : List α) (e : Err) (h : Yields next s xs e) :
    YieldsForever (It.next (filterCall distinctGoPred next)) (ofIter (s, fun _ => false))
      (keepBy (fun before x => !before.any (fun b => GoComparable.eq x b)) [] xs) e := by
  refine ofIter_forever (filter_yields distinctGoPred (fun seen before => ∀ w, seen w = before.any (fun b => GoComparable.eq w b)) _ ?_ h
    (fun _ => false) [] (by simp))
  intro c before v hrep
  refine ⟨by simp [distinctGoPred, hrep], fun w => ?_⟩
  simp only [distinctGoPred, List.any_append, List.any_cons, List.any_nil, Bool.or_false]
  rw [← hrep w]
  by_cases hv : c v = true
  · simp only [hv, if_true]
    by_cases hw : GoComparable.eq w v = true
    · have hcv := hrep v
      rw [hv] at hcv
      obtain ⟨b, hb, hvb⟩ := List.any_eq_true.mp hcv.symm
      have : c w = true := by
        rw [hrep w]
        exact List.any_eq_true.mpr ⟨b, hb, GoComparable.trans _ _ _ hw hvb⟩
      simp [this]
    · simp [hw]
  · simp only [hv, if_false, Bool.false_eq_true]
    by_cases hw : GoComparable.eq w v = true <;> simp [hw]

/-- C38 for every comparable type, NaN included: Duplicate yields the elements that are equal to exactly one element before them. -/
theorem c38_duplicate_go [GoComparable α] (next : Call σ α) (s : σ) (xs : List α) (e : Err) (h : Yields next s xs e) :
    YieldsForever (It.next (filterCall duplicateGoPred next)) (ofIter (s, fun _ => 0))
      (keepBy (fun before x => decide (before.countP (fun b => GoComparable.eq x b) = 1)) [] xs) e := by
  refine ofIter_forever (filter_yields duplicateGoPred (fun vals before => ∀ w, vals w = min 3 (before.countP (fun b => GoComparable.eq w b))) _ ?_ h
    (fun _ => 0) [] (by simp))
  intro c before v hrep
  have hv := hrep v
  refine ⟨?_, fun w => ?_⟩
  · simp only [duplicateGoPred]
    congr 1
    apply propext
    split <;> omega
  · have hw := hrep w
    simp only [duplicateGoPred, List.countP_append, List.countP_cons, List.countP_nil]
    by_cases hwv : GoComparable.eq w v = true
    · have hsame : before.countP (fun b => GoComparable.eq w b) = before.countP (fun b => GoComparable.eq v b) := by
        congr 1
        funext b
        rw [Bool.eq_iff_iff]
        exact ⟨fun hb => GoComparable.trans _ _ _ (GoComparable.symm _ _ hwv) hb, fun hb => GoComparable.trans _ _ _ hwv hb⟩
      rw [hsame] at hw ⊢
      by_cases h3 : c v < 3
      · simp only [h3, if_true, hwv]; omega
      · simp only [h3, if_false, hwv, if_true]; omega
    · by_cases h3 : c v < 3
      · simp only [h3, if_true, hwv]; simp [hw]
      · simp only [h3, if_false, hwv]; simp [hw]

example := c38_duplicate_go (It.next (sliceCall [Conv.Flt.fin 1, .nan, .fin 1, .nan])) (ofIter 0) _ .eoi (yields_of_forever (c26_slice _))

/-- C38 for NaN: Distinct delivers every NaN of the stream, Duplicate none. -/
theorem c38_nan (next : Call σ Conv.Flt) (s : σ) (n : Nat) (h : Yields next s (List.replicate n .nan) .eoi) :
    YieldsForever (It.next (filterCall distinctGoPred next)) (ofIter (s, fun _ => false)) (List.replicate n .nan) .eoi ∧
    YieldsForever (It.next (filterCall duplicateGoPred next)) (ofIter (s, fun _ => 0)) [] .eoi := by
  have d := c38_distinct_go next s _ _ h
  have u := c38_duplicate_go next s _ _ h
  have e : ∀ b : Conv.Flt, GoComparable.eq .nan b = false := by intro b; simp [GoComparable.eq, GoOrdered.eq]
  have k1 : ∀ n (before : List Conv.Flt), keepBy (fun before x => !before.any (fun b => GoComparable.eq x b)) before (List.replicate n .nan) =
      List.replicate n .nan := by
    intro n
    induction n with
    | zero => intro before; rfl
    | succ n ih => intro before; simp [List.replicate_succ, keepBy, e, ih]
  have k2 : ∀ n (before : List Conv.Flt), keepBy (fun before x => decide (before.countP (fun b => GoComparable.eq x b) = 1)) before
      (List.replicate n .nan) = [] := by
    intro n
    induction n with
    | zero => intro before; rfl
    | succ n ih => intro before; simp [List.replicate_succ, keepBy, e, ih]
  rw [k1] at d
  rw [k2] at u
  exact ⟨d, u⟩

/-- Non-vacuity: 1, NaN, 1, NaN. -/
example : YieldsForever (It.next (filterCall distinctGoPred (It.next (sliceCall [Conv.Flt.fin 1, .nan, .fin 1, .nan])))) (ofIter (ofIter 0, fun _ => false))
    [.fin 1, .nan, .nan] .eoi := by
  have := c38_distinct_go _ _ _ _ (yields_of_forever (c26_slice [Conv.Flt.fin 1, .nan, .fin 1, .nan]))
  simpa [keepBy, GoComparable.eq, GoOrdered.eq] using this

end Micro.Stream
