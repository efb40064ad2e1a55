import Verif.Conv.ToPairs
/-
C118: conv.To between any two numeric types. For each of the three demands (exact, complete, clean) the pairs of types that meet it, for all values
and all contents of the target, are determined, on amd64 and on arm64. C119: what follows for chains of conversions.
-/
namespace Micro.Conv
open Micro

/-- C118: To meets the demand to be exact between two types precisely if the pair is not among the `lossy` ones. -/
theorem c118_exact_iff (arm : Bool) (s t : NTy) : Exact (platform arm) s t ↔ lossy arm s t = false := by
  have key : (lossy arm s t = false → Exact (platform arm) s t) ∧ (lossy arm s t = true → ¬ Exact (platform arm) s t) := by
    cases s with
    | int k =>
      cases t with
      | int k' => exact ⟨fun _ => (good_int_int _ k k').all.1, fun h => by simp [lossy] at h⟩
      | float32 =>
        refine ⟨fun h => ((good_int_float arm k).1 h).all.1, fun h => ?_⟩
        cases arm
        · simp [lossy] at h
        · simp [lossy] at h; exact (arm_lossy k).1 h
      | float64 =>
        refine ⟨fun h => ((good_int_float arm k).2 h).all.1, fun h => ?_⟩
        cases arm
        · simp [lossy] at h
        · simp [lossy] at h; exact (arm_lossy k).2 h
      | bigInt => exact ⟨fun _ => (good_int_big _ k).1.all.1, fun h => by simp [lossy] at h⟩
      | bigFloat => exact ⟨fun h => ((good_int_big _ k).2.2 h).all.1, fun h => uint_bigFloat_lossy _ k h⟩
      | bigRat => exact ⟨fun _ => (good_int_big _ k).2.1.all.1, fun h => by simp [lossy] at h⟩
    | float32 =>
      cases t with
      | int k =>
        refine ⟨fun h => ?_, fun h => ?_⟩
        · simp [lossy] at h; exact (good_32_int _ k h).all.1
        · simp [lossy] at h; exact (float_int_lossy _ k).1 h
      | float32 => exact ⟨fun _ => (good_float_copy _).1.all.1, fun h => by simp [lossy] at h⟩
      | float64 => exact ⟨fun _ => (good_float_copy _).2.2.all.1, fun h => by simp [lossy] at h⟩
      | bigInt => exact ⟨fun _ => (good_float_big _ _ (Or.inl rfl)).1.all.1, fun h => by simp [lossy] at h⟩
      | bigFloat => exact ⟨fun _ => (good_float_big _ _ (Or.inl rfl)).2.all.1, fun h => by simp [lossy] at h⟩
      | bigRat => exact ⟨fun h => by simp [lossy] at h, fun _ => (float_rat _ _ (Or.inl rfl)).1⟩
    | float64 =>
      cases t with
      | int k => exact ⟨fun h => by simp [lossy] at h, fun _ => (float_int_lossy _ k).2⟩
      | float32 => exact ⟨fun h => by simp [lossy] at h, fun _ => narrow_lossy _⟩
      | float64 => exact ⟨fun _ => (good_float_copy _).2.1.all.1, fun h => by simp [lossy] at h⟩
      | bigInt => exact ⟨fun _ => (good_float_big _ _ (Or.inr rfl)).1.all.1, fun h => by simp [lossy] at h⟩
      | bigFloat => exact ⟨fun _ => (good_float_big _ _ (Or.inr rfl)).2.all.1, fun h => by simp [lossy] at h⟩
      | bigRat => exact ⟨fun h => by simp [lossy] at h, fun _ => (float_rat _ _ (Or.inr rfl)).1⟩
    | bigInt =>
      cases t with
      | int k => exact ⟨fun _ => (good_big_int _ _ (Or.inl rfl) k).all.1, fun h => by simp [lossy] at h⟩
      | float32 => exact ⟨fun h => by simp [lossy] at h, fun _ => (big_float32 _ _ (Or.inl rfl)).1⟩
      | float64 => exact ⟨fun _ => (big_float64 _ _ (Or.inl rfl)).1, fun h => by simp [lossy] at h⟩
      | bigInt => exact ⟨fun _ => (good_big_big _).1.all.1, fun h => by simp [lossy] at h⟩
      | bigFloat => exact ⟨fun _ => (good_big_big _).2.1.all.1, fun h => by simp [lossy] at h⟩
      | bigRat => exact ⟨fun _ => (good_big_big _).2.2.1.all.1, fun h => by simp [lossy] at h⟩
    | bigFloat =>
      cases t with
      | int k => exact ⟨fun _ => (good_big_int _ _ (Or.inr (Or.inl rfl)) k).all.1, fun h => by simp [lossy] at h⟩
      | float32 => exact ⟨fun h => by simp [lossy] at h, fun _ => (big_float32 _ _ (Or.inr (Or.inl rfl))).1⟩
      | float64 => exact ⟨fun _ => (big_float64 _ _ (Or.inr (Or.inl rfl))).1, fun h => by simp [lossy] at h⟩
      | bigInt => exact ⟨fun _ => (good_big_big _).2.2.2.1.all.1, fun h => by simp [lossy] at h⟩
      | bigFloat => exact ⟨fun _ => (good_big_big _).2.2.2.2.1.all.1, fun h => by simp [lossy] at h⟩
      | bigRat => exact ⟨fun h => by simp [lossy] at h, fun _ => (bigFloat_rat _).1⟩
    | bigRat =>
      cases t with
      | int k => exact ⟨fun _ => (good_big_int _ _ (Or.inr (Or.inr rfl)) k).all.1, fun h => by simp [lossy] at h⟩
      | float32 => exact ⟨fun h => by simp [lossy] at h, fun _ => (big_float32 _ _ (Or.inr (Or.inr rfl))).1⟩
      | float64 => exact ⟨fun _ => (big_float64 _ _ (Or.inr (Or.inr rfl))).1, fun h => by simp [lossy] at h⟩
      | bigInt => exact ⟨fun _ => (good_big_big _).2.2.2.2.2.1.all.1, fun h => by simp [lossy] at h⟩
      | bigFloat => exact ⟨fun h => by simp [lossy] at h, fun _ => (rat_bigFloat _).1⟩
      | bigRat => exact ⟨fun _ => (good_big_big _).2.2.2.2.2.2.all.1, fun h => by simp [lossy] at h⟩
  refine ⟨fun h => ?_, key.1⟩
  by_contra hc
  exact key.2 (by simpa using hc) h

/-- C118: To accepts every number that the target type has precisely if the pair of types is not among the `refusing` ones, on every platform. -/
theorem c118_complete_iff (oor : Kind → ℚ → Int) (s t : NTy) : Complete oor s t ↔ refusing s t = false := by
  have key : (refusing s t = false → Complete oor s t) ∧ (refusing s t = true → ¬ Complete oor s t) := by
    cases s with
    | int k =>
      cases t with
      | int k' => exact ⟨fun _ => (good_int_int _ k k').all.2.1, fun h => by simp [refusing] at h⟩
      | float32 => exact ⟨fun _ => (int_float_rest oor k).1.1, fun h => by simp [refusing] at h⟩
      | float64 => exact ⟨fun _ => (int_float_rest oor k).2.1, fun h => by simp [refusing] at h⟩
      | bigInt => exact ⟨fun _ => (good_int_big _ k).1.all.2.1, fun h => by simp [refusing] at h⟩
      | bigFloat => exact ⟨fun _ => (int_bigFloat_rest oor k).1, fun h => by simp [refusing] at h⟩
      | bigRat => exact ⟨fun _ => (good_int_big _ k).2.1.all.2.1, fun h => by simp [refusing] at h⟩
    | float32 =>
      cases t with
      | int k => exact ⟨fun h => (float_int_complete oor k h).1, fun h => (float_int_refusing oor k h).1⟩
      | float32 => exact ⟨fun _ => (good_float_copy _).1.all.2.1, fun h => by simp [refusing] at h⟩
      | float64 => exact ⟨fun _ => (good_float_copy _).2.2.all.2.1, fun h => by simp [refusing] at h⟩
      | bigInt => exact ⟨fun _ => (good_float_big _ _ (Or.inl rfl)).1.all.2.1, fun h => by simp [refusing] at h⟩
      | bigFloat => exact ⟨fun _ => (good_float_big _ _ (Or.inl rfl)).2.all.2.1, fun h => by simp [refusing] at h⟩
      | bigRat => exact ⟨fun _ => (float_rat _ _ (Or.inl rfl)).2.1, fun h => by simp [refusing] at h⟩
    | float64 =>
      cases t with
      | int k => exact ⟨fun h => (float_int_complete oor k h).2, fun h => (float_int_refusing oor k h).2⟩
      | float32 => exact ⟨fun _ => (narrow_rest _).1, fun h => by simp [refusing] at h⟩
      | float64 => exact ⟨fun _ => (good_float_copy _).2.1.all.2.1, fun h => by simp [refusing] at h⟩
      | bigInt => exact ⟨fun _ => (good_float_big _ _ (Or.inr rfl)).1.all.2.1, fun h => by simp [refusing] at h⟩
      | bigFloat => exact ⟨fun _ => (good_float_big _ _ (Or.inr rfl)).2.all.2.1, fun h => by simp [refusing] at h⟩
      | bigRat => exact ⟨fun _ => (float_rat _ _ (Or.inr rfl)).2.1, fun h => by simp [refusing] at h⟩
    | bigInt =>
      cases t with
      | int k => exact ⟨fun _ => (good_big_int _ _ (Or.inl rfl) k).all.2.1, fun h => by simp [refusing] at h⟩
      | float32 => exact ⟨fun _ => (big_float32 _ _ (Or.inl rfl)).2.1, fun h => by simp [refusing] at h⟩
      | float64 => exact ⟨fun _ => (big_float64 _ _ (Or.inl rfl)).2.1, fun h => by simp [refusing] at h⟩
      | bigInt => exact ⟨fun _ => (good_big_big _).1.all.2.1, fun h => by simp [refusing] at h⟩
      | bigFloat => exact ⟨fun _ => (good_big_big _).2.1.all.2.1, fun h => by simp [refusing] at h⟩
      | bigRat => exact ⟨fun _ => (good_big_big _).2.2.1.all.2.1, fun h => by simp [refusing] at h⟩
    | bigFloat =>
      cases t with
      | int k => exact ⟨fun _ => (good_big_int _ _ (Or.inr (Or.inl rfl)) k).all.2.1, fun h => by simp [refusing] at h⟩
      | float32 => exact ⟨fun _ => (big_float32 _ _ (Or.inr (Or.inl rfl))).2.1, fun h => by simp [refusing] at h⟩
      | float64 => exact ⟨fun _ => (big_float64 _ _ (Or.inr (Or.inl rfl))).2.1, fun h => by simp [refusing] at h⟩
      | bigInt => exact ⟨fun _ => (good_big_big _).2.2.2.1.all.2.1, fun h => by simp [refusing] at h⟩
      | bigFloat => exact ⟨fun _ => (good_big_big _).2.2.2.2.1.all.2.1, fun h => by simp [refusing] at h⟩
      | bigRat => exact ⟨fun _ => (bigFloat_rat _).2.1, fun h => by simp [refusing] at h⟩
    | bigRat =>
      cases t with
      | int k => exact ⟨fun _ => (good_big_int _ _ (Or.inr (Or.inr rfl)) k).all.2.1, fun h => by simp [refusing] at h⟩
      | float32 => exact ⟨fun _ => (big_float32 _ _ (Or.inr (Or.inr rfl))).2.1, fun h => by simp [refusing] at h⟩
      | float64 => exact ⟨fun _ => (big_float64 _ _ (Or.inr (Or.inr rfl))).2.1, fun h => by simp [refusing] at h⟩
      | bigInt => exact ⟨fun _ => (good_big_big _).2.2.2.2.2.1.all.2.1, fun h => by simp [refusing] at h⟩
      | bigFloat => exact ⟨fun _ => (rat_bigFloat _).2.1, fun h => by simp [refusing] at h⟩
      | bigRat => exact ⟨fun _ => (good_big_big _).2.2.2.2.2.2.all.2.1, fun h => by simp [refusing] at h⟩
  refine ⟨fun h => ?_, key.1⟩
  by_contra hc
  exact key.2 (by simpa using hc) h

/-- C118: an error of To leaves the variable alone precisely if the pair of types is not among the `clobbering` ones, on every platform. -/
theorem c118_clean_iff (oor : Kind → ℚ → Int) (s t : NTy) : Clean oor s t ↔ clobbering s t = false := by
  have key : (clobbering s t = false → Clean oor s t) ∧ (clobbering s t = true → ¬ Clean oor s t) := by
    cases s with
    | int k =>
      cases t with
      | int k' => exact ⟨fun _ => (good_int_int _ k k').all.2.2, fun h => by simp [clobbering] at h⟩
      | float32 => exact ⟨fun _ => (int_float_rest oor k).1.2, fun h => by simp [clobbering] at h⟩
      | float64 => exact ⟨fun _ => (int_float_rest oor k).2.2, fun h => by simp [clobbering] at h⟩
      | bigInt => exact ⟨fun _ => (good_int_big _ k).1.all.2.2, fun h => by simp [clobbering] at h⟩
      | bigFloat => exact ⟨fun _ => (int_bigFloat_rest oor k).2, fun h => by simp [clobbering] at h⟩
      | bigRat => exact ⟨fun _ => (good_int_big _ k).2.1.all.2.2, fun h => by simp [clobbering] at h⟩
    | float32 =>
      cases t with
      | int k => exact ⟨fun _ => (float_int_clean oor k).1, fun h => by simp [clobbering] at h⟩
      | float32 => exact ⟨fun _ => (good_float_copy _).1.all.2.2, fun h => by simp [clobbering] at h⟩
      | float64 => exact ⟨fun _ => (good_float_copy _).2.2.all.2.2, fun h => by simp [clobbering] at h⟩
      | bigInt => exact ⟨fun _ => (good_float_big _ _ (Or.inl rfl)).1.all.2.2, fun h => by simp [clobbering] at h⟩
      | bigFloat => exact ⟨fun _ => (good_float_big _ _ (Or.inl rfl)).2.all.2.2, fun h => by simp [clobbering] at h⟩
      | bigRat => exact ⟨fun _ => (float_rat _ _ (Or.inl rfl)).2.2, fun h => by simp [clobbering] at h⟩
    | float64 =>
      cases t with
      | int k => exact ⟨fun _ => (float_int_clean oor k).2, fun h => by simp [clobbering] at h⟩
      | float32 => exact ⟨fun _ => (narrow_rest _).2, fun h => by simp [clobbering] at h⟩
      | float64 => exact ⟨fun _ => (good_float_copy _).2.1.all.2.2, fun h => by simp [clobbering] at h⟩
      | bigInt => exact ⟨fun _ => (good_float_big _ _ (Or.inr rfl)).1.all.2.2, fun h => by simp [clobbering] at h⟩
      | bigFloat => exact ⟨fun _ => (good_float_big _ _ (Or.inr rfl)).2.all.2.2, fun h => by simp [clobbering] at h⟩
      | bigRat => exact ⟨fun _ => (float_rat _ _ (Or.inr rfl)).2.2, fun h => by simp [clobbering] at h⟩
    | bigInt =>
      cases t with
      | int k => exact ⟨fun _ => (good_big_int _ _ (Or.inl rfl) k).all.2.2, fun h => by simp [clobbering] at h⟩
      | float32 => exact ⟨fun _ => (big_float32 _ _ (Or.inl rfl)).2.2, fun h => by simp [clobbering] at h⟩
      | float64 => exact ⟨fun h => by simp [clobbering] at h, fun _ => (big_float64 _ _ (Or.inl rfl)).2.2⟩
      | bigInt => exact ⟨fun _ => (good_big_big _).1.all.2.2, fun h => by simp [clobbering] at h⟩
      | bigFloat => exact ⟨fun _ => (good_big_big _).2.1.all.2.2, fun h => by simp [clobbering] at h⟩
      | bigRat => exact ⟨fun _ => (good_big_big _).2.2.1.all.2.2, fun h => by simp [clobbering] at h⟩
    | bigFloat =>
      cases t with
      | int k => exact ⟨fun _ => (good_big_int _ _ (Or.inr (Or.inl rfl)) k).all.2.2, fun h => by simp [clobbering] at h⟩
      | float32 => exact ⟨fun _ => (big_float32 _ _ (Or.inr (Or.inl rfl))).2.2, fun h => by simp [clobbering] at h⟩
      | float64 => exact ⟨fun h => by simp [clobbering] at h, fun _ => (big_float64 _ _ (Or.inr (Or.inl rfl))).2.2⟩
      | bigInt => exact ⟨fun _ => (good_big_big _).2.2.2.1.all.2.2, fun h => by simp [clobbering] at h⟩
      | bigFloat => exact ⟨fun _ => (good_big_big _).2.2.2.2.1.all.2.2, fun h => by simp [clobbering] at h⟩
      | bigRat => exact ⟨fun _ => (bigFloat_rat _).2.2, fun h => by simp [clobbering] at h⟩
    | bigRat =>
      cases t with
      | int k => exact ⟨fun _ => (good_big_int _ _ (Or.inr (Or.inr rfl)) k).all.2.2, fun h => by simp [clobbering] at h⟩
      | float32 => exact ⟨fun _ => (big_float32 _ _ (Or.inr (Or.inr rfl))).2.2, fun h => by simp [clobbering] at h⟩
      | float64 => exact ⟨fun h => by simp [clobbering] at h, fun _ => (big_float64 _ _ (Or.inr (Or.inr rfl))).2.2⟩
      | bigInt => exact ⟨fun _ => (good_big_big _).2.2.2.2.2.1.all.2.2, fun h => by simp [clobbering] at h⟩
      | bigFloat => exact ⟨fun _ => (rat_bigFloat _).2.2, fun h => by simp [clobbering] at h⟩
      | bigRat => exact ⟨fun _ => (good_big_big _).2.2.2.2.2.2.all.2.2, fun h => by simp [clobbering] at h⟩
  refine ⟨fun h => ?_, key.1⟩
  by_contra hc
  exact key.2 (by simpa using hc) h

/-- C118 fails: there are values that To changes without an error, values of the target type that it refuses, and errors that change the target. -/
theorem c118_refuted (arm : Bool) :
    (∃ s t, ¬ Exact (platform arm) s t) ∧ (∃ s t, ¬ Complete (platform arm) s t) ∧ (∃ s t, ¬ Clean (platform arm) s t) :=
  ⟨⟨.float64, .float32, fun h => by have := (c118_exact_iff arm _ _).1 h; simp [lossy] at this⟩,
   ⟨.float64, .int .int64, fun h => by have := (c118_complete_iff _ _ _).1 h; simp [refusing, Kind.signed, Kind.bits] at this⟩,
   ⟨.bigInt, .float64, fun h => by have := (c118_clean_iff _ _ _).1 h; simp [clobbering] at this⟩⟩

/-- C118, partial: between the other types To does all that is demanded: if the target type has the number, no error and the number; if not, an
error and the target as it was. -/
theorem c118_to_partial (arm : Bool) (n : Num) (t : NTy) (c : Cell) (hv : n.Valid) (hc : t.Cell c)
    (h1 : lossy arm n.ty t = false) (h2 : refusing n.ty t = false) (h3 : clobbering n.ty t = false) :
    (t.Has n.value → ∃ m, numTo (platform arm) n t c = some ⟨some m, false⟩ ∧ m.ty = t ∧ m.value = n.value) ∧
    (¬ t.Has n.value → numTo (platform arm) n t c = some ⟨c, true⟩) := by
  obtain ⟨r, hr, hx⟩ := (c118_exact_iff arm _ _).2 h1 n c rfl hv hc
  obtain ⟨r', hr', hy⟩ := (c118_clean_iff (platform arm) _ _).2 h3 n c rfl hv hc
  rw [hr, Option.some.injEq] at hr'
  subst hr'
  obtain ⟨x, f⟩ := r
  constructor
  · intro hh
    obtain ⟨r', hr', hz⟩ := (c118_complete_iff (platform arm) _ _).2 h2 n c rfl hv hc hh
    rw [hr, Option.some.injEq] at hr'
    subst hr'
    simp only at hz
    subst hz
    obtain ⟨m, hm, ht, _, hval⟩ := hx rfl
    simp only at hm
    exact ⟨m, by rw [hr, hm], ht, hval⟩
  · intro hh
    cases f with
    | true => rw [hr, show x = c from hy rfl]
    | false =>
      obtain ⟨m, hm, ht, hval, hv'⟩ := hx rfl
      exfalso
      unfold Num.Valid at hval
      rw [ht, hv'] at hval
      exact hh hval

/-- Of the 225 pairs, the negative *big.Rat -7/2 to *big.Int (an error) and the int64 -128 to int8 (no error) meet the hypotheses. -/
example : (Num.bigRat (-7 / 2)).Valid ∧ NTy.bigInt.Cell none ∧ lossy true .bigRat .bigInt = false ∧ clobbering .bigRat .bigInt = false ∧
    (Num.int .int64 (-128)).Valid ∧ lossy true (.int .int64) (.int .int8) = false :=
  ⟨trivial, Or.inr ⟨rfl, by simp⟩, rfl, rfl, valid_int.2 (by decide), rfl⟩

/-! ### C119: chains of conversions -/

/-- A value is determined by its type and its number. -/
theorem num_ext {a b : Num} (h1 : a.ty = b.ty) (h2 : a.value = b.value) : a = b := by
  cases a <;> cases b <;> simp_all [Num.ty, Num.value]

/-- An exact conversion, written as a fact about one call. -/
theorem exact_call {arm : Bool} {n m : Num} {t : NTy} {c : Cell} (hv : n.Valid) (hc : t.Cell c) (h : lossy arm n.ty t = false)
    (hr : numTo (platform arm) n t c = some ⟨some m, false⟩) : m.ty = t ∧ m.Valid ∧ m.value = n.value := by
  obtain ⟨r, hr', hx⟩ := (c118_exact_iff arm _ _).2 h n c rfl hv hc
  rw [hr, Option.some.injEq] at hr'
  subst hr'
  obtain ⟨m', hm, rest⟩ := hx rfl
  simp only [Option.some.injEq] at hm
  subst hm
  exact rest

theorem complete_call {arm : Bool} {n : Num} {t : NTy} {c : Cell} (hv : n.Valid) (hc : t.Cell c) (h : lossy arm n.ty t = false)
    (hr : refusing n.ty t = false) (hh : t.Has n.value) :
    ∃ m, numTo (platform arm) n t c = some ⟨some m, false⟩ ∧ m.ty = t ∧ m.value = n.value := by
  obtain ⟨r, h1, h2⟩ := (c118_exact_iff arm _ _).2 h n c rfl hv hc
  obtain ⟨r', h1', h3⟩ := (c118_complete_iff (platform arm) _ _).2 hr n c rfl hv hc hh
  rw [h1, Option.some.injEq] at h1'
  subst h1'
  obtain ⟨m, hm, ht, _, hval⟩ := h2 h3
  refine ⟨m, ?_, ht, hval⟩
  rw [h1, ← hm, ← h3]

/-- C119, partial (exact pairs of types): if To from `s` to `t` reports no error and both directions are exact, To back gives the very value that was converted. -/
theorem c119_round_trip_partial (arm : Bool) (n m : Num) (t : NTy) (c d : Cell) (hv : n.Valid) (hc : t.Cell c) (hd : n.ty.Cell d)
    (h1 : lossy arm n.ty t = false) (h2 : lossy arm t n.ty = false) (h3 : refusing t n.ty = false)
    (h : numTo (platform arm) n t c = some ⟨some m, false⟩) : numTo (platform arm) m n.ty d = some ⟨some n, false⟩ := by
  obtain ⟨e1, e2, e3⟩ := exact_call hv hc h1 h
  obtain ⟨w, hw, ht, hval⟩ := complete_call (arm := arm) e2 hd (by rw [e1]; exact h2) (by rw [e1]; exact h3) (by rw [e3]; exact hv)
  rw [hw, num_ext ht (hval.trans e3)]

example : lossy true (.int .uint8) .float32 = false ∧ lossy true .float32 (.int .uint8) = false ∧ refusing .float32 (.int .uint8) = false ∧
    numTo (platform true) (.int .uint8 200) .bigRat none = some ⟨some (.bigRat 200), false⟩ ∧
    lossy true (.int .uint8) .bigRat = false ∧ lossy true .bigRat (.int .uint8) = false := by decide +kernel

/-- C119, partial (exact pairs of types): To directly, and To through a third type, give the same, as long as the conversions are exact and the type in between has the
number. -/
theorem c119_path_partial (arm : Bool) (n m : Num) (t u : NTy) (c d : Cell) (hv : n.Valid) (hc : t.Cell c) (hd : u.Cell d)
    (h1 : lossy arm n.ty t = false) (h2 : lossy arm t u = false) (h3 : lossy arm n.ty u = false)
    (h4 : refusing t u = false) (h5 : refusing n.ty u = false)
    (h : numTo (platform arm) n t c = some ⟨some m, false⟩) (w : Cell) :
    numTo (platform arm) m u d = some ⟨w, false⟩ ↔ numTo (platform arm) n u d = some ⟨w, false⟩ := by
  obtain ⟨e1, e2, e3⟩ := exact_call hv hc h1 h
  by_cases hh : u.Has n.value
  · obtain ⟨x, hx, hxt, hxv⟩ := complete_call (arm := arm) hv hd h3 h5 hh
    obtain ⟨y, hy, hyt, hyv⟩ := complete_call (arm := arm) e2 hd (by rw [e1]; exact h2) (by rw [e1]; exact h4) (by rw [e3]; exact hh)
    rw [hx, hy, num_ext (hyt.trans hxt.symm) (hyv.trans (e3.trans hxv.symm))]
  · constructor
    · intro hw
      exfalso
      obtain ⟨r, hr, hx⟩ := (c118_exact_iff arm _ _).2 (by rw [e1]; exact h2) m d rfl e2 hd
      rw [hw, Option.some.injEq] at hr
      subst hr
      obtain ⟨x, _, hxt, hxv, hxe⟩ := hx rfl
      unfold Num.Valid at hxv
      rw [hxt, hxe, e3] at hxv
      exact hh hxv
    · intro hw
      exfalso
      obtain ⟨r, hr, hx⟩ := (c118_exact_iff arm _ _).2 h3 n d rfl hv hd
      rw [hw, Option.some.injEq] at hr
      subst hr
      obtain ⟨x, _, hxt, hxv, hxe⟩ := hx rfl
      unfold Num.Valid at hxv
      rw [hxt, hxe] at hxv
      exact hh hxv

example : lossy true (.int .int64) .bigInt = false ∧ lossy true .bigInt .float64 = false ∧ lossy false (.int .int64) .float64 = false ∧
    refusing .bigInt .float64 = false ∧ refusing (.int .int64) .float64 = false ∧ lossy true (.int .int64) .float64 = true := by decide

/-- C119 fails in general: the float64 2^40 becomes 1099511628000 as an int64 directly, and 1099511627776 through a *big.Int. -/
theorem c119_path_refuted (oor : Kind → ℚ → Int) :
    numTo oor (.float64 (.fin 1099511627776)) (.int .int64) (some (.int .int64 0)) = some ⟨some (.int .int64 1099511628000), false⟩ ∧
    numTo oor (.float64 (.fin 1099511627776)) .bigInt none = some ⟨some (.bigInt 1099511627776), false⟩ ∧
    numTo oor (.bigInt 1099511627776) (.int .int64) (some (.int .int64 0)) = some ⟨some (.int .int64 1099511627776), false⟩ := by
  refine ⟨?_, ?_, by simp only [numTo]; decide⟩
  · simp only [numTo, floatSrc_lossy false .int64 _ _ round_2_40 (by decide)]
  · have : floatToBigInt (.fin 1099511627776) = some 1099511627776 := ((c78_bigInt 1099511627776 1099511627776).1).2 (by norm_num)
    simp only [numTo, floatSrc, this]

/-- C119 fails in general for the way back: the *big.Rat 1/3 is, through a *big.Float, another number. -/
theorem c119_round_trip_refuted (oor : Kind → ℚ → Int) (w : Flt) (d : Cell)
    (h : numTo oor (.bigRat (1 / 3)) .bigFloat none = some ⟨some (.bigFloat w), false⟩) :
    numTo oor (.bigFloat w) .bigRat d ≠ some ⟨some (.bigRat (1 / 3)), false⟩ := by
  simp only [numTo, bigRatSrc, Option.some.injEq, Res.mk.injEq, Num.bigFloat.injEq, and_true] at h
  subst h
  intro hc
  simp only [numTo, bigFloatSrc, bigFloatToBigRat, Option.some.injEq] at hc
  split at hc <;> rename_i heq
  · split at heq
    · simp only [Option.some.injEq] at heq
      subst heq
      simp only [Option.map_some, Res.mk.injEq, Option.some.injEq, Num.bigRat.injEq, and_true] at hc
      obtain ⟨m, e, hm, _⟩ := sig10_idem (bigRatToBigFloat (1 / 3))
      rw [hc] at hm
      have h3 : (10 : ℚ) ^ (-e) = 3 * m := by
        rw [zpow_neg]; field_simp; linarith
      rcases le_or_gt 0 (-e) with he | he
      · obtain ⟨n, hn⟩ := Int.eq_ofNat_of_zero_le he
        rw [hn] at h3
        have h3' : ((10 : ℤ) ^ n) = 3 * m := by
          simp only [zpow_natCast] at h3
          exact_mod_cast h3
        have : ∀ n : ℕ, (10 : ℤ) ^ n % 3 ≠ 0 := by
          intro n
          induction n with
          | zero => decide
          | succ n ih => rw [pow_succ]; omega
        have := this n
        omega
      · have h1 : (10 : ℚ) ^ (-e) < 1 := zpow_lt_one_of_neg₀ (by norm_num) he
        have h2 : (0 : ℚ) < (10 : ℚ) ^ (-e) := by positivity
        rw [h3] at h1 h2
        have h1' : 3 * m < 1 := by exact_mod_cast h1
        have h2' : 0 < 3 * m := by exact_mod_cast h2
        omega
    · simp only [Option.some.injEq] at heq
      subst heq
      simp at hc
  · simp at hc

end Micro.Conv
