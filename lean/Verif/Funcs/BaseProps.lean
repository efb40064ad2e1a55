import Verif.Funcs.BaseModel
import Mathlib.Order.WithBot
set_option linter.unusedSimpArgs false
/-
Properties of the small functions of package funcs: C111 (comparison filters), C112 (composition), C113 (nil checks), C115 (SupplierCached and goroutines).
-/
namespace Micro.Funcs
open Micro

/-! ### C111: comparison filters -/

/-- What is expected of the comparison filters for a value `val`, given the numbers (or strings) the values stand for: they accept what their names say,
LessThan and GreaterThanEqual are complementary, and so are LessThanEqual and GreaterThan, and exactly one of LessThan, Equal and GreaterThan accepts. -/
structure FiltersOk {α κ : Type} [GoOrdered α] [LinearOrder κ] (key : α → κ) (val t : α) : Prop where
  lt : lessThan val t = true ↔ key t < key val
  le : lessThanEqual val t = true ↔ key t ≤ key val
  eq : equal val t = true ↔ key t = key val
  gt : greaterThan val t = true ↔ key t > key val
  ge : greaterThanEqual val t = true ↔ key t ≥ key val
  not_lt : not_ (lessThan val) t = greaterThanEqual val t
  not_le : not_ (lessThanEqual val) t = greaterThan val t
  one : (lessThan val t).toNat + (equal val t).toNat + (greaterThan val t).toNat = 1

theorem filtersOk_of {α κ : Type} [GoOrdered α] [LinearOrder κ] (key : α → κ) (val t : α) (h1 : GoOrdered.lt t val = decide (key t < key val))
    (h2 : GoOrdered.le t val = decide (key t ≤ key val)) (h3 : GoOrdered.eq t val = decide (key t = key val))
    (h4 : GoOrdered.lt val t = decide (key val < key t)) (h5 : GoOrdered.le val t = decide (key val ≤ key t)) : FiltersOk key val t := by
  constructor
  · simp [lessThan, h1]
  · simp [lessThanEqual, h2]
  · simp [equal, h3]
  · simp [greaterThan, h4]
  · simp [greaterThanEqual, h5]
  · simp [not_, lessThan, greaterThanEqual, h1, h5, ← decide_not]
  · simp [not_, lessThanEqual, greaterThan, h2, h4, ← decide_not]
  · simp only [lessThan, equal, greaterThan, h1, h3, h4]
    rcases lt_trichotomy (key t) (key val) with h | h | h
    · simp [h, ne_of_lt h, not_lt_of_gt h]
    · simp [h]
    · simp [h, ne_of_gt h, not_lt_of_gt h]

/-- C111 for integers and strings: the comparison filters mean what they say. -/
theorem c111_linear {α : Type} [LinearOrder α] (val t : α) : @FiltersOk α α (GoOrdered.ofLinear α) _ id val t :=
  @filtersOk_of α α (GoOrdered.ofLinear α) _ id val t rfl rfl rfl rfl rfl

/-- The number a float stands for. -/
def fltKey : Conv.Flt → WithBot (WithTop ℚ)
  | .nan => ⊥
  | .inf true => ⊥
  | .inf false => ((⊤ : WithTop ℚ) : WithBot (WithTop ℚ))
  | .fin q => ((q : WithTop ℚ) : WithBot (WithTop ℚ))

/-- C111 for floats, but not NaN: the comparison filters compare the numbers, with the infinities at the ends. Missing: NaN. -/
theorem c111_float_partial (val t : Conv.Flt) (hv : val ≠ .nan) (ht : t ≠ .nan) : FiltersOk fltKey val t := by
  have key : ∀ a b : Conv.Flt, a ≠ .nan → b ≠ .nan → GoOrdered.lt a b = decide (fltKey a < fltKey b) ∧ GoOrdered.le a b = decide (fltKey a ≤ fltKey b) ∧
      GoOrdered.eq a b = decide (fltKey a = fltKey b) := by
    intro a b ha hb
    rcases a with _ | (_ | _) | p
    · exact absurd rfl ha
    all_goals rcases b with _ | (_ | _) | q
    all_goals first | exact absurd rfl hb | skip
    all_goals simp [GoOrdered.lt, GoOrdered.le, GoOrdered.eq, fltKey]
    exact decide_eq_true (WithBot.coe_lt_coe.2 (WithTop.coe_lt_top p))
  obtain ⟨h1, h2, h3⟩ := key t val ht hv
  obtain ⟨h4, h5, -⟩ := key val t hv ht
  exact filtersOk_of fltKey val t h1 h2 h3 h4 h5

/-- IsNegative, IsNonNegative and IsPositive are the comparisons with 0. -/
theorem c111_sign {α : Type} [GoOrdered α] (zero t : α) :
    isNegative zero t = lessThan zero t ∧ isNonNegative zero t = greaterThanEqual zero t ∧ isPositive zero t = greaterThan zero t := ⟨rfl, rfl, rfl⟩

/-- Non-vacuity: minus infinity, and the filter LessThan(1/2). -/
example : lessThan (.fin (1 / 2)) (Conv.Flt.inf true) = true :=
  (c111_float_partial (.fin (1 / 2)) (.inf true) (by simp) (by simp)).lt.2 (by simp [fltKey])

/-- C111 is false for NaN: no comparison filter accepts NaN, not even Equal(NaN), so that Not(LessThan(0)) accepts what GreaterThanEqual(0) does not, and
neither IsNegative nor IsNonNegative holds. -/
theorem c111_nan_refuted : (∀ val : Conv.Flt, lessThan val .nan = false ∧ lessThanEqual val .nan = false ∧ equal val .nan = false ∧ greaterThan val .nan = false ∧
      greaterThanEqual val .nan = false) ∧
    not_ (lessThan (.fin 0)) Conv.Flt.nan ≠ greaterThanEqual (.fin 0) Conv.Flt.nan ∧
    isNegative (.fin 0) Conv.Flt.nan = false ∧ isNonNegative (.fin 0) Conv.Flt.nan = false := by
  refine ⟨?_, by simp [not_, lessThan, greaterThanEqual, GoOrdered.lt, GoOrdered.le], by simp [isNegative, GoOrdered.lt], by simp [isNonNegative, GoOrdered.le]⟩
  intro val
  rcases val with _ | s | p <;> simp [lessThan, lessThanEqual, equal, greaterThan, greaterThanEqual, GoOrdered.lt, GoOrdered.le, GoOrdered.eq]

/-! ### C112: composition -/

/-- A chain of functions, from P to Z, with effects. -/
inductive Chain (M : Type → Type) : Type → Type → Type 1 where
  | one {P Q : Type} (f : P → M Q) : Chain M P Q
  | cons {P Q Z : Type} (f : P → M Q) (rest : Chain M Q Z) : Chain M P Z

/-- Calling the functions of a chain one after the other, each with the result of the one before. -/
def Chain.run {M : Type → Type} [Monad M] {P Z : Type} : Chain M P Z → P → M Z
  | .one f, p => f p
  | .cons f rest, p => f p >>= rest.run

/-- C112. Compose2 to Compose10 call their functions in order, each once, each with the result of the one before, whatever the functions do (panic, change
variables, print). -/
theorem c112_compose {M : Type → Type} [Monad M] [LawfulMonad M] {P Q R S T U V W X Y Z : Type} (f0 : P → M Q) (f1 : Q → M R) (f2 : R → M S) (f3 : S → M T)
    (f4 : T → M U) (f5 : U → M V) (f6 : V → M W) (f7 : W → M X) (f8 : X → M Y) (f9 : Y → M Z) :
    compose2 f0 f1 = (Chain.cons f0 (.one f1)).run ∧
    compose3 f0 f1 f2 = (Chain.cons f0 (.cons f1 (.one f2))).run ∧
    compose4 f0 f1 f2 f3 = (Chain.cons f0 (.cons f1 (.cons f2 (.one f3)))).run ∧
    compose5 f0 f1 f2 f3 f4 = (Chain.cons f0 (.cons f1 (.cons f2 (.cons f3 (.one f4))))).run ∧
    compose6 f0 f1 f2 f3 f4 f5 = (Chain.cons f0 (.cons f1 (.cons f2 (.cons f3 (.cons f4 (.one f5)))))).run ∧
    compose7 f0 f1 f2 f3 f4 f5 f6 = (Chain.cons f0 (.cons f1 (.cons f2 (.cons f3 (.cons f4 (.cons f5 (.one f6))))))).run ∧
    compose8 f0 f1 f2 f3 f4 f5 f6 f7 = (Chain.cons f0 (.cons f1 (.cons f2 (.cons f3 (.cons f4 (.cons f5 (.cons f6 (.one f7)))))))).run ∧
    compose9 f0 f1 f2 f3 f4 f5 f6 f7 f8 = (Chain.cons f0 (.cons f1 (.cons f2 (.cons f3 (.cons f4 (.cons f5 (.cons f6 (.cons f7 (.one f8))))))))).run ∧
    compose10 f0 f1 f2 f3 f4 f5 f6 f7 f8 f9 =
      (Chain.cons f0 (.cons f1 (.cons f2 (.cons f3 (.cons f4 (.cons f5 (.cons f6 (.cons f7 (.cons f8 (.one f9)))))))))).run := by
  refine ⟨?_, ?_, ?_, ?_, ?_, ?_, ?_, ?_, ?_⟩ <;>
    · funext p
      simp [Chain.run, compose2, compose3, compose4, compose5, compose6, compose7, compose8, compose9, compose10]

/-- C112. Composing compositions is composing all the functions: grouping does not matter. -/
theorem c112_assoc {M : Type → Type} [Monad M] [LawfulMonad M] {P Q R S T : Type} (f0 : P → M Q) (f1 : Q → M R) (f2 : R → M S) (f3 : S → M T) :
    compose2 (compose2 f0 f1) f2 = compose3 f0 f1 f2 ∧ compose2 f0 (compose2 f1 f2) = compose3 f0 f1 f2 ∧
    compose3 f0 (compose2 f1 f2) f3 = compose4 f0 f1 f2 f3 ∧ compose2 (compose2 f0 f1) (compose2 f2 f3) = compose4 f0 f1 f2 f3 := by
  refine ⟨?_, ?_, ?_, ?_⟩ <;> · funext p; simp [compose2, compose3, compose4]

/-- C112. TernaryResult calls the function chosen, if there is one, and never the other; Ternary chooses a value. -/
theorem c112_ternary {M : Type → Type} [Monad M] {T : Type} (zv : T) (f g : Unit → M T) (other : Option (Unit → M T)) (a b : T) :
    ternaryResult zv true (some f) other = f () ∧ ternaryResult zv false other (some g) = g () ∧
    ternaryResult zv true none other = (pure zv : M T) ∧ ternaryResult zv false other none = (pure zv : M T) ∧ ternary true a b = a ∧ ternary false a b = b :=
  ⟨rfl, rfl, rfl, rfl, rfl, rfl⟩

/-- Non-vacuity: the second of three functions panics; the third is not called (it would have panicked with another value). -/
example : compose3 (M := Except String) (fun n : Nat => .ok (n + 1)) (fun n => if n = 3 then throw "three" else .ok n) (fun _ : Nat => throw "third" (α := Nat)) 2 =
    .error "three" := rfl

/-! ### C113: nil checks -/

/-- Go's `v == nil` for a value of a type that has nil. -/
def EqNil {α : Type} (ty : NTy) (ref : α → Option Dyn) (v : α) : Prop :=
  match ty with
  | .iface => ref v = none
  | .conc _ => ∃ d, ref v = some d ∧ d.isNil = true

/-- The values of a type: a type that is no interface is the dynamic type of all its values. -/
def HasType {α : Type} (ty : NTy) (ref : α → Option Dyn) : Prop :=
  match ty with
  | .iface => True
  | .conc k => ∀ v, ∃ d, ref v = some d ∧ d.kind = k

/-- C113 for channels, functions, maps, pointers and slices: IsNil and IsNonNil give filters that tell whether the value is nil, and MustNonNilValue returns
exactly the values that are not nil and panics for nil. For types without nil all three panic. Missing: interface types and unsafe.Pointer. -/
theorem c113_nil_partial {α : Type} (k : NKind) (ref : α → Option Dyn) (hty : HasType (.conc k) ref) (hk : k ≠ .unsafePointer) :
    (k ≠ .other → ∃ f g, isNilFilter (.conc k) ref = some f ∧ isNonNilFilter (.conc k) ref = some g ∧
      ∀ v, (EqNil (.conc k) ref v → f v = some true ∧ g v = some false ∧ mustNonNilValue ref v = none) ∧
        (¬ EqNil (.conc k) ref v → f v = some false ∧ g v = some true ∧ mustNonNilValue ref v = some v)) ∧
    (k = .other → isNilFilter (.conc k) ref = none ∧ isNonNilFilter (.conc k) ref = none ∧ ∀ v, mustNonNilValue ref v = none) := by
  constructor
  · intro hk'
    have hn : nillableKind k = true := by cases k <;> simp_all [nillableKind]
    refine ⟨fun t => (ref t).map (·.isNil), fun t => (ref t).map (!·.isNil), by simp [isNilFilter, mustBeNillable, hn], by simp [isNonNilFilter, mustBeNillable, hn], ?_⟩
    intro v
    obtain ⟨d, hd, hdk⟩ := hty v
    constructor
    · rintro ⟨d', hd', hnil⟩
      rw [hd] at hd'
      cases hd'
      simp [hd, hnil, mustNonNilValue, mustBeNillable, hdk, hn]
    · intro h
      have hnil : d.isNil = false := by
        cases h' : d.isNil
        · rfl
        · exact absurd ⟨d, hd, h'⟩ h
      simp [hd, hnil, mustNonNilValue, mustBeNillable, hdk, hn]
  · rintro rfl
    refine ⟨rfl, rfl, fun v => ?_⟩
    obtain ⟨d, hd, hdk⟩ := hty v
    simp [mustNonNilValue, hd, hdk, mustBeNillable, nillableKind]

/-- Non-vacuity: a pointer type with a nil and another pointer. -/
example : HasType (.conc .pointer) (fun b : Bool => some ⟨.pointer, b, b⟩) ∧ EqNil (.conc .pointer) (fun b : Bool => some ⟨.pointer, b, b⟩) true ∧
    ¬ EqNil (.conc .pointer) (fun b : Bool => some ⟨.pointer, b, b⟩) false :=
  ⟨fun v => ⟨_, rfl, rfl⟩, ⟨_, rfl, rfl⟩, by rintro ⟨d, hd, h⟩; cases hd; simp at h⟩

/-- C113 is false for interface types (error, any) and unsafe.Pointer, which have nil: IsNil and IsNonNil panic for every such type. MustNonNilValue panics for
an interface value that is not nil if it holds something without nil, or a nil pointer. -/
theorem c113_nil_refuted {α : Type} (ref : α → Option Dyn) :
    isNilFilter .iface ref = none ∧ isNonNilFilter .iface ref = none ∧ isNilFilter (.conc .unsafePointer) ref = none ∧
    (∀ v d, ref v = some d → d.kind = .other → ¬ EqNil .iface ref v ∧ mustNonNilValue ref v = none) ∧
    (∀ v d, ref v = some d → d.kind = .pointer → d.isNil = true → ¬ EqNil .iface ref v ∧ mustNonNilValue ref v = none) := by
  refine ⟨rfl, rfl, rfl, ?_, ?_⟩
  · intro v d h1 h2
    exact ⟨by simp [EqNil, h1], by simp [mustNonNilValue, h1, h2, mustBeNillable, nillableKind]⟩
  · intro v d h1 h2 h3
    exact ⟨by simp [EqNil, h1], by simp [mustNonNilValue, h1, h2, h3, mustBeNillable, nillableKind]⟩

/-- C113. MustNonEmptySlice returns exactly the slices with an element, and MustNonZero exactly the values that are not zero (for an interface: that hold
something not zero). -/
theorem c113_must {α : Type} (ref : α → Option Dyn) (v : α) (l : List α) :
    (mustNonEmptySlice l = some l ↔ ∃ x, x ∈ l) ∧ (mustNonEmptySlice l = none ↔ l = []) ∧
    (mustNonZero ref v = some v ↔ ∃ d, ref v = some d ∧ d.isZero = false) ∧ (mustNonZero ref v = none ↔ ∀ d, ref v = some d → d.isZero = true) := by
  refine ⟨?_, ?_, ?_, ?_⟩
  · cases l with
    | nil => simp [mustNonEmptySlice]
    | cons x l => simp [mustNonEmptySlice]
  · cases l <;> simp [mustNonEmptySlice]
  · cases h : ref v with
    | none => simp [mustNonZero, h]
    | some d => cases h' : d.isZero <;> simp [mustNonZero, h, h']
  · cases h : ref v with
    | none => simp [mustNonZero, h]
    | some d => cases h' : d.isZero <;> simp [mustNonZero, h, h']

/-! ### C115: SupplierCached and goroutines -/

/-- A call of the cached supplier that returned before the others began (or that runs alone) has left everything in place: no goroutine is about to store a value. -/
def Quiet {α : Type} (s : CState α) : Prop := s.isCached = true ∧ ∀ i v, s.threads i ≠ .got v ∧ s.threads i ≠ .flagged v

theorem quiet_step {α : Type} (val : Nat → α) (i : Nat) (s : CState α) (h : Quiet s) :
    Quiet (cstep val i s) ∧ (cstep val i s).invoked = s.invoked ∧ (cstep val i s).cachedVal = s.cachedVal ∧
    ∀ j v, (cstep val i s).threads j = .returned v → s.threads j = .returned v ∨ v = s.cachedVal := by
  obtain ⟨h1, h2⟩ := h
  have key : ∀ (t : CThread α), (∀ v, t ≠ .got v ∧ t ≠ .flagged v) → (∀ v, t = .returned v → v = s.cachedVal) → 
      let s' : CState α := { s with threads := Function.update s.threads i t }
      Quiet s' ∧ s'.invoked = s.invoked ∧ s'.cachedVal = s.cachedVal ∧ ∀ j v, s'.threads j = .returned v → s.threads j = .returned v ∨ v = s.cachedVal := by
    intro t ht hr
    refine ⟨⟨h1, ?_⟩, rfl, rfl, ?_⟩
    · intro j v
      by_cases hj : j = i
      · subst hj; simpa using ht v
      · simpa [Function.update_of_ne hj] using h2 j v
    · intro j v hv
      by_cases hj : j = i
      · subst hj; simp at hv; exact .inr (hr v hv)
      · simp only [Function.update_of_ne hj] at hv; exact .inl hv
  unfold cstep
  cases ht : s.threads i with
  | start =>
    have := key .ready (by simp) (by simp)
    simpa only [h1, Bool.not_true, Bool.false_eq_true, if_false] using this
  | got v => exact absurd ht (h2 i v).1
  | flagged v => exact absurd ht (h2 i v).2
  | ready => exact key (.returned s.cachedVal) (by simp) (by simp)
  | returned v => exact ⟨⟨h1, h2⟩, rfl, rfl, fun j v hv => .inl hv⟩

/-- C115 once a call has returned and no other is under way: whatever goroutines call the cached supplier from then on, in whatever schedule, the supplier is not
called again and all calls return the value stored. Missing: calls that overlap the first one. -/
theorem c115_after_first_partial {α : Type} (val : Nat → α) (s : CState α) (h : Quiet s) (sched : List Nat) :
    (crun val sched s).invoked = s.invoked ∧ ∀ j v, (crun val sched s).threads j = .returned v → s.threads j = .returned v ∨ v = s.cachedVal := by
  induction sched generalizing s with
  | nil => exact ⟨rfl, fun j v h => .inl h⟩
  | cons i sched ih =>
    obtain ⟨k1, k2, k3, k4⟩ := quiet_step val i s h
    obtain ⟨j1, j2⟩ := ih _ k1
    refine ⟨by rw [crun, j1, k2], fun j v hv => ?_⟩
    rw [crun] at hv
    rcases j2 j v hv with h' | h'
    · exact k4 j v h'
    · exact .inr (h'.trans k3)

/-- C115. A first call that runs alone gets the value of the supplier and leaves the state of `c115_after_first_partial`: together, if the first call is over
before the others begin, the supplier is called once and all get its value. -/
theorem c115_first_alone_partial {α : Type} (val : Nat → α) (zv : α) (i : Nat) (sched : List Nat) :
    (crun val (i :: i :: i :: i :: sched) (cinit zv)).invoked = 1 ∧
    ∀ j v, (crun val (i :: i :: i :: i :: sched) (cinit zv)).threads j = .returned v → v = val 0 := by
  have h4 : crun val (i :: i :: i :: i :: sched) (cinit zv) =
      crun val sched ⟨true, val 0, 1, Function.update (fun _ => .start) i (.returned (val 0))⟩ := by
    simp [crun, cstep, cinit]
  rw [h4]
  have hq : Quiet (⟨true, val 0, 1, Function.update (fun _ => .start) i (.returned (val 0))⟩ : CState α) := by
    refine ⟨rfl, fun j v => ?_⟩
    by_cases hj : j = i
    · subst hj; simp
    · simp [Function.update_of_ne hj]
  obtain ⟨h1, h2⟩ := c115_after_first_partial val _ hq sched
  refine ⟨h1, fun j v hv => ?_⟩
  rcases h2 j v hv with h | h
  · by_cases hj : j = i
    · subst hj; simp at h; exact h.symm
    · simp [Function.update_of_ne hj] at h
  · exact h

/-- C115 is false for calls that overlap: the supplier is called by both goroutines, which get different values, and a third goroutine gets the zero value. -/
theorem c115_overlap_refuted :
    let s := crun (fun k => 10 + k) [0, 1, 0, 2, 2, 0, 0, 1, 1, 1] (cinit 0)
    s.invoked = 2 ∧ s.threads 0 = .returned 10 ∧ s.threads 1 = .returned 11 ∧ s.threads 2 = .returned 0 := by
  refine ⟨rfl, rfl, rfl, rfl⟩

/-- C115, for every schedule: each goroutine calls the supplier at most once, and whatever it gets is a value the supplier returned, or the zero value. -/
theorem c115_values {α : Type} (val : Nat → α) (zv : α) (sched : List Nat) (j : Nat) (v : α) (h : (crun val sched (cinit zv)).threads j = .returned v) :
    v = zv ∨ ∃ k < (crun val sched (cinit zv)).invoked, v = val k := by
  have inv : ∀ (sched : List Nat) (s : CState α), (s.cachedVal = zv ∨ ∃ k < s.invoked, s.cachedVal = val k) → 
      (∀ j v, (s.threads j = .got v ∨ s.threads j = .flagged v) → ∃ k < s.invoked, v = val k) → 
      (∀ j v, s.threads j = .returned v → v = zv ∨ ∃ k < s.invoked, v = val k) → 
      ∀ j v, (crun val sched s).threads j = .returned v → v = zv ∨ ∃ k < (crun val sched s).invoked, v = val k := by
    intro sched
    induction sched with
    | nil => intro s _ _ h3; exact h3
    | cons i sched ih =>
      intro s h1 h2 h3
      rw [crun]
      have upd : ∀ (t : CThread α) (j : Nat) (v : α) (u : CThread α), Function.update s.threads i t j = u → (j = i ∧ t = u) ∨ s.threads j = u := by
        intro t j v u h
        by_cases hj : j = i
        · subst hj; simp at h; exact .inl ⟨rfl, h⟩
        · rw [Function.update_of_ne hj] at h; exact .inr h
      have mono : ∀ v, (∃ k < s.invoked, v = val k) → ∃ k < s.invoked + 1, v = val k := fun v ⟨k, hk, hv⟩ => ⟨k, by omega, hv⟩
      unfold cstep
      cases ht : s.threads i with
      | start =>
        by_cases hc : s.isCached = true
        · simp only [hc, Bool.not_true, Bool.false_eq_true, if_false]
          refine ih _ h1 ?_ ?_
          · intro j v h
            rcases h with h | h <;> rcases upd _ j v _ h with ⟨-, h⟩ | h
            · simp at h
            · exact h2 j v (.inl h)
            · simp at h
            · exact h2 j v (.inr h)
          · intro j v h
            rcases upd _ j v _ h with ⟨-, h⟩ | h
            · simp at h
            · exact h3 j v h
        · simp only [hc, Bool.not_false, if_true]
          refine ih _ ?_ ?_ ?_
          · exact h1.imp id (mono _)
          · intro j v h
            rcases h with h | h <;> rcases upd _ j v _ h with ⟨-, h⟩ | h
            · simp at h; exact ⟨s.invoked, by simp, h.symm⟩
            · exact mono _ (h2 j v (.inl h))
            · simp at h
            · exact mono _ (h2 j v (.inr h))
          · intro j v h
            rcases upd _ j v _ h with ⟨-, h⟩ | h
            · simp at h
            · exact (h3 j v h).imp id (mono _)
      | got w =>
        refine ih _ h1 ?_ ?_
        · intro j v h
          rcases h with h | h <;> rcases upd _ j v _ h with ⟨-, h⟩ | h
          · simp at h
          · exact h2 j v (.inl h)
          · simp at h; subst h; exact h2 i w (.inl ht)
          · exact h2 j v (.inr h)
        · intro j v h
          rcases upd _ j v _ h with ⟨-, h⟩ | h
          · simp at h
          · exact h3 j v h
      | flagged w =>
        refine ih _ (.inr (h2 i w (.inr ht))) ?_ ?_
        · intro j v h
          rcases h with h | h <;> rcases upd _ j v _ h with ⟨-, h⟩ | h
          · simp at h
          · exact h2 j v (.inl h)
          · simp at h
          · exact h2 j v (.inr h)
        · intro j v h
          rcases upd _ j v _ h with ⟨-, h⟩ | h
          · simp at h
          · exact h3 j v h
      | ready =>
        refine ih _ h1 ?_ ?_
        · intro j v h
          rcases h with h | h <;> rcases upd _ j v _ h with ⟨-, h⟩ | h
          · simp at h
          · exact h2 j v (.inl h)
          · simp at h
          · exact h2 j v (.inr h)
        · intro j v h
          rcases upd _ j v _ h with ⟨-, h⟩ | h
          · simp at h; subst h; exact h1
          · exact h3 j v h
      | returned w => exact ih _ h1 h2 h3
  exact inv sched (cinit zv) (.inl rfl) (by intro j v h; simp [cinit] at h) (by intro j v h; simp [cinit] at h) j v h

/-- Non-vacuity: after a first call, two overlapping ones. -/
example : (crun (fun k => 10 + k) [5, 5, 5, 5, 0, 1, 0, 1] (cinit 0)).threads 1 = .returned 10 := rfl

end Micro.Funcs
