import Verif.MathInt.RangeModel
import Verif.Funcs.BaseProps
set_option linter.unusedSimpArgs false
/-
C20: math.Range, for integers of any type and for floats, with infinities and NaN.
-/
namespace Micro.MathInt
open Micro Micro.Funcs

/-- The values of an element type that are numbers, and their place in a linear order. -/
class Numbers (α : Type) where
  κ : Type
  order : LinearOrder κ
  key : α → κ
  isNum : α → Prop

instance (α : Type) [n : Numbers α] : LinearOrder n.κ := n.order

/-- Go's comparison operators compare the numbers; whatever is no number (NaN) is neither below nor equal to anything. -/
class LawfulOrdered (α : Type) [GoOrdered α] extends Numbers α where
  lt_iff : ∀ a b : α, GoOrdered.lt a b = true ↔ isNum a ∧ isNum b ∧ key a < key b
  le_iff : ∀ a b : α, GoOrdered.le a b = true ↔ isNum a ∧ isNum b ∧ key a ≤ key b

/-- The integer types. -/
instance : GoOrdered Int := GoOrdered.ofLinear Int

/-- The integer types: every value is a number. -/
instance : LawfulOrdered Int where
  κ := Int
  order := inferInstance
  key := id
  isNum := fun _ => True
  lt_iff := by intro a b; simp [GoOrdered.lt]
  le_iff := by intro a b; simp [GoOrdered.le]

/-- The float types: everything but NaN is a number. -/
instance : LawfulOrdered Conv.Flt where
  κ := WithBot (WithTop ℚ)
  order := inferInstance
  key := fltKey
  isNum := fun x => x ≠ .nan
  lt_iff := by
    intro a b
    by_cases ha : a = .nan
    · subst ha; simp [GoOrdered.lt]
    · by_cases hb : b = .nan
      · subst hb; cases a <;> simp [GoOrdered.lt]
      · have := (c111_float_partial b a hb ha).lt
        rw [lessThan] at this
        simp [this, ha, hb]
  le_iff := by
    intro a b
    by_cases ha : a = .nan
    · subst ha; simp [GoOrdered.le]
    · by_cases hb : b = .nan
      · subst hb; cases a <;> simp [GoOrdered.le]
      · have := (c111_float_partial b a hb ha).le
        rw [lessThanEqual] at this
        simp [this, ha, hb]

variable {α : Type} [GoOrdered α] [LawfulOrdered α]

open Numbers in
/-- Specification: `v` and the bounds are numbers, and `v` lies between them, open or closed as given. -/
def Within (min : α) (minClosed : Bool) (max : α) (maxClosed : Bool) (v : α) : Prop :=
  isNum min ∧ isNum max ∧ isNum v ∧
  (key min < key v ∨ (minClosed = true ∧ key v = key min)) ∧ (key v < key max ∨ (maxClosed = true ∧ key v = key max))

/-- C20. SetValue: nil and the value stored exactly if it lies within the bounds, otherwise an error
and nothing changes. -/
theorem c20_setValue (r : Range α) (v : α) :
    (Within r.min r.minClosed r.max r.maxClosed v ∧ r.setValue v = ({ r with val := v }, false)) ∨
    (¬ Within r.min r.minClosed r.max r.maxClosed v ∧ r.setValue v = (r, true)) := by
  have key : (((!r.minClosed && GoOrdered.lt r.min v) || (r.minClosed && GoOrdered.le r.min v)) &&
     ((!r.maxClosed && GoOrdered.lt v r.max) || (r.maxClosed && GoOrdered.le v r.max))) = true ↔ Within r.min r.minClosed r.max r.maxClosed v := by
    unfold Within
    simp only [Bool.and_eq_true, Bool.or_eq_true, Bool.not_eq_true', LawfulOrdered.lt_iff, LawfulOrdered.le_iff, le_iff_lt_or_eq]
    cases r.minClosed <;> cases r.maxClosed <;> simp <;> grind
  unfold Range.setValue
  by_cases h : Within r.min r.minClosed r.max r.maxClosed v
  · left; exact ⟨h, if_pos (key.mpr h)⟩
  · right; exact ⟨h, if_neg (fun hc => h (key.mp hc))⟩

/-- C20 (partial): if the initial value is within the bounds, the value stays within them for every
sequence of SetValue calls, and the bounds stay. Missing: OfRange does not check the initial value (`c20_ofRange_refuted`). -/
theorem c20_range_partial (min : α) (mc : Bool) (max : α) (xc : Bool) (init : α) (r : Range α)
    (h : ofRange min mc max xc init = .ok r) (hi : Within min mc max xc init) (vs : List α) :
    let r' := vs.foldl (fun r v => (r.setValue v).1) r
    r'.getMin = (min, mc) ∧ r'.getMax = (max, xc) ∧ Within min mc max xc r'.getValue := by
  have h0 : r.min = min ∧ r.minClosed = mc ∧ r.max = max ∧ r.maxClosed = xc ∧ Within min mc max xc r.val := by
    unfold ofRange at h; split at h
    · simp at h
    · simp at h; subst h; exact ⟨rfl, rfl, rfl, rfl, hi⟩
  clear h hi
  induction vs generalizing r with
  | nil => obtain ⟨rfl, rfl, rfl, rfl, h5⟩ := h0; exact ⟨rfl, rfl, h5⟩
  | cons v vs ih =>
    apply ih
    obtain ⟨rfl, rfl, rfl, rfl, h5⟩ := h0
    rcases c20_setValue r v with ⟨hw, e⟩ | ⟨hw, e⟩ <;> simp only [e, true_and]
    · exact hw
    · exact h5

example : ofRange (0 : Int) true 10 false 3 = .ok ⟨0, true, 10, false, 3⟩ ∧ Within (0 : Int) true 10 false 3 :=
  ⟨rfl, trivial, trivial, trivial, .inl (by decide), .inl (by decide)⟩

/-- C20, exactly: after any calls of SetValue the value is within the bounds if and only if the initial value was, or some argument was. -/
theorem c20_history_iff (min : α) (mc : Bool) (max : α) (xc : Bool) (init : α) (r : Range α)
    (h : ofRange min mc max xc init = .ok r) (vs : List α) :
    Within min mc max xc (vs.foldl (fun r v => (r.setValue v).1) r).getValue ↔
      Within min mc max xc init ∨ ∃ v ∈ vs, Within min mc max xc v := by
  have h0 : r.min = min ∧ r.minClosed = mc ∧ r.max = max ∧ r.maxClosed = xc ∧ r.val = init := by
    unfold ofRange at h; split at h
    · simp at h
    · simp at h; subst h; exact ⟨rfl, rfl, rfl, rfl, rfl⟩
  clear h
  induction vs generalizing r init with
  | nil => obtain ⟨rfl, rfl, rfl, rfl, rfl⟩ := h0; simp [Range.getValue]
  | cons v vs ih =>
    obtain ⟨rfl, rfl, rfl, rfl, rfl⟩ := h0
    rw [List.foldl_cons]
    rcases c20_setValue r v with ⟨hw, e⟩ | ⟨hw, e⟩
    · have := ih v (r.setValue v).1 (by simp only [e, and_self])
      refine this.trans ?_
      simp [hw]
    · have := ih r.val (r.setValue v).1 (by simp only [e, and_self])
      refine this.trans ?_
      simp [hw]

example : Within (0 : Int) true 10 false ([20, 5, 30].foldl (fun (r : Range Int) v => (r.setValue v).1) ⟨0, true, 10, false, 50⟩).getValue :=
  (c20_history_iff (0 : Int) true 10 false 50 _ rfl [20, 5, 30]).2 (Or.inr ⟨5, by simp, trivial, trivial, trivial, .inl (by decide), .inl (by decide)⟩)

/-- C20. The value after any calls is the last accepted argument (or the initial value). -/
theorem c20_last_accepted (r : Range α) (vs : List α) :
    (vs.foldl (fun r v => (r.setValue v).1) r).getValue =
      ((vs.filter (fun v => !(r.setValue v).2)).getLast?).getD r.getValue := by
  have hb : ∀ (r : Range α) v w, ((r.setValue w).1.setValue v).2 = (r.setValue v).2 := by
    intro r v w
    rcases c20_setValue r w with ⟨_, e⟩ | ⟨_, e⟩ <;> rw [e]
    simp only [Range.setValue]; split <;> rfl
  unfold Range.getValue
  induction vs generalizing r with
  | nil => rfl
  | cons v vs ih =>
    rw [List.foldl_cons, ih]
    simp only [hb]
    rcases c20_setValue r v with ⟨_, e⟩ | ⟨_, e⟩
    · rw [List.filter_cons_of_pos (by rw [e]; rfl), e]
      cases h : (vs.filter (fun v => !(r.setValue v).2)) with
      | nil => rfl
      | cons a t => simp [List.getLast?_cons]
    · rw [List.filter_cons_of_neg (by rw [e]; simp), e]

/-- C20 is false of the code: OfRange accepts an initial value outside the bounds although its
documentation says it panics. -/
theorem c20_ofRange_refuted :
    ∃ (min : Int) (mc : Bool) (max : Int) (xc : Bool) (init : Int) (r : Range Int), ofRange min mc max xc init = .ok r ∧ ¬ Within min mc max xc r.getValue :=
  ⟨0, true, 10, true, 11, ⟨0, true, 10, true, 11⟩, rfl, by
    rintro ⟨-, -, -, -, h | ⟨-, h⟩⟩
    · exact absurd h (by decide)
    · exact absurd h (by decide)⟩

open Numbers in
/-- C20. OfRange panics exactly when both bounds are numbers and min is not below max: for integers, when min is not below max. -/
theorem c20_ofRange_panics (min : α) (mc : Bool) (max : α) (xc : Bool) (init : α) :
    ofRange min mc max xc init = .panic ↔ isNum min ∧ isNum max ∧ ¬ key min < key max := by
  unfold ofRange
  rw [Bool.or_self]
  have := LawfulOrdered.le_iff max min
  by_cases h : GoOrdered.le max min = true
  · rw [if_pos h]
    simp only [true_iff]
    obtain ⟨h1, h2, h3⟩ := this.mp h
    exact ⟨h2, h1, not_lt.mpr h3⟩
  · rw [if_neg h]
    simp only [false_iff, reduceCtorEq]
    rintro ⟨h1, h2, h3⟩
    exact h (this.mpr ⟨h2, h1, not_lt.mp h3⟩)

example (min max init : Int) : ofRange min true max true init = .panic ↔ ¬ min < max := by
  rw [c20_ofRange_panics]; exact ⟨fun h => h.2.2, fun h => ⟨trivial, trivial, h⟩⟩

/-- C20 is false for NaN: OfRange does not panic if a bound is NaN, and the value of such a Range is within no bounds and cannot be set. -/
theorem c20_nan_refuted (mc xc : Bool) (min max init : Conv.Flt) (h : min = .nan ∨ max = .nan) :
    ∃ r, ofRange min mc max xc init = .ok r ∧ ∀ v, r.setValue v = (r, true) ∧ ¬ Within min mc max xc v := by
  have hw : ∀ v, ¬ Within min mc max xc v := by
    rintro v ⟨h1, h2, -⟩
    rcases h with h | h
    · exact h1 h
    · exact h2 h
  cases hr : ofRange min mc max xc init with
  | panic =>
    obtain ⟨h1, h2, -⟩ := (c20_ofRange_panics _ _ _ _ _).mp hr
    rcases h with h | h
    · exact absurd h h1
    · exact absurd h h2
  | err e => unfold ofRange at hr; split at hr <;> cases hr
  | ok r =>
    refine ⟨r, rfl, fun v => ⟨?_, hw v⟩⟩
    have hr' : r = ⟨min, mc, max, xc, init⟩ := by
      unfold ofRange at hr; split at hr
      · cases hr
      · cases hr; rfl
    subst hr'
    rcases c20_setValue (⟨min, mc, max, xc, init⟩ : Range Conv.Flt) v with ⟨h1, _⟩ | ⟨_, h2⟩
    · exact absurd h1 (hw v)
    · exact h2

/-- C20: NaN is never accepted as a value, and the infinities are ordered as one expects: for a range from minus to plus infinity, open at
both ends, exactly the finite numbers are accepted. -/
theorem c20_floats (mc xc : Bool) (min max init v : Conv.Flt) :
    (Range.setValue ⟨min, mc, max, xc, init⟩ .nan).2 = true ∧
    ((Range.setValue ⟨.inf true, false, .inf false, false, init⟩ v).2 = false ↔ ∃ q, v = .fin q) := by
  constructor
  · rcases c20_setValue (⟨min, mc, max, xc, init⟩ : Range Conv.Flt) .nan with ⟨⟨_, _, h, _⟩, _⟩ | ⟨_, h⟩
    · exact absurd rfl h
    · rw [h]
  · rcases v with _ | (_ | _) | q <;> simp [Range.setValue, GoOrdered.lt, GoOrdered.le]

end Micro.MathInt
