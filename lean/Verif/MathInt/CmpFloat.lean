import Verif.MathInt.CmpProps
import Verif.MathInt.FloatOpModel
import Mathlib.Order.WithBot
/-
C82 for all floats, with NaN, the infinities and both zeros.
-/
namespace Micro.MathInt

/-- Where a float that is not NaN is on the number line; both zeros are at the same place. -/
def GoFlt.place : GoFlt → Option (WithBot (WithTop ℚ))
  | .nan => none
  | .zero _ => some ((0 : ℚ) : WithTop ℚ)
  | .fin q => some ((q : ℚ) : WithTop ℚ)
  | .inf true => some ⊥
  | .inf false => some ((⊤ : WithTop ℚ) : WithBot (WithTop ℚ))

/-- Go's `<` on floats (Go language specification, comparison operators; IEEE 754), case by case: false with NaN, the zeros are equal. -/
def GoFlt.less : GoFlt → GoFlt → Bool
  | .nan, _ => false
  | _, .nan => false
  | .inf s, .inf t => s && !t
  | .inf s, _ => s
  | _, .inf t => !t
  | .zero _, .zero _ => false
  | .zero _, .fin q => decide (0 < q)
  | .fin p, .zero _ => decide (p < 0)
  | .fin p, .fin q => decide (p < q)

instance : LT GoFlt := ⟨fun a b => a.less b = true⟩
instance : DecidableLT GoFlt := fun a b => inferInstanceAs (Decidable (a.less b = true))

theorem less_place (a b : GoFlt) (x y : WithBot (WithTop ℚ)) (ha : a.place = some x) (hb : b.place = some y) : a < b ↔ x < y := by
  change a.less b = true ↔ _
  cases a with
  | nan => simp [GoFlt.place] at ha
  | zero n =>
    simp only [GoFlt.place, Option.some.injEq] at ha; subst ha
    cases b with
    | nan => simp [GoFlt.place] at hb
    | zero m => simp only [GoFlt.place, Option.some.injEq] at hb; subst hb; simp [GoFlt.less]
    | fin q => simp only [GoFlt.place, Option.some.injEq] at hb; subst hb; simp only [GoFlt.less, decide_eq_true_eq]; norm_cast
    | inf t =>
      cases t <;> simp only [GoFlt.place, Option.some.injEq] at hb <;> subst hb
      · simp only [GoFlt.less, Bool.not_false, true_iff]
        exact WithBot.coe_lt_coe.2 (WithTop.coe_lt_top _)
      · simp [GoFlt.less]
  | fin p =>
    simp only [GoFlt.place, Option.some.injEq] at ha; subst ha
    cases b with
    | nan => simp [GoFlt.place] at hb
    | zero m => simp only [GoFlt.place, Option.some.injEq] at hb; subst hb; simp only [GoFlt.less, decide_eq_true_eq]; norm_cast
    | fin q => simp only [GoFlt.place, Option.some.injEq] at hb; subst hb; simp only [GoFlt.less, decide_eq_true_eq]; norm_cast
    | inf t =>
      cases t <;> simp only [GoFlt.place, Option.some.injEq] at hb <;> subst hb
      · simp only [GoFlt.less, Bool.not_false, true_iff]
        exact WithBot.coe_lt_coe.2 (WithTop.coe_lt_top _)
      · simp [GoFlt.less]
  | inf s =>
    cases s <;> simp only [GoFlt.place, Option.some.injEq] at ha <;> subst ha <;>
    (cases b with
    | nan => simp [GoFlt.place] at hb
    | zero m => simp only [GoFlt.place, Option.some.injEq] at hb; subst hb; simp [GoFlt.less]
    | fin q => simp only [GoFlt.place, Option.some.injEq] at hb; subst hb; simp [GoFlt.less]
    | inf t => cases t <;> simp only [GoFlt.place, Option.some.injEq] at hb <;> subst hb <;> simp [GoFlt.less])

/-- C82 for floats, exactly. With a NaN among the two, CmpOrdered is 0 and both MinOrdered and MaxOrdered give the first argument. Without, they compare
the places on the number line and give the argument whose place is least or greatest, the first one if they are at the same place (the two zeros). -/
theorem c82_float (a b : GoFlt) :
    (a = .nan ∨ b = .nan → cmpOrdered a b = 0 ∧ minOrdered a b = a ∧ maxOrdered a b = a) ∧
    ∀ x y, a.place = some x → b.place = some y →
      (cmpOrdered a b = -1 ↔ x < y) ∧ (cmpOrdered a b = 0 ↔ x = y) ∧ (cmpOrdered a b = 1 ↔ y < x) ∧
      (minOrdered a b = if y < x then b else a) ∧ (maxOrdered a b = if x < y then b else a) := by
  constructor
  · intro h
    have h1 : ¬ a < b := by
      change ¬ a.less b = true
      rcases h with rfl | rfl
      · simp [GoFlt.less]
      · cases a <;> simp [GoFlt.less]
    have h2 : ¬ b < a := by
      change ¬ b.less a = true
      rcases h with rfl | rfl
      · cases b <;> simp [GoFlt.less]
      · simp [GoFlt.less]
    unfold cmpOrdered minOrdered maxOrdered
    rw [if_neg h1, if_neg h2, if_neg h2, if_neg h1]
    exact ⟨rfl, rfl, rfl⟩
  · intro x y hx hy
    have h1 := less_place a b x y hx hy
    have h2 := less_place b a y x hy hx
    unfold cmpOrdered minOrdered maxOrdered
    simp only [gt_iff_lt, h1, h2]
    rcases lt_trichotomy x y with h | h | h
    · simp [h, not_lt.2 h.le, h.ne]
    · simp [h]
    · simp [h, not_lt.2 h.le, h.ne']

example : minOrdered (GoFlt.zero false) (.zero true) = .zero false ∧ minOrdered (GoFlt.zero true) (.zero false) = .zero true := by decide
example := (c82_float (.fin (1 / 2)) (.inf false)).2 _ _ rfl rfl

/-- C82 for complex numbers, exactly, with cmplx.Abs as it is: a float, which may be NaN. With a NaN among the two absolute values CmpComplex is 0 and MinComplex and MaxComplex give the first
argument. Without, they compare the places of the absolute values on the number line, and the first argument is given if these are the same. -/
theorem c82_complex_float {γ : Type} (abs : γ → GoFlt) (a b : γ) :
    (abs a = .nan ∨ abs b = .nan → cmpComplex abs a b = 0 ∧ minComplex abs a b = a ∧ maxComplex abs a b = a) ∧
    ∀ x y, (abs a).place = some x → (abs b).place = some y →
      (cmpComplex abs a b = -1 ↔ x < y) ∧ (cmpComplex abs a b = 0 ↔ x = y) ∧ (cmpComplex abs a b = 1 ↔ y < x) ∧
      (minComplex abs a b = if y < x then b else a) ∧ (maxComplex abs a b = if x < y then b else a) := by
  constructor
  · intro h
    have h1 : ¬ abs a < abs b := by
      change ¬ (abs a).less (abs b) = true
      rcases h with h | h
      · simp [h, GoFlt.less]
      · rw [h]; cases abs a <;> simp [GoFlt.less]
    have h2 : ¬ abs b < abs a := by
      change ¬ (abs b).less (abs a) = true
      rcases h with h | h
      · rw [h]; cases abs b <;> simp [GoFlt.less]
      · simp [h, GoFlt.less]
    unfold cmpComplex minComplex maxComplex
    rw [if_neg h1, if_neg h2, if_neg h2, if_neg h1]
    exact ⟨rfl, rfl, rfl⟩
  · intro x y hx hy
    have h1 := less_place _ _ x y hx hy
    have h2 := less_place _ _ y x hy hx
    unfold cmpComplex minComplex maxComplex
    simp only [gt_iff_lt, h1, h2]
    rcases lt_trichotomy x y with h | h | h
    · simp [h, not_lt.2 h.le, h.ne]
    · simp [h]
    · simp [h, not_lt.2 h.le, h.ne']

/-- The real number 1/2 and a number with an infinite part. -/
example := (c82_complex_float (fun n : Nat => if n = 0 then .fin (1 / 2) else .inf false) 0 1).2 _ _ rfl rfl

end Micro.MathInt
