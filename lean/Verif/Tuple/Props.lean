import Verif.Tuple.Model
import Verif.Union.Props
import Mathlib.Tactic.Basic
set_option linter.unusedSimpArgs false
/-
Theorems C138: package tuple, and C52: Which.
-/
namespace Micro.Tuple

variable {A B C D : Type}

/-- C138: a tuple gives back the values it was made of, in the same order, through Values and through the selectors. -/
theorem c138_values (a : A) (b : B) (c : C) (d : D) :
    (of2 a b).values = (a, b) ∧ (of3 a b c).values = (a, b, c) ∧ (of4 a b c d).values = (a, b, c, d) ∧
    firstValue2 (of2 a b).values = a ∧ secondValue2 (of2 a b).values = b ∧
    firstValue3 (of3 a b c).values = a ∧ secondValue3 (of3 a b c).values = b ∧ thirdValue3 (of3 a b c).values = c :=
  ⟨rfl, rfl, rfl, rfl, rfl, rfl, rfl, rfl⟩

/-- C138: the constructors for values of one type do the same. -/
theorem c138_same (a b c d : A) :
    (of2Same a b).values = (a, b) ∧ (of3Same a b c).values = (a, b, c) ∧ (of4Same a b c d).values = (a, b, c, d) :=
  ⟨rfl, rfl, rfl⟩

/-- C138: a tuple is determined by its values: two tuples are equal exactly if all their values are, and making a tuple of the values gives the tuple. -/
theorem c138_determined :
    (∀ x y : Two A B, x = y ↔ x.values = y.values) ∧ (∀ x y : Three A B C, x = y ↔ x.values = y.values) ∧
    (∀ x y : Four A B C D, x = y ↔ x.values = y.values) ∧
    (∀ x : Two A B, of2 x.values.1 x.values.2 = x) ∧ (∀ x : Three A B C, of3 x.values.1 x.values.2.1 x.values.2.2 = x) ∧
    (∀ x : Four A B C D, of4 x.values.1 x.values.2.1 x.values.2.2.1 x.values.2.2.2 = x) := by
  refine ⟨?_, ?_, ?_, fun _ => rfl, fun _ => rfl, fun _ => rfl⟩
  · rintro ⟨a, b⟩ ⟨a', b'⟩; simp [Two.values]
  · rintro ⟨a, b, c⟩ ⟨a', b', c'⟩; simp [Three.values]
  · rintro ⟨a, b, c, d⟩ ⟨a', b', c', d'⟩; simp [Four.values]

/-- C138: the text of a tuple names every value by its letter, in order, whatever characters the texts of the values have (percent signs, too). -/
theorem c138_string (fa : A → List Char) (fb : B → List Char) (fc : C → List Char) (fd : D → List Char) (a : A) (b : B) (c : C) (d : D) :
    (of2 a b).string fa fb = "{T: ".toList ++ fa a ++ ", U: ".toList ++ fb b ++ "}".toList ∧
    (of3 a b c).string fa fb fc = "{T: ".toList ++ fa a ++ ", U: ".toList ++ fb b ++ ", V: ".toList ++ fc c ++ "}".toList ∧
    (of4 a b c d).string fa fb fc fd =
      "{T: ".toList ++ fa a ++ ", U: ".toList ++ fb b ++ ", V: ".toList ++ fc c ++ ", W: ".toList ++ fd d ++ "}".toList := by
  have e2 : twoStringMsg = ['{', 'T', ':', ' ', '%', 'v', ',', ' ', 'U', ':', ' ', '%', 'v', '}'] := by decide
  have e3 : threeStringMsg = ['{', 'T', ':', ' ', '%', 'v', ',', ' ', 'U', ':', ' ', '%', 'v', ',', ' ', 'V', ':', ' ', '%', 'v', '}'] := by decide
  have e4 : fourStringMsg = ['{', 'T', ':', ' ', '%', 'v', ',', ' ', 'U', ':', ' ', '%', 'v', ',', ' ', 'V', ':', ' ', '%', 'v',
    ',', ' ', 'W', ':', ' ', '%', 'v', '}'] := by decide
  have s1 : "{T: ".toList = ['{', 'T', ':', ' '] := by decide
  have s2 : ", U: ".toList = [',', ' ', 'U', ':', ' '] := by decide
  have s3 : ", V: ".toList = [',', ' ', 'V', ':', ' '] := by decide
  have s4 : ", W: ".toList = [',', ' ', 'W', ':', ' '] := by decide
  have s5 : "}".toList = ['}'] := by decide
  rw [s1, s2, s3, s4, s5]
  refine ⟨?_, ?_, ?_⟩
  · unfold Two.string
    rw [e2]
    simp [sprintf, of2]
  · unfold Three.string
    rw [e3]
    simp [sprintf, of3]
  · unfold Four.string
    rw [e4]
    simp [sprintf, of4]

example : (of2 (5 : Nat) "100%v").string (fun n => (toString n).toList) String.toList = "{T: 5, U: 100%v}".toList := by
  rw [(c138_string _ _ (fun _ : Unit => []) (fun _ : Unit => []) 5 "100%v" () ()).1]
  decide

end Micro.Tuple

namespace Micro.Union

variable {A B C D : Type}

/-- C52: Which names the one accessor that does not panic, whatever happened before. -/
theorem c52_which :
    (∀ s : Two A B, (s.getT.isSome ↔ s.getWhich = .T) ∧ (s.getU.isSome ↔ s.getWhich = .U)) ∧
    (∀ s : Three A B C, (s.getT.isSome ↔ s.getWhich = .T) ∧ (s.getU.isSome ↔ s.getWhich = .U) ∧ (s.getV.isSome ↔ s.getWhich = .V)) ∧
    (∀ s : Four A B C D, (s.getT.isSome ↔ s.getWhich = .T) ∧ (s.getU.isSome ↔ s.getWhich = .U) ∧ (s.getV.isSome ↔ s.getWhich = .V) ∧
      (s.getW.isSome ↔ s.getWhich = .W)) := by
  refine ⟨?_, ?_, ?_⟩
  · rintro ⟨t, u, w⟩; cases w <;> simp [Two.getT, Two.getU, Two.getWhich, check]
  · rintro ⟨t, u, v, w⟩; cases w <;> simp [Three.getT, Three.getU, Three.getV, Three.getWhich, check]
  · rintro ⟨t, u, v, w, wh⟩; cases wh <;> simp [Four.getT, Four.getU, Four.getV, Four.getW, Four.getWhich, check]

example : ((of2T (B := String) "" 1).put (.u "a")).getWhich = .U ∧ ((of2T (B := String) "" 1).put (.u "a")).getU = some "a" := by decide

end Micro.Union
