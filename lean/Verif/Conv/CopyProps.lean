import Verif.Conv.CopyModel
import Mathlib.Logic.Function.Basic
import Mathlib.Tactic.Ring
import Mathlib.Tactic.Linarith
/-
C84: a *big.Int copied by To is independent of the original.
-/
namespace Micro.Conv

/-- The number little endian words spell. -/
def wordsVal : List Nat → Nat
  | [] => 0
  | w :: ws => w + 2 ^ 64 * wordsVal ws

/-- The number a *big.Int stands for. -/
def Heap.value (h : Heap) (a : Nat) : Int :=
  (if (h.objs a).neg then -1 else 1) * wordsVal ((h.arrs (h.objs a).arr).take (h.objs a).len)

/-- C84: To gives a pointer other than the original, of the same value, and changes no other number: neither the original nor any
number but the one the target pointed to. A nil pointer gives nil. -/
theorem c84_copy_partial (h : Heap) (o : Option Nat) (a : Nat) (ha : a < h.nextObj) :
    (∃ b, (toCopy h (some a) o).2 = some b ∧ b ≠ a ∧ (b = h.nextObj ∨ o = some b) ∧
      (toCopy h (some a) o).1.value b = h.value a ∧ ∀ c, c ≠ b → (toCopy h (some a) o).1.value c = h.value c) ∧
    (toCopy h none o) = (h, none) := by
  refine ⟨?_, rfl⟩
  cases o with
  | none =>
    refine ⟨h.nextObj, rfl, by omega, Or.inl rfl, by simp [toCopy, Heap.value], ?_⟩
    intro c hc; simp [toCopy, Heap.value, Function.update_of_ne hc]
  | some b =>
    by_cases hb : b = a
    · refine ⟨h.nextObj, by simp [toCopy, hb], by omega, Or.inl rfl, by simp [toCopy, Heap.value, hb], ?_⟩
      intro c hc; simp [toCopy, Heap.value, hb, Function.update_of_ne hc]
    · refine ⟨b, by simp [toCopy, hb], hb, Or.inr rfl, by simp [toCopy, Heap.value, hb], ?_⟩
      intro c hc; simp [toCopy, Heap.value, hb, Function.update_of_ne hc]

/-- Memory holding the *big.Int 5 at address 0. -/
def fiveHeap : Heap := ⟨fun _ => ⟨false, 0, 1⟩, fun a => if a = 0 then [5] else [], 1, 1⟩

example : fiveHeap.value 0 = 5 ∧ 0 < fiveHeap.nextObj := by decide

/-- C84 fails: To copies the *big.Int 5; after SetInt64(7) on the copy the original is 7. -/
theorem c84_independent_refuted : (toCopy fiveHeap (some 0) none).2 = some 1 ∧
    (setInt64 (toCopy fiveHeap (some 0) none).1 1 7).value 0 = 7 ∧ fiveHeap.value 0 = 5 := by decide

/-- How it fails: whatever non-zero number is set in the copy, its magnitude replaces the lowest word of the original. -/
theorem c84_shared (h : Heap) (o : Option Nat) (a b : Nat) (x : Int) (w : Nat) (ws : List Nat) (n : Nat)
    (ha : a < h.nextObj) (hw : h.arrs (h.objs a).arr = w :: ws) (hn : (h.objs a).len = n + 1) (hx : x ≠ 0)
    (hb : (toCopy h (some a) o).2 = some b) :
    (setInt64 (toCopy h (some a) o).1 b x).value a =
      h.value a + (if (h.objs a).neg then -1 else 1) * ((x.natAbs : Int) - w) := by
  have key : (toCopy h (some a) o).1.objs b = h.objs a ∧ (toCopy h (some a) o).1.objs a = h.objs a ∧
      (toCopy h (some a) o).1.arrs = h.arrs ∧ b ≠ a := by
    cases o with
    | none =>
      simp [toCopy] at hb ⊢
      subst hb
      refine ⟨by simp, ?_, by omega⟩
      rw [Function.update_of_ne (by omega)]
    | some c =>
      by_cases hc : c = a
      · simp [toCopy, hc] at hb ⊢
        subst hb
        refine ⟨by simp, ?_, by omega⟩
        rw [Function.update_of_ne (by omega)]
      · simp [toCopy, hc] at hb ⊢
        subst hb
        refine ⟨by simp, ?_, hc⟩
        rw [Function.update_of_ne (fun e => hc e.symm)]
  obtain ⟨h1, h2, h3, h4⟩ := key
  generalize (toCopy h (some a) o).1 = h' at *
  have hval : (setInt64 h' b x).value a = (if (h.objs a).neg then -1 else 1) * wordsVal (x.natAbs :: ws.take n) := by
    unfold setInt64
    simp only [h1, h3, hw, hx, if_false]
    unfold Heap.value
    simp only [Function.update_of_ne (fun e => h4 e.symm : a ≠ b), h2, hn, Function.update_self, List.take_succ_cons]
  rw [hval]
  unfold Heap.value
  rw [hw, hn, List.take_succ_cons]
  simp only [wordsVal]
  push_cast
  ring

example := c84_shared fiveHeap none 0 1 (-7) 5 [] 0 (by decide) (by decide) (by decide) (by decide) (by decide)

/-- C84, partial: setting the copy to zero or flipping its sign leaves the original alone, and so does every SetInt64 if the original
has no backing array (a zero that never was anything else). -/
theorem c84_independent_partial (h : Heap) (o : Option Nat) (a b : Nat) (x : Int) (ha : a < h.nextObj)
    (hf : (h.objs a).arr < h.nextArr) (hb : (toCopy h (some a) o).2 = some b) :
    (setInt64 (toCopy h (some a) o).1 b 0).value a = h.value a ∧
    (negInPlace (toCopy h (some a) o).1 b).value a = h.value a ∧
    (h.arrs (h.objs a).arr = [] → (setInt64 (toCopy h (some a) o).1 b x).value a = h.value a) := by
  obtain ⟨⟨b', hb', hne, -, -, hval⟩, -⟩ := c84_copy_partial h o a ha
  rw [hb] at hb'; cases hb'
  have hva := hval a (fun e => hne e.symm)
  have hab : a ≠ b := fun e => hne e.symm
  have key : (toCopy h (some a) o).1.objs b = h.objs a ∧ (toCopy h (some a) o).1.objs a = h.objs a ∧
      (toCopy h (some a) o).1.arrs = h.arrs ∧ (toCopy h (some a) o).1.nextArr = h.nextArr := by
    cases o with
    | none =>
      simp [toCopy] at hb ⊢
      subst hb
      refine ⟨by simp, ?_⟩
      rw [Function.update_of_ne (by omega)]
    | some c =>
      by_cases hc : c = a
      · simp [toCopy, hc] at hb ⊢
        subst hb
        refine ⟨by simp, ?_⟩
        rw [Function.update_of_ne (by omega)]
      · simp [toCopy, hc] at hb ⊢
        subst hb
        refine ⟨by simp, ?_⟩
        rw [Function.update_of_ne (fun e => hc e.symm)]
  obtain ⟨h1, h2, h3, h4⟩ := key
  generalize (toCopy h (some a) o).1 = h' at *
  refine ⟨?_, ?_, ?_⟩
  · rw [← hva]; simp [setInt64, Heap.value, Function.update_of_ne hab]
  · rw [← hva]; simp [negInPlace, Heap.value, Function.update_of_ne hab]
  · intro he
    rw [← hva]
    by_cases hx : x = 0
    · simp [hx, setInt64, Heap.value, Function.update_of_ne hab]
    · simp only [setInt64, hx, if_false, h1, h3, he]
      have : (h.objs a).arr ≠ h'.nextArr := by omega
      simp [Heap.value, Function.update_of_ne hab, h2, h3, Function.update_of_ne this]

example := c84_independent_partial fiveHeap (some 0) 0 1 7 (by decide) (by decide) (by decide)

/-- The two methods of math/big used above do what they are documented to do to the number itself: SetInt64(x) makes it x (of at most
one word), Neg its negative; other numbers with a backing array of their own keep their value, and no later array shares one in use. -/
theorem c84_methods (h : Heap) (z : Nat) (x : Int) :
    (setInt64 h z x).value z = x ∧ (negInPlace h z).value z = -h.value z ∧
    (∀ a, a ≠ z → (negInPlace h z).value a = h.value a) ∧
    ((∀ o, (h.objs o).arr < h.nextArr) → (∀ o, ((setInt64 h z x).objs o).arr < (setInt64 h z x).nextArr) ∧
      ∀ a, a ≠ z → (h.objs a).arr ≠ (h.objs z).arr → (setInt64 h z x).value a = h.value a) := by
  refine ⟨?_, ?_, ?_, ?_⟩
  · unfold setInt64
    by_cases hx : x = 0
    · simp [hx, Heap.value, wordsVal]
    · simp only [hx, if_false]
      have hval : (if x < 0 then (-1 : Int) else 1) * (x.natAbs : Int) = x := by split <;> omega
      split <;> simp [Heap.value, wordsVal] <;> simpa using hval
  · unfold negInPlace Heap.value
    simp only [Function.update_self]
    by_cases hl : (h.objs z).len = 0
    · simp [hl, wordsVal]
    · have : 0 < (h.objs z).len := by omega
      cases hneg : (h.objs z).neg <;> simp [this]
  · intro a ha
    simp [negInPlace, Heap.value, Function.update_of_ne ha]
  · intro hf
    unfold setInt64
    by_cases hx : x = 0
    · simp only [hx, if_true]
      refine ⟨fun o => ?_, fun a ha _ => by simp [Heap.value, Function.update_of_ne ha]⟩
      by_cases ho : o = z
      · subst ho; simpa using hf o
      · simpa [Function.update_of_ne ho] using hf o
    · simp only [hx, if_false]
      split
      · refine ⟨fun o => ?_, fun a ha hne => ?_⟩
        · by_cases ho : o = z
          · subst ho; simp
          · simp only [Function.update_of_ne ho]; have := hf o; omega
        · have h1 : (h.objs a).arr ≠ h.nextArr := by have := hf a; omega
          simp [Heap.value, Function.update_of_ne ha, Function.update_of_ne h1]
      · refine ⟨fun o => ?_, fun a ha hne => ?_⟩
        · by_cases ho : o = z
          · subst ho; simpa using hf o
          · simpa [Function.update_of_ne ho] using hf o
        · simp [Heap.value, Function.update_of_ne ha, Function.update_of_ne hne]

example : (∀ o, (fiveHeap.objs o).arr < fiveHeap.nextArr) ∧ (setInt64 fiveHeap 0 (-7)).value 0 = -7 := ⟨fun _ => Nat.zero_lt_one, by decide⟩

example : 0 < fiveHeap.nextObj ∧ (fiveHeap.objs 0).arr < fiveHeap.nextArr ∧ (toCopy fiveHeap (some 0) (some 0)).2 = some 1 := by
  decide

end Micro.Conv
