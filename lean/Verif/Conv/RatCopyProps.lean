import Verif.Conv.RatCopyModel
import Verif.Conv.CopyProps
import Mathlib.Data.Rat.Defs
import Mathlib.Tactic.NormNum
set_option linter.unusedSimpArgs false
/-
C97: a number converted between *big.Rat and *big.Int is independent of the original.
-/
namespace Micro.Conv

/-- The number a *big.Rat stands for. -/
def RHeap.ratValue (h : RHeap) (r : Nat) : ℚ :=
  (h.value (h.rats r).num : ℚ) / (if (h.objs (h.rats r).den).len = 0 then 1 else h.value (h.rats r).den)

/-- The structs and arrays in use are below the free addresses, the length of a slice is within its array, a denominator is not negative. -/
structure RHeap.Ok (h : RHeap) : Prop where
  num : ∀ r < h.nextRat, (h.rats r).num < h.nextObj
  den : ∀ r < h.nextRat, (h.rats r).den < h.nextObj
  arr : ∀ i < h.nextObj, (h.objs i).arr < h.nextArr
  len : ∀ i < h.nextObj, (h.objs i).len ≤ (h.arrs (h.objs i).arr).length
  pos : ∀ r < h.nextRat, (h.objs (h.rats r).den).neg = false

/-- Fractions are kept in lowest terms, and the most significant word of a number is not 0. -/
structure RHeap.Lowest (h : RHeap) (r : Nat) : Prop where
  top : ∀ w, ((h.arrs (h.objs (h.rats r).den).arr).take (h.objs (h.rats r).den).len).getLast? = some w → w ≠ 0
  coprime : (h.objs (h.rats r).den).len = 0 ∨ (h.value (h.rats r).num).natAbs.Coprime (h.value (h.rats r).den).natAbs

theorem wordsVal_pos (ws : List Nat) (h0 : ws ≠ []) (h : ∀ w, ws.getLast? = some w → w ≠ 0) : 0 < wordsVal ws := by
  induction ws with
  | nil => exact absurd rfl h0
  | cons w ws ih =>
    cases ws with
    | nil => have := h w rfl; simp [wordsVal]; omega
    | cons v vs =>
      have := ih (by simp) (fun u hu => h u (by simpa using hu))
      simp only [wordsVal] at this ⊢
      omega

theorem wordsVal_one (ws : List Nat) (h : ∀ w, ws.getLast? = some w → w ≠ 0) (h1 : wordsVal ws = 1) : ws = [1] := by
  cases ws with
  | nil => simp [wordsVal] at h1
  | cons w ws =>
    cases ws with
    | nil => simp [wordsVal] at h1; rw [h1]
    | cons v vs =>
      have := wordsVal_pos (v :: vs) (by simp) (fun u hu => h u (by simpa using hu))
      simp only [wordsVal] at h1 this
      omega

/-- C97 (partial): BigRatToBigInt is an error exactly for the fractions that are no integers, and otherwise delivers the value of the *big.Rat.
Missing: the result is not a number of its own (`c97_alias_refuted`). -/
theorem c97_value_partial (h : RHeap) (hk : h.Ok) (r : Nat) (hr : r < h.nextRat) (hl : h.Lowest r) :
    (∀ i, bigRatToBigIntRef h r = some i → (h.value i : ℚ) = h.ratValue r) ∧
    (bigRatToBigIntRef h r = none ↔ ∀ n : Int, h.ratValue r ≠ n) := by
  have first : ∀ i, bigRatToBigIntRef h r = some i → (h.value i : ℚ) = h.ratValue r := by
    intro i hi
    unfold bigRatToBigIntRef at hi
    split at hi
    · rename_i hi'
      cases hi
      simp only [RHeap.isInt, decide_eq_true_eq] at hi'
      unfold RHeap.ratValue
      rcases hi' with h0 | h1
      · simp [h0]
      · have : h.value (h.rats r).den = 1 := by
          unfold Heap.value
          rw [h1, hk.pos r hr]; rfl
        rw [this]
        split <;> simp
    · cases hi
  refine ⟨first, ?_, ?_⟩
  · intro hn n hv
    unfold bigRatToBigIntRef at hn
    have hi' : ¬ h.isInt r = true := by intro hi; simp [hi] at hn
    simp only [RHeap.isInt, decide_eq_true_eq, not_or] at hi'
    obtain ⟨h0, h1⟩ := hi'
    set ws := (h.arrs (h.objs (h.rats r).den).arr).take (h.objs (h.rats r).den).len with hws
    have hd : h.value (h.rats r).den = wordsVal ws := by
      unfold Heap.value; rw [hk.pos r hr, ← hws]; simp
    have hne : ws ≠ [] := by
      have hlen := hk.len _ (hk.den r hr)
      intro he
      have := congrArg List.length he
      rw [hws, List.length_take, List.length_nil] at this
      omega
    have hpos := wordsVal_pos ws hne hl.top
    have hcop := hl.coprime.resolve_left h0
    unfold RHeap.ratValue at hv
    rw [if_neg h0, hd, div_eq_iff (by exact_mod_cast hpos.ne')] at hv
    have hv' : h.value (h.rats r).num = n * (wordsVal ws : Int) := by exact_mod_cast hv
    rw [hd, hv', Int.natAbs_mul, Int.natAbs_natCast] at hcop
    have : wordsVal ws = 1 := Nat.Coprime.eq_one_of_dvd hcop.symm (Dvd.intro_left _ rfl)
    exact h1 (wordsVal_one ws hl.top this)
  · intro hn
    cases hb : bigRatToBigIntRef h r with
    | none => rfl
    | some i => exact absurd (first i hb).symm (hn _)

/-- Memory holding the *big.Rat 5/1: numerator at address 0, denominator at 1. -/
def fiveRat : RHeap :=
  { objs := fun i => ⟨false, i, 1⟩, arrs := fun a => if a = 0 then [5] else [1], nextObj := 2, nextArr := 2, rats := fun _ => ⟨0, 1⟩, nextRat := 1 }

/-- Non-vacuity. -/
theorem fiveRat_ok : fiveRat.Ok := by
  constructor
  · intro r _; show 0 < 2; decide
  · intro r _; show 1 < 2; decide
  · intro i hi; exact hi
  · intro i _; show 1 ≤ (if i = 0 then [5] else [1]).length; split <;> decide
  · intro r _; rfl

/-- C97 is violated by BigRatToBigInt: the result for the *big.Rat 5 is its own numerator. Changing the sign of the result turns the *big.Rat
into -5, and setting the result to 7 turns it into 7. -/
theorem c97_alias_refuted : bigRatToBigIntRef fiveRat 0 = some 0 ∧ fiveRat.ratValue 0 = 5 ∧
    ({ fiveRat with toHeap := negInPlace fiveRat.toHeap 0 } : RHeap).ratValue 0 = -5 ∧
    ({ fiveRat with toHeap := setInt64 fiveRat.toHeap 0 7 } : RHeap).ratValue 0 = 7 := by
  have v : fiveRat.value 0 = 5 := by decide
  have d : fiveRat.value 1 = 1 := by decide
  have v1 : (negInPlace fiveRat.toHeap 0).value 0 = -5 := by decide
  have d1 : (negInPlace fiveRat.toHeap 0).value 1 = 1 := by decide
  have v2 : (setInt64 fiveRat.toHeap 0 7).value 0 = 7 := by decide
  have d2 : (setInt64 fiveRat.toHeap 0 7).value 1 = 1 := by decide
  have n : fiveRat.rats 0 = ⟨0, 1⟩ := rfl
  refine ⟨by decide, ?_, ?_, ?_⟩
  · unfold RHeap.ratValue; rw [n]; simp only [v, d]; split <;> norm_num
  · unfold RHeap.ratValue; simp only [n, v1, d1]; split <;> norm_num
  · unfold RHeap.ratValue; simp only [n, v2, d2]; split <;> norm_num

/-- How it fails: any change of the number behind the result is a change of the numerator of the *big.Rat. -/
theorem c97_alias (h h' : RHeap) (r i : Nat) (hi : bigRatToBigIntRef h r = some i) (hr : h'.rats = h.rats)
    (hd : h'.objs (h.rats r).den = h.objs (h.rats r).den) (hda : h'.value (h.rats r).den = h.value (h.rats r).den) :
    h'.ratValue r = (h'.value i : ℚ) / (if (h.objs (h.rats r).den).len = 0 then 1 else h.value (h.rats r).den) := by
  unfold bigRatToBigIntRef at hi
  split at hi
  · cases hi
    unfold RHeap.ratValue
    rw [hr, hd, hda]
  · cases hi

example := c97_alias fiveRat { fiveRat with toHeap := negInPlace fiveRat.toHeap 0 } 0 0 (by decide) rfl rfl rfl

theorem setInt64_objs (h : Heap) (z j : Nat) (x : Int) (hj : j ≠ z) : (setInt64 h z x).objs j = h.objs j := by
  unfold setInt64
  by_cases hx : x = 0
  · simp [hx, Function.update_of_ne hj]
  · simp only [hx, if_false]
    cases h.arrs (h.objs z).arr <;> simp [Function.update_of_ne hj]

theorem setInt64_arrs (h : Heap) (z a : Nat) (x : Int) (h1 : a ≠ (h.objs z).arr) (h2 : a ≠ h.nextArr) : (setInt64 h z x).arrs a = h.arrs a := by
  unfold setInt64
  by_cases hx : x = 0
  · simp [hx]
  · simp only [hx, if_false]
    cases h.arrs (h.objs z).arr <;> simp [Function.update_of_ne h1, Function.update_of_ne h2]

/-- C97 for BigIntToBigRat: the *big.Rat has the value of the *big.Int and is independent of it: whatever is done to either by SetInt64 or Neg
leaves the value of the other alone. No other number is changed by the conversion. -/
theorem c97_rat_independent (h : RHeap) (hk : h.Ok) (i : Nat) (hi : i < h.nextObj) (x : Int) :
    let h' := (bigIntToBigRatRef h i).1
    let r := (bigIntToBigRatRef h i).2
    h'.ratValue r = h.value i ∧ (∀ j < h.nextObj, h'.value j = h.value j) ∧ (∀ q < h.nextRat, h'.ratValue q = h.ratValue q) ∧
    (h'.rats r).num ≠ i ∧
    ({ h' with toHeap := setInt64 h'.toHeap i x } : RHeap).ratValue r = h.value i ∧
    ({ h' with toHeap := negInPlace h'.toHeap i } : RHeap).ratValue r = h.value i ∧
    (setInt64 h'.toHeap (h'.rats r).num x).value i = h.value i ∧ (negInPlace h'.toHeap (h'.rats r).num).value i = h.value i := by
  intro h' r
  have hr : h'.rats r = ⟨h.nextObj, h.nextObj + 1⟩ := by simp [h', r, bigIntToBigRatRef]
  have hold : ∀ j < h.nextObj, h'.objs j = h.objs j := by
    intro j hj
    show Function.update (Function.update h.objs _ _) _ _ j = _
    rw [Function.update_of_ne (by omega), Function.update_of_ne (by omega)]
  have hnum : h'.objs h.nextObj = ⟨(h.objs i).neg && decide ((h.objs i).len > 0), h.nextArr, (h.objs i).len⟩ := by
    show Function.update (Function.update h.objs _ _) _ _ h.nextObj = _
    rw [Function.update_of_ne (by omega), Function.update_self]
  have hden : h'.objs (h.nextObj + 1) = ⟨false, h.nextArr + 1, 1⟩ := by
    show Function.update _ _ _ (h.nextObj + 1) = _
    rw [Function.update_self]
  have hao : ∀ a < h.nextArr, h'.arrs a = h.arrs a := by
    intro a ha
    show Function.update (Function.update h.arrs _ _) _ _ a = _
    rw [Function.update_of_ne (by omega), Function.update_of_ne (by omega)]
  have han : h'.arrs h.nextArr = (h.arrs (h.objs i).arr).take (h.objs i).len := by
    show Function.update (Function.update h.arrs _ _) _ _ h.nextArr = _
    rw [Function.update_of_ne (by omega), Function.update_self]
  have had : h'.arrs (h.nextArr + 1) = [1] := by
    show Function.update _ _ _ (h.nextArr + 1) = _
    rw [Function.update_self]
  have hna : h'.nextArr = h.nextArr + 2 := rfl
  have hia := hk.arr i hi
  -- values of numerator and denominator in any memory which agrees with h' on them
  have key : ∀ g : RHeap, g.rats = h'.rats → g.objs h.nextObj = h'.objs h.nextObj → g.objs (h.nextObj + 1) = h'.objs (h.nextObj + 1) →
      g.arrs h.nextArr = h'.arrs h.nextArr → g.arrs (h.nextArr + 1) = h'.arrs (h.nextArr + 1) → g.ratValue r = h.value i := by
    intro g g1 g2 g3 g4 g5
    have hv : g.value h.nextObj = h.value i := by
      unfold Heap.value
      rw [g2, hnum]
      simp only []
      rw [g4, han, List.take_take, Nat.min_self]
      by_cases hl : (h.objs i).len = 0
      · simp [hl, wordsVal]
      · have : (h.objs i).len > 0 := by omega
        simp [this]
    have hd : g.value (h.nextObj + 1) = 1 := by
      unfold Heap.value
      rw [g3, hden]
      simp only []
      rw [g5, had]; rfl
    unfold RHeap.ratValue
    rw [g1, hr]
    simp only [hv, hd]
    split <;> simp
  have hval : ∀ j < h.nextObj, h'.value j = h.value j := by
    intro j hj
    unfold Heap.value
    rw [hold j hj, hao _ (hk.arr j hj)]
  refine ⟨key h' rfl rfl rfl rfl rfl, hval, ?_, ?_, ?_, ?_, ?_, ?_⟩
  · intro q hq
    have hrq : h'.rats q = h.rats q := by
      show Function.update h.rats _ _ q = _
      rw [Function.update_of_ne (by omega)]
    unfold RHeap.ratValue
    rw [hrq, hval _ (hk.num q hq), hval _ (hk.den q hq), hold _ (hk.den q hq)]
  · rw [hr]; show h.nextObj ≠ i; omega
  · have ho : h'.objs i = h.objs i := hold i hi
    apply key
    · rfl
    · exact setInt64_objs _ _ _ _ (by omega)
    · exact setInt64_objs _ _ _ _ (by omega)
    · exact setInt64_arrs _ _ _ _ (by rw [ho]; omega) (by rw [hna]; omega)
    · exact setInt64_arrs _ _ _ _ (by rw [ho]; omega) (by rw [hna]; omega)
  · apply key
    · rfl
    · exact Function.update_of_ne (by omega) _ _
    · exact Function.update_of_ne (by omega) _ _
    · rfl
    · rfl
  · rw [hr, ← hval i hi]
    have hne : i ≠ h.nextObj := by omega
    unfold Heap.value
    rw [setInt64_objs _ _ _ _ hne, setInt64_arrs]
    · show _ ≠ (h'.objs h.nextObj).arr
      rw [hnum, hold i hi]
      show (h.objs i).arr ≠ h.nextArr
      omega
    · rw [hold i hi, hna]; omega
  · rw [hr, ← hval i hi]
    have hne : i ≠ h.nextObj := by omega
    simp [negInPlace, Heap.value, Function.update_of_ne hne]

/-- Non-vacuity: the hypotheses hold for the memory above. -/
example : fiveRat.Ok ∧ 0 < fiveRat.nextObj ∧ 0 < fiveRat.nextRat ∧ fiveRat.Lowest 0 :=
  ⟨fiveRat_ok, by decide, by decide, by
    constructor
    · intro w hw
      have : w = 1 := by simpa [fiveRat] using hw.symm
      omega
    · exact .inr (by decide)⟩

end Micro.Conv
