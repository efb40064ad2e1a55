import Verif.Conv.FormatModel
import Verif.Conv.SharpProps
set_option linter.unusedSimpArgs false
/-
What the texts of floats spell.
-/
namespace Micro.Conv
open Micro

theorem frac_digits (ds : List Char) (k : Int) (hk : k < 0) :
    (List.range (-k).toNat).map (fun i => Digs.at ⟨ds, ds.length + k⟩ (ds.length + k + (i : Nat))) =
      List.replicate (-(ds.length + k)).toNat '0' ++ ds.drop (ds.length + k).toNat := by
  apply List.ext_getElem
  · simp; omega
  · intro i h1 h2
    simp only [List.length_map, List.length_range] at h1
    simp only [List.getElem_map, List.getElem_range, Digs.at]
    by_cases hi : i < (-(ds.length + k)).toNat
    · rw [List.getElem_append_left (by simpa using hi), List.getElem_replicate, if_neg (by omega)]
    · rw [List.getElem_append_right (by simpa using hi)]
      simp only [List.length_replicate, List.getElem_drop]
      rw [if_pos (by omega)]
      have e : (ds.length + k + (i : Int)).toNat = (ds.length + k).toNat + (i - (-(ds.length + k)).toNat) := by omega
      rw [e, List.getElem?_eq_getElem (by omega)]
      rfl

/-- The sign of a text as a factor. -/
def sgn (neg : Bool) : ℚ := if neg then -1 else 1

theorem fmtF_decimal (neg : Bool) (ds : List Char) (hd : ∀ c ∈ ds, isDigit c = true) (hne : ds ≠ []) (k : Int) :
    Decimal ((if neg then ['-'] else []) ++ fmtF ⟨ds, ds.length + k⟩ (-k).toNat) (sgn neg * (digitsVal ds * 10 ^ k)) := by
  have hsg : (if neg then ['-'] else [] : List Char) = [] ∨ (if neg then ['-'] else [] : List Char) = ['+'] ∨ (if neg then ['-'] else [] : List Char) = ['-'] := by
    cases neg <;> simp
  have hs1 : (if (if neg then ['-'] else [] : List Char) = ['-'] then (-1 : ℚ) else 1) = sgn neg := by cases neg <;> simp [sgn]
  have hlen : 0 < ds.length := List.length_pos_iff.mpr hne
  have h0 : isDigit '0' = true := by decide
  by_cases hk : k < 0
  · have hfp := frac_digits ds k hk
    by_cases he : (ds.length : Int) + k > 0
    · -- digits on both sides of the point
      refine ⟨(if neg then ['-'] else []), ds.take (ds.length + k).toNat, ds.drop (ds.length + k).toNat, by simpa using hd, by simpa using hne, hsg, Or.inl ?_, ?_⟩
      · unfold fmtF
        simp only [he, if_true, gt_iff_lt, hfp, show 0 < (-k).toNat by omega]
        rw [show (-((ds.length : Int) + k)).toNat = 0 by omega, show ((ds.length : Int) + k).toNat - ds.length = 0 by omega]
        simp
      · rw [List.take_append_drop, List.length_drop, hs1, mul_div_assoc]
        congr 1
        rw [show k = -((ds.length - ((ds.length : Int) + k).toNat : ℕ) : Int) by omega, zpow_neg, zpow_natCast]
        rw [show ((ds.length : Int) + -((ds.length - ((ds.length : Int) + k).toNat : ℕ) : Int)).toNat = ((ds.length : Int) + k).toNat by omega]
        rfl
    · refine ⟨(if neg then ['-'] else []), ['0'], List.replicate (-(ds.length + k)).toNat '0' ++ ds, ?_, by simp, hsg, Or.inl ?_, ?_⟩
      · intro c hc
        simp at hc
        rcases hc with rfl | ⟨-, rfl⟩ | hc
        · exact h0
        · exact h0
        · exact hd c hc
      · unfold fmtF
        simp only [he, if_false, gt_iff_lt, hfp, show 0 < (-k).toNat by omega, if_true]
        rw [show ((ds.length : Int) + k).toNat = 0 by omega]
        simp
      · rw [hs1, mul_div_assoc]
        congr 1
        have e1 : digitsVal (['0'] ++ (List.replicate (-(ds.length + k)).toNat '0' ++ ds)) = digitsVal ds := by
          rw [← List.append_assoc, digitsVal_append, show ['0'] ++ List.replicate (-((ds.length : Int) + k)).toNat '0' = List.replicate ((-((ds.length : Int) + k)).toNat + 1) '0' from rfl,
            digitsVal_replicate_zero]; simp
        rw [e1]
        have e2 : (List.replicate (-((ds.length : Int) + k)).toNat '0' ++ ds).length = (-k).toNat := by simp; omega
        rw [e2]
        have e3 : k = -(((-k).toNat : ℕ) : Int) := by omega
        conv_lhs => rw [e3]
        rw [zpow_neg, zpow_natCast]; rfl
  · refine ⟨(if neg then ['-'] else []), ds ++ List.replicate k.toNat '0', [], ?_, by simp [hne], hsg, Or.inr ⟨rfl, ?_⟩, ?_⟩
    · intro c hc
      simp at hc
      rcases hc with hc | ⟨-, rfl⟩
      · exact hd c hc
      · exact h0
    · unfold fmtF
      have he : (ds.length : Int) + k > 0 := by omega
      simp only [he, if_true, show (-k).toNat = 0 by omega, gt_iff_lt, lt_irrefl, if_false, List.append_nil]
      rw [List.take_of_length_le (by omega), show ((ds.length : Int) + k).toNat - ds.length = k.toNat by omega]
    · rw [hs1, List.append_nil, digitsVal_append, digitsVal_replicate_zero]
      obtain ⟨j, rfl⟩ : ∃ j : ℕ, k = j := ⟨k.toNat, by omega⟩
      simp

theorem fmtE_scientific (neg : Bool) (ds : List Char) (hd : ∀ c ∈ ds, isDigit c = true) (hne : ds ≠ []) (e : Int) :
    Scientific ((if neg then ['-'] else []) ++ fmtE ⟨ds, e⟩ (ds.length - 1)) ((if neg then -1 else 1) * digitsVal ds) (e - 1) (ds.length - 1) := by
  obtain ⟨c, t, rfl⟩ := List.exists_cons_of_ne_nil hne
  have hsg : (if neg then ['-'] else [] : List Char) = [] ∨ (if neg then ['-'] else [] : List Char) = ['+'] ∨ (if neg then ['-'] else [] : List Char) = ['-'] := by
    cases neg <;> simp
  refine ⟨(if neg then ['-'] else []), [c], t,
    'e' :: (if e - 1 < 0 then '-' else '+') :: ((if (e - 1).natAbs < 10 then ['0'] else []) ++ natChars (e - 1).natAbs), by simpa using hd, by simp, hsg, ?_, ?_, by simp, ?_⟩
  · unfold fmtE
    cases t with
    | nil => right; simp
    | cons d t => left; simp
  · right
    refine ⟨'e', _, Or.inl rfl, rfl, (if (e - 1).natAbs < 10 then ['0'] else []) ++ natChars (e - 1).natAbs, by simp [natChars_ne_nil], ?_, ?_⟩
    · intro x hx
      rcases List.mem_append.mp hx with hx | hx
      · split at hx
        · simp at hx; subst hx; decide
        · cases hx
      · exact natChars_digits _ x hx
    · have hv : digitsVal ((if (e - 1).natAbs < 10 then ['0'] else []) ++ natChars (e - 1).natAbs) = (e - 1).natAbs := by
        rw [digitsVal_append, digitsVal_natChars]
        split
        · simp [digitsVal_cons, digitVal]
        · simp
      rw [hv]
      by_cases hneg : e - 1 < 0
      · right; right; exact ⟨rfl, by rw [if_pos hneg], by omega⟩
      · right; left; exact ⟨rfl, by rw [if_neg hneg], by omega⟩
  · cases neg <;> simp

theorem roundSig_sign (q : ℚ) : (0 < q → 0 < roundSig 10 10 q) ∧ (q < 0 → roundSig 10 10 q < 0) := by
  by_cases h0 : q = 0
  · simp [h0]
  have hp : (0 : ℚ) < 10 ^ (Int.log 10 |q| - 9) := by positivity
  have hlog := Int.zpow_log_le_self (b := 10) (by omega) (abs_pos.mpr h0)
  have hge : (10 : ℚ) ^ 9 * 10 ^ (Int.log 10 |q| - 9) ≤ |q| := by
    rw [← zpow_natCast, ← zpow_add₀ (by norm_num)]
    refine le_trans (le_of_eq ?_) hlog
    push_cast
    congr 1
    ring
  unfold roundSig roundAt
  rw [if_neg h0]
  have e9 : (Int.log 10 |q| - (((10 : ℕ) : ℤ) - 1)) = Int.log 10 |q| - 9 := by norm_num
  rw [e9]
  push_cast
  constructor
  · intro h
    rw [abs_of_pos h] at hge hp ⊢
    have h1 : (10 : ℚ) ^ 9 ≤ q / 10 ^ (Int.log 10 q - 9) := (le_div_iff₀ hp).mpr hge
    have h2 := rne_mono_int' (q / 10 ^ (Int.log 10 q - 9)) (10 ^ 9) (by exact_mod_cast h1)
    have h3 : (0 : ℚ) < (rne (q / 10 ^ (Int.log 10 q - 9)) : ℤ) := by exact_mod_cast lt_of_lt_of_le (by norm_num : (0 : ℤ) < 10 ^ 9) h2
    positivity
  · intro h
    rw [abs_of_neg h] at hge hp ⊢
    have h1 : q / 10 ^ (Int.log 10 (-q) - 9) ≤ -(10 : ℚ) ^ 9 := by
      rw [div_le_iff₀ hp]; linarith
    have h2 := rne_mono_int (q / 10 ^ (Int.log 10 (-q) - 9)) (-(10 ^ 9)) (by push_cast; exact h1)
    have h3 : ((rne (q / 10 ^ (Int.log 10 (-q) - 9)) : ℤ) : ℚ) < 0 := by
      exact_mod_cast lt_of_le_of_lt h2 (by norm_num)
    exact mul_neg_of_neg_of_pos h3 hp

/-- A number of ten significant digits other than 0 has a last digit. -/
theorem ten_digits (q : ℚ) (hq : q ≠ 0) : ∃ d k : ℤ, roundSig 10 10 q = (d : ℚ) * 10 ^ k ∧ ¬ (10 : ℤ) ∣ d ∧ |d| < 10 ^ 10 ∧ (d < 0 ↔ q < 0) := by
  obtain ⟨m, e, h, hm⟩ := roundSig_sig (b := 10) (by omega) (n := 10) (by omega) q
  have hs := roundSig_sign q
  have hne : roundSig 10 10 q ≠ 0 := by
    rcases lt_trichotomy q 0 with h1 | h1 | h1
    · exact (hs.2 h1).ne
    · exact absurd h1 hq
    · exact (hs.1 h1).ne'
  have hm0 : m ≠ 0 := by rintro rfl; apply hne; rw [h]; simp
  obtain ⟨d, k, h10, hd, he⟩ := last_digit m e hm0
  have hx : roundSig 10 10 q = (d : ℚ) * 10 ^ k := by rw [h]; push_cast; exact he
  refine ⟨d, k, hx, h10, lt_of_le_of_lt hd (by exact_mod_cast hm), ?_⟩
  have hp : (0 : ℚ) < 10 ^ k := by positivity
  constructor
  · intro hneg
    by_contra hc
    have : 0 < roundSig 10 10 q := hs.1 (lt_of_le_of_ne (not_lt.mp hc) (Ne.symm hq))
    rw [hx] at this
    have : (0 : ℚ) < d := (pos_iff_pos_of_mul_pos this).mpr hp
    have : 0 < d := by exact_mod_cast this
    omega
  · intro hneg
    have := hs.2 hneg
    rw [hx] at this
    by_contra hc
    have : (0 : ℚ) ≤ d := by exact_mod_cast not_lt.mp hc
    nlinarith

end Micro.Conv
