import Verif.Conv.Props
import Mathlib.Tactic.NormNum
import Mathlib.Tactic.ByContra
set_option linter.unusedSimpArgs false
/-
C22: what failed conversions from strings leave in the target.
-/
namespace Micro.Conv
open Micro

theorem parseUintLoop_digits (cs : List Char) (n : Nat) (h : ∀ c ∈ cs, isDigit c = true) : (parseUintLoop cs n).2 ≠ .syntaxErr := by
  induction cs generalizing n with
  | nil => simp [parseUintLoop]
  | cons c cs ih =>
    rw [parseUintLoop, if_pos (h c (by simp))]
    split
    · simp
    · exact ih _ (fun x hx => h x (by simp [hx]))

theorem parseUintLoop_syn (cs : List Char) (n m : Nat) (h : parseUintLoop cs n = (m, .syntaxErr)) : m = 0 := by
  induction cs generalizing n with
  | nil => simp [parseUintLoop] at h
  | cons c cs ih =>
    rw [parseUintLoop] at h
    split at h
    · split at h
      · simp at h
      · exact ih _ h
    · simp at h; exact h.symm

/-- ParseUint of a text, by how it ends. -/
theorem parseUint64_cases (cs : List Char) :
    (parseUint64 cs = (digitsVal cs, .ok) ∧ digitsVal cs ≤ 18446744073709551615) ∨ (parseUint64 cs = (0, .syntaxErr) ∧ ¬ (cs ≠ [] ∧ ∀ c ∈ cs, isDigit c = true)) ∨
    (parseUint64 cs = (18446744073709551615, .rangeErr) ∧ ((∀ c ∈ cs, isDigit c = true) → 18446744073709551615 < digitsVal cs)) := by
  cases h : parseUint64 cs with
  | mk m st =>
    cases st with
    | ok =>
      obtain ⟨-, -, h3, h4⟩ := (parseUint64_ok cs m).mp h
      left; exact ⟨by rw [h3], by omega⟩
    | syntaxErr =>
      right; left
      unfold parseUint64 at h
      split at h
      · rename_i h0
        simp at h
        exact ⟨by rw [← h], fun hc => hc.1 h0⟩
      · refine ⟨by rw [parseUintLoop_syn _ _ _ h], fun hc => ?_⟩
        have := parseUintLoop_digits cs 0 hc.2
        rw [h] at this
        exact this rfl
    | rangeErr =>
      right; right
      refine ⟨by rw [parseUint64_range cs m h], fun hc => ?_⟩
      by_contra hlt
      have hne : cs ≠ [] := by rintro rfl; simp [parseUint64] at h
      have := (parseUint64_ok cs (digitsVal cs)).mpr ⟨hne, hc, rfl, by omega⟩
      rw [this] at h
      simp at h

/-- C22. What a failed conversion from a string leaves in the target: nothing changes for the narrow types; int64 and uint64 targets are set
to the nearest value of the type if the text is a number out of range, and to zero or a bound of the type otherwise. -/
theorem c22_failed_target (t : Kind) (cs : List Char) (cur : Int) (h : (stringTo t cs cur).failed = true) :
    (t ≠ .int64 → t ≠ .uint64 → (stringTo t cs cur).target = cur) ∧
    (t = .int64 ∨ t = .uint64 →
      (∀ v, Spells t.signed cs v → (v < t.minV → (stringTo t cs cur).target = t.minV) ∧ (t.maxV < v → (stringTo t cs cur).target = t.maxV)) ∧
      ((stringTo t cs cur).target = 0 ∨ (stringTo t cs cur).target = t.minV ∨ (stringTo t cs cur).target = t.maxV)) := by
  constructor
  · intro h1 h2
    cases t <;> simp only [stringTo, ne_eq, not_true_eq_false] at h h1 h2 ⊢
    all_goals
      split at h
      · rename_i hf; rw [if_pos hf]
      · rename_i hf; rw [if_neg hf]
        first
          | (simp only [intToInt] at h ⊢; split at h <;> first | (rename_i hc; rw [if_pos hc] at *; done) | simp_all)
          | (simp only [uintToUint] at h ⊢; split at h <;> first | (rename_i hc; rw [if_pos hc] at *; done) | simp_all)
  · intro ht
    have hu := parseUint64_cases cs
    rcases ht with rfl | rfl
    · simp only [stringTo, stringToInt64, Kind.minV, Kind.maxV, Kind.signed, Kind.bits, if_true] at h ⊢
      norm_num
      have hd := not_digit_sign
      constructor
      · rintro v ⟨ds, h1, h2, h3⟩
        have hc := parseUint64_cases ds
        have h1' : (∀ c ∈ ds, isDigit c = true) := h2
        rcases h3 with ⟨rfl, rfl⟩ | ⟨-, rfl, rfl⟩ | ⟨-, rfl, rfl⟩
        · have n1 : cs.head? ≠ some '-' := by
            intro hh; cases cs with
            | nil => simp at hh
            | cons c cs => simp at hh; subst hh; have := h2 '-' (by simp); simp [hd.1] at this
          have n2 : cs.head? ≠ some '+' := by
            intro hh; cases cs with
            | nil => simp at hh
            | cons c cs => simp at hh; subst hh; have := h2 '+' (by simp); simp [hd.2] at this
          refine ⟨fun hv => by omega, fun hv => ?_⟩
          unfold parseInt64
          simp only [n1, n2, or_self, if_false, decide_false]
          rcases hc with ⟨e, -⟩ | ⟨-, e⟩ | ⟨e, -⟩
          · rw [e]
            simp only [reduceCtorEq, if_false, Bool.false_eq_true, not_false_eq_true, true_and]
            rw [if_pos (by omega)]
          · exact absurd ⟨h1, h2⟩ e
          · rw [e]; simp
        · refine ⟨fun hv => by omega, fun hv => ?_⟩
          unfold parseInt64
          simp only [List.head?_cons, List.tail_cons, or_true, if_true]
          rcases hc with ⟨e, -⟩ | ⟨-, e⟩ | ⟨e, -⟩
          · rw [e]
            simp only [reduceCtorEq, if_false]
            rw [if_pos (by refine ⟨by simp, by omega⟩)]
          · exact absurd ⟨h1, h2⟩ e
          · rw [e]; simp
        · refine ⟨fun hv => ?_, fun hv => by omega⟩
          unfold parseInt64
          simp only [List.head?_cons, List.tail_cons, true_or, if_true]
          rcases hc with ⟨e, -⟩ | ⟨-, e⟩ | ⟨e, -⟩
          · rw [e]
            simp only [reduceCtorEq, if_false]
            rw [if_neg (by simp), if_pos (by refine ⟨by decide, by omega⟩)]
          · exact absurd ⟨h1, h2⟩ e
          · rw [e]; decide
      · have hne : (parseInt64 cs).2 ≠ .ok := by simpa using h
        clear h hu
        unfold parseInt64 at hne ⊢
        generalize (if cs.head? = some '-' ∨ cs.head? = some '+' then cs.tail else cs) = body at *
        simp only at hne ⊢
        split at hne
        · rename_i hs; rw [if_pos hs]; simp
        · rename_i hs; rw [if_neg hs]
          split at hne
          · rename_i hs; rw [if_pos hs]; simp
          · rename_i hs; rw [if_neg hs]
            split at hne
            · rename_i hs; rw [if_pos hs]; simp
            · simp at hne
    · simp only [stringTo, stringToUint64, Kind.minV, Kind.maxV, Kind.signed, Kind.bits] at h ⊢
      norm_num
      rcases hu with ⟨e, -⟩ | ⟨e, h2⟩ | ⟨e, h2⟩
      · rw [e] at h; simp at h
      · rw [e]
        refine ⟨fun v hv => ?_, by simp⟩
        rw [spells_unsigned] at hv
        exact absurd ⟨hv.1, hv.2.1⟩ h2
      · rw [e]
        refine ⟨fun v hv => ?_, by simp⟩
        rw [spells_unsigned] at hv
        exact ⟨fun h => by omega, fun _ => by simp⟩

/-- Non-vacuity: "99999999999999999999" and "x" for int64, "x" for int8. -/
example : (stringTo .int64 "99999999999999999999".toList 5) = ⟨9223372036854775807, true⟩ ∧ (stringTo .int64 ['x'] 5) = ⟨0, true⟩ ∧
    (stringTo .int8 ['x'] 5) = ⟨5, true⟩ := by decide

end Micro.Conv
