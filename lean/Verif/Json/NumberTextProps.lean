import Verif.Conv.FormatProps
import Verif.Json.AccProps
set_option linter.unusedSimpArgs false
/-
C134: the texts of floats are JSON numbers.
-/
namespace Micro.Json
open Micro Micro.Conv

theorem fmtF_numLit (neg : Bool) (ds : List Char) (hd : ∀ c ∈ ds, isDigit c = true) (hne : ds ≠ []) (hh : ds.head? ≠ some '0') (k : Int) :
    NumLit rfc ((if neg then ['-'] else []) ++ fmtF ⟨ds, ds.length + k⟩ (-k).toNat) := by
  have h0 : isDigit '0' = true := by decide
  obtain ⟨c, t, rfl⟩ := List.exists_cons_of_ne_nil hne
  refine ⟨neg, _, (if (-k).toNat > 0 then '.' :: (List.range (-k).toNat).map (fun i : Nat => Digs.at ⟨c :: t, (c :: t).length + k⟩ ((c :: t).length + k + (i : Int))) else []), [], ?_, ?_, Or.inl rfl, by
    unfold fmtF; simp [List.append_assoc]; rfl⟩
  · split
    · rename_i he
      refine ⟨?_, ?_, ?_⟩
      · obtain ⟨n, hn⟩ : ∃ n, ((t.length : ℤ) + 1 + k).toNat = n + 1 := ⟨((t.length : ℤ) + 1 + k).toNat - 1, by omega⟩
        rw [hn]; simp
      · intro x hx
        rcases List.mem_append.mp hx with hx | hx
        · exact hd x (List.mem_of_mem_take hx)
        · rw [(List.mem_replicate.mp hx).2]; exact h0
      · obtain ⟨n, hn⟩ : ∃ n, ((t.length : ℤ) + 1 + k).toNat = n + 1 := ⟨((t.length : ℤ) + 1 + k).toNat - 1, by omega⟩
        rw [hn]
        intro hx
        simp at hx
        exact absurd (by simp [hx]) hh
    · exact ⟨by simp, by intro x hx; simp at hx; subst hx; exact h0, fun _ => Or.inl rfl⟩
  · by_cases hk : (-k).toNat > 0
    · right
      rw [if_pos hk]
      refine ⟨_, ?_, ?_, rfl⟩
      · simp; omega
      · rw [frac_digits (c :: t) k (by omega)]
        intro x hx
        rcases List.mem_append.mp hx with hx | hx
        · rw [(List.mem_replicate.mp hx).2]; exact h0
        · exact hd x (List.mem_of_mem_drop hx)
    · left; rw [if_neg hk]

theorem fmtE_numLit (neg : Bool) (ds : List Char) (hd : ∀ c ∈ ds, isDigit c = true) (hne : ds ≠ []) (hh : ds.head? ≠ some '0') (e : Int) :
    NumLit rfc ((if neg then ['-'] else []) ++ fmtE ⟨ds, e⟩ (ds.length - 1)) := by
  obtain ⟨c, t, rfl⟩ := List.exists_cons_of_ne_nil hne
  refine ⟨neg, [c], if t = [] then [] else '.' :: t,
    'e' :: [if e - 1 < 0 then '-' else '+'] ++ ((if (e - 1).natAbs < 10 then ['0'] else []) ++ natChars (e - 1).natAbs), ⟨by simp, ?_, ?_⟩, ?_, Or.inr ?_, ?_⟩
  · intro x hx; simp at hx; subst hx; exact hd _ (by simp)
  · intro hx; simp at hx; exact absurd (by simp [hx]) hh
  · by_cases ht : t = []
    · left; simp [ht]
    · right; exact ⟨t, ht, fun x hx => hd x (by simp [hx]), by simp [ht]⟩
  · refine ⟨'e', [if e - 1 < 0 then '-' else '+'], _, Or.inl rfl, ?_, ?_, ?_, rfl⟩
    · split <;> simp
    · simp [natChars_ne_nil]
    · intro x hx
      rcases List.mem_append.mp hx with hx | hx
      · split at hx
        · simp at hx; subst hx; decide
        · cases hx
      · exact natChars_digits _ x hx
  · unfold fmtE
    cases t with
    | nil => simp
    | cons d t => simp

/-- C134: the text of every finite float32, float64, *big.Float and of every *big.Rat is a number by the grammar of JSON; that of NaN and the infinities is not. -/
theorem c134_json (f : Fmt) (sd : ShortestDigits f) (q : ℚ) :
    (f.Has q → NumLit rfc (floatToString sd (.fin q))) ∧ NumLit rfc (bigFloatToString (.fin q)) ∧ NumLit rfc (bigRatToNormalizedString q) ∧
    (∀ x : Flt, (∀ r, x ≠ .fin r) → ¬ NumLit code (floatToString sd x)) := by
  have hzero : NumLit rfc ['0'] := ⟨false, ['0'], [], [], ⟨by simp, by unfold AllDigits; decide, fun _ => Or.inl rfl⟩, Or.inl rfl, Or.inl rfl, rfl⟩
  have hbig : ∀ q, NumLit rfc (bigFloatToString (.fin q)) := by
    intro q
    by_cases h0 : q = 0
    · subst h0
      have ht : bigFloatToString (.fin 0) = ['0'] := by
        simp only [bigFloatToString, roundSig, if_true, decimalOf]
        decide
      rw [ht]; exact hzero
    · obtain ⟨d, k, hx, h10, hl, hneg⟩ := ten_digits q h0
      have hd0 : d ≠ 0 := by rintro rfl; exact h10 (dvd_zero _)
      have hs : (if q < 0 then ['-'] else [] : List Char) = if decide (d < 0) = true then ['-'] else [] := by simp [hneg]
      have hdn : d.natAbs < 10 ^ 10 := by
        have : (d.natAbs : ℤ) < 10 ^ 10 := by rw [Int.natCast_natAbs]; exact hl
        exact_mod_cast this
      simp only [bigFloatToString, hx, decimalOf_eq d k h10 hl, hs]
      have hn1 : 0 < (natChars d.natAbs).length := natChars_length_pos _
      have hn2 : (natChars d.natAbs).length ≤ 10 := (natChars_length_le _ 10 (by omega)).mpr hdn
      have hhd := natChars_head d.natAbs (Int.natAbs_pos.mpr hd0)
      rcases fmtG_cases (natChars d.natAbs) k hn1 hn2 with h | ⟨-, h⟩
      · rw [h]; exact fmtE_numLit _ _ (natChars_digits _) (natChars_ne_nil _) hhd _
      · rw [h]; exact fmtF_numLit _ _ (natChars_digits _) (natChars_ne_nil _) hhd _
  refine ⟨?_, hbig q, ?_, ?_⟩
  · intro hq
    by_cases h0 : q = 0
    · subst h0
      have : floatToString sd (.fin 0) = ['0'] := by
        simp only [floatToString, abs_zero, sd.zero]; decide
      rw [this]; exact hzero
    · have h := fmtF_numLit (decide (q < 0)) (sd.digits |q|).mant (sd.isDigits _) (sd.nonempty q hq h0) (sd.leading _) ((sd.digits |q|).exp - (sd.digits |q|).mant.length)
      have e1 : ((sd.digits |q|).mant.length : ℤ) + ((sd.digits |q|).exp - (sd.digits |q|).mant.length) = (sd.digits |q|).exp := by ring
      have e2 : -((sd.digits |q|).exp - ((sd.digits |q|).mant.length : ℤ)) = (sd.digits |q|).mant.length - (sd.digits |q|).exp := by ring
      have e4 : (if decide (q < 0) = true then ['-'] else [] : List Char) = if q < 0 then ['-'] else [] := by by_cases h : q < 0 <;> simp [h]
      rw [e1, e2, e4] at h
      exact h
  · unfold bigRatToNormalizedString
    split
    · have hi : ∀ n, (natChars n).head? = some '0' → natChars n = ['0'] := by
        intro n hn
        rcases Nat.eq_zero_or_pos n with rfl | hp
        · rw [natChars, if_pos (by omega)]; rfl
        · exact absurd hn (natChars_head n hp)
      unfold formatInt
      split
      · exact ⟨true, natChars q.num.natAbs, [], [], ⟨natChars_ne_nil _, natChars_digits _, fun h => Or.inl (hi _ h)⟩, Or.inl rfl, Or.inl rfl, by simp⟩
      · exact ⟨false, natChars q.num.natAbs, [], [], ⟨natChars_ne_nil _, natChars_digits _, fun h => Or.inl (hi _ h)⟩, Or.inl rfl, Or.inl rfl, by simp⟩
    · exact hbig _
  · rintro x hx ⟨neg, int, f', x', ⟨h1, h2, -⟩, -, -, h⟩
    obtain ⟨c, t, rfl⟩ := List.exists_cons_of_ne_nil h1
    have hc := h2 c (by simp)
    have hmem : c ∈ floatToString sd x := by rw [h]; simp
    rcases x with _ | (_ | _) | r
    · have : ∀ c ∈ "NaN".toList, isDigit c = false := by decide
      rw [this c hmem] at hc; cases hc
    · have : ∀ c ∈ "+Inf".toList, isDigit c = false := by decide
      rw [this c hmem] at hc; cases hc
    · have : ∀ c ∈ "-Inf".toList, isDigit c = false := by decide
      rw [this c hmem] at hc; cases hc
    · exact absurd rfl (hx r)

end Micro.Json
