import Verif.Conv.ToLemmas
set_option linter.unusedSimpArgs false
/-
C118, pair by pair: which demands conv.To meets.
-/
namespace Micro.Conv
open Micro

/-! ### Facts about single pairs -/

theorem cell_int {k : Kind} {c : Cell} (h : (NTy.int k).Cell c) : c = some (.int k (curInt c)) := by
  rcases h with ⟨n, rfl, hn⟩ | ⟨_, h⟩
  · cases n <;> simp [Num.ty] at hn; subst hn; rfl
  · simp at h

theorem cell_32 {c : Cell} (h : NTy.float32.Cell c) : c = some (.float32 (curFlt c)) := by
  rcases h with ⟨n, rfl, hn⟩ | ⟨_, h⟩
  · cases n <;> simp [Num.ty] at hn; rfl
  · simp at h

theorem cell_64 {c : Cell} (h : NTy.float64.Cell c) : c = some (.float64 (curFlt c)) := by
  rcases h with ⟨n, rfl, hn⟩ | ⟨_, h⟩
  · cases n <;> simp [Num.ty] at hn; rfl
  · simp at h

/-- To succeeds with the number itself if the type has it, and otherwise returns an error and changes nothing. -/
def Good (oor : Kind → ℚ → Int) (s t : NTy) : Prop :=
  ∀ (n : Num) (c : Cell), n.ty = s → n.Valid → t.Cell c →
    (t.Has n.value → ∃ m, numTo oor n t c = some ⟨some m, false⟩ ∧ m.ty = t ∧ m.value = n.value) ∧
    (¬ t.Has n.value → numTo oor n t c = some ⟨c, true⟩)

theorem Good.all {oor : Kind → ℚ → Int} {s t : NTy} (h : Good oor s t) : Exact oor s t ∧ Complete oor s t ∧ Clean oor s t := by
  refine ⟨fun n c h1 h2 h3 => ?_, fun n c h1 h2 h3 h4 => ?_, fun n c h1 h2 h3 => ?_⟩
  · by_cases hh : t.Has n.value
    · obtain ⟨m, hm, ht, hv⟩ := (h n c h1 h2 h3).1 hh
      exact ⟨_, hm, fun _ => ⟨m, rfl, ht, by unfold Num.Valid; rw [ht, hv]; exact hh, hv⟩⟩
    · exact ⟨_, (h n c h1 h2 h3).2 hh, by simp⟩
  · obtain ⟨m, hm, _⟩ := (h n c h1 h2 h3).1 h4
    exact ⟨_, hm, rfl⟩
  · by_cases hh : t.Has n.value
    · obtain ⟨m, hm, _⟩ := (h n c h1 h2 h3).1 hh
      exact ⟨_, hm, by simp⟩
    · exact ⟨_, (h n c h1 h2 h3).2 hh, fun _ => rfl⟩

theorem valid_int {k : Kind} {v : Int} : (Num.int k v).Valid ↔ k.InRange v := by
  simp only [Num.Valid, Num.ty, Num.value, NTy.Has]
  constructor
  · rintro ⟨i, hi, hr⟩; rw [show v = i by exact_mod_cast hi]; exact hr
  · exact fun h => ⟨v, rfl, h⟩

theorem has_int {k : Kind} {v : Int} : (NTy.int k).Has (.fin (v : ℚ)) ↔ k.InRange v := valid_int (k := k)

theorem good_int_int (oor : Kind → ℚ → Int) (s k : Kind) : Good oor (.int s) (.int k) := by
  rintro (⟨s', v⟩ | _ | _ | _ | _ | _) c hty hv hc <;> simp [Num.ty] at hty
  subst hty
  have hc' := cell_int hc
  simp only [Num.value, has_int, numTo, intSrc, c21_to_exact s' k v (curInt c) (valid_int.1 hv)]
  constructor
  · intro h; exact ⟨.int k v, by simp [h], rfl, rfl⟩
  · intro h; simp [h]; exact hc'.symm

/-- On every platform the plain casts are exact and representable integers are converted. -/
theorem intTo_has (oor : Kind → ℚ → Int) (is32 : Bool) (k : Kind) (i : Int) (cur : ℚ) (hi : k.InRange i) :
    let f := if is32 then float32 else float64
    let ch := if is32 then checked32 else checked64
    (f.Has i → intTo oor f ch k i cur = ⟨i, false⟩) ∧ (ch k = false → f.Has i) := by
  intro f ch
  have hf : IsGo f := by cases is32 <;> simp [f, IsGo]
  refine ⟨fun h => ?_, fun hc => ?_⟩
  · by_cases hc : ch k = true
    · simp only [intTo, hc, if_true]; exact c23_complete oor f k i cur hi h
    · simp [intTo, hc, roundFloat_exact h]
  · refine ⟨i, 0, by simp, ?_, hf.facts.2.1, by have := hf.facts.2.2.1; omega⟩
    cases is32 <;> cases k <;> simp [ch, checked32, checked64] at hc <;> kind_norm <;> simp [f, float32, float64, abs_lt] <;> omega

theorem checked32_iff (k : Kind) : checked32 k = false ↔ ¬ 32 ≤ k.bits := by cases k <;> simp [checked32, Kind.bits]
theorem checked64_iff (k : Kind) : checked64 k = false ↔ ¬ k.bits = 64 := by cases k <;> simp [checked64, Kind.bits]

theorem good_int_float (arm : Bool) (k : Kind) :
    (lossy arm (.int k) .float32 = false → Good (platform arm) (.int k) .float32) ∧
    (lossy arm (.int k) .float64 = false → Good (platform arm) (.int k) .float64) := by
  constructor
  · rintro hl (⟨s', v⟩ | _ | _ | _ | _ | _) c hty hv hc <;> simp [Num.ty] at hty
    subst hty
    have hr := valid_int.1 hv
    simp only [Num.value, NTy.Has, numTo, intSrc]
    have hh := intTo_has (platform arm) true s' v 0 hr
    simp only [if_true] at hh
    refine ⟨fun h => ?_, fun h => ?_⟩
    · rw [hh.1 h]; exact ⟨.float32 (.fin v), by simp only [Bool.false_eq_true, if_false], rfl, rfl⟩
    · cases arm with
      | false =>
        have := (c23_to_partial true s' v 0 hr).2
        simp only [if_true] at this
        simp [platform, this h]
      | true =>
        simp [lossy] at hl
        exact absurd (hh.2 ((checked32_iff s').2 (by omega))) h
  · rintro hl (⟨s', v⟩ | _ | _ | _ | _ | _) c hty hv hc <;> simp [Num.ty] at hty
    subst hty
    have hr := valid_int.1 hv
    simp only [Num.value, NTy.Has, numTo, intSrc]
    have hh := intTo_has (platform arm) false s' v 0 hr
    simp only [Bool.false_eq_true, if_false] at hh
    refine ⟨fun h => ?_, fun h => ?_⟩
    · rw [hh.1 h]; exact ⟨.float64 (.fin v), by simp only [Bool.false_eq_true, if_false], rfl, rfl⟩
    · cases arm with
      | false =>
        have := (c23_to_partial false s' v 0 hr).2
        simp only [Bool.false_eq_true, if_false] at this
        simp [platform, this h]
      | true =>
        simp [lossy] at hl
        exact absurd (hh.2 ((checked64_iff s').2 hl)) h

/-- Completeness and cleanness of integers to floats do not depend on the platform. -/
theorem int_float_rest (oor : Kind → ℚ → Int) (k : Kind) :
    (Complete oor (.int k) .float32 ∧ Clean oor (.int k) .float32) ∧ (Complete oor (.int k) .float64 ∧ Clean oor (.int k) .float64) := by
  refine ⟨⟨?_, ?_⟩, ⟨?_, ?_⟩⟩
  · rintro (⟨s', v⟩ | _ | _ | _ | _ | _) c hty hv hc h <;> simp [Num.ty] at hty
    have hh := intTo_has oor true s' v 0 (valid_int.1 hv)
    simp only [if_true] at hh
    simp only [Num.value, NTy.Has] at h
    exact ⟨_, rfl, by simp [hh.1 h]⟩
  · rintro (⟨s', v⟩ | _ | _ | _ | _ | _) c hty hv hc <;> simp [Num.ty] at hty
    refine ⟨_, rfl, ?_⟩
    split <;> simp
  · rintro (⟨s', v⟩ | _ | _ | _ | _ | _) c hty hv hc h <;> simp [Num.ty] at hty
    have hh := intTo_has oor false s' v 0 (valid_int.1 hv)
    simp only [Bool.false_eq_true, if_false] at hh
    simp only [Num.value, NTy.Has] at h
    exact ⟨_, rfl, by simp [hh.1 h]⟩
  · rintro (⟨s', v⟩ | _ | _ | _ | _ | _) c hty hv hc <;> simp [Num.ty] at hty
    refine ⟨_, rfl, ?_⟩
    split <;> simp

theorem maxV_pow (k : Kind) : ∃ n : ℕ, k.maxV = 2 ^ n - 1 ∧ (32 ≤ k.bits → 31 ≤ n) ∧ (k.bits = 64 → 63 ≤ n) ∧ n ≤ 64 ∧ ¬ k.InRange (2 ^ n) := by
  cases k
  all_goals first
    | exact ⟨63, by decide, by decide, by decide, by decide, by decide⟩
    | exact ⟨64, by decide, by decide, by decide, by decide, by decide⟩
    | exact ⟨31, by decide, by decide, by decide, by decide, by decide⟩
    | exact ⟨32, by decide, by decide, by decide, by decide, by decide⟩
    | exact ⟨7, by decide, by decide, by decide, by decide, by decide⟩
    | exact ⟨15, by decide, by decide, by decide, by decide, by decide⟩
    | exact ⟨8, by decide, by decide, by decide, by decide, by decide⟩
    | exact ⟨16, by decide, by decide, by decide, by decide, by decide⟩

theorem maxV_inRange (k : Kind) : k.InRange k.maxV := by cases k <;> kind_norm

/-- On arm64 the largest value of a wide type becomes the next power of two. -/
theorem arm_max (f : Fmt) (hf : IsGo f) (k : Kind) (n : ℕ) (hm : k.maxV = 2 ^ n - 1) (hn : f.prec + 2 ≤ n) (hr : ¬ k.InRange (2 ^ n)) :
    intToFloat arm64 f k k.maxV 0 = ⟨2 ^ n, false⟩ := by
  have h1 : roundFloat f ((k.maxV : ℤ) : ℚ) = 2 ^ n := by
    rw [hm]; push_cast
    exact maxV_round f n hn (by have := hf.facts.1; omega) hf.facts.2.1
  unfold intToFloat
  simp only [h1]
  have h2 : castToInt arm64 k ((2 : ℚ) ^ n) = k.maxV := by
    have ht : trunc ((2 : ℚ) ^ n) = 2 ^ n := by
      have := trunc_int (2 ^ n); push_cast at this; exact this
    unfold castToInt
    rw [ht, if_neg hr]
    unfold arm64
    rw [if_pos (by positivity)]
  rw [h2]; simp

theorem arm_lossy (k : Kind) :
    (32 ≤ k.bits → ¬ Exact (platform true) (.int k) .float32) ∧ (k.bits = 64 → ¬ Exact (platform true) (.int k) .float64) := by
  obtain ⟨n, hm, h32, h64, -, hr⟩ := maxV_pow k
  constructor
  · intro hk h
    have hc : checked32 k = true := by
      by_contra hc
      exact (checked32_iff k).1 (by simpa using hc) hk
    obtain ⟨r, h1, h2⟩ := h (.int k k.maxV) (some (.float32 .nan)) rfl (valid_int.2 (maxV_inRange k)) (Or.inl ⟨_, rfl, rfl⟩)
    have ha := arm_max float32 (Or.inl rfl) k n hm (by have := h32 hk; simp [float32]; omega) hr
    simp only [numTo, intSrc, intTo, hc, if_true, platform, ha, Bool.false_eq_true, if_false, Option.some.injEq] at h1
    subst h1
    obtain ⟨m, hm', _, _, hv⟩ := h2 rfl
    simp only [Option.some.injEq] at hm'
    subst hm'
    simp only [Num.value, hm, Flt.fin.injEq] at hv
    push_cast at hv
    linarith
  · intro hk h
    have hc : checked64 k = true := by
      by_contra hc
      exact (checked64_iff k).1 (by simpa using hc) hk
    obtain ⟨r, h1, h2⟩ := h (.int k k.maxV) (some (.float64 .nan)) rfl (valid_int.2 (maxV_inRange k)) (Or.inl ⟨_, rfl, rfl⟩)
    have ha := arm_max float64 (Or.inr rfl) k n hm (by have := h64 hk; simp [float64]; omega) hr
    simp only [numTo, intSrc, intTo, hc, if_true, platform, ha, Bool.false_eq_true, if_false, Option.some.injEq] at h1
    subst h1
    obtain ⟨m, hm', _, _, hv⟩ := h2 rfl
    simp only [Option.some.injEq] at hm'
    subst hm'
    simp only [Num.value, hm, Flt.fin.injEq] at hv
    push_cast at hv
    linarith

theorem good_int_big (oor : Kind → ℚ → Int) (k : Kind) :
    Good oor (.int k) .bigInt ∧ Good oor (.int k) .bigRat ∧ ((!k.signed && decide (k.bits = 64)) = false → Good oor (.int k) .bigFloat) := by
  refine ⟨?_, ?_, ?_⟩
  · rintro (⟨s', v⟩ | _ | _ | _ | _ | _) c hty hv hc <;> simp [Num.ty] at hty
    refine ⟨fun _ => ⟨_, rfl, rfl, by simp [Num.value, c21_to_bigInt s' v (valid_int.1 hv)]⟩, fun h => absurd ⟨v, rfl⟩ h⟩
  · rintro (⟨s', v⟩ | _ | _ | _ | _ | _) c hty hv hc <;> simp [Num.ty] at hty
    refine ⟨fun _ => ⟨_, rfl, rfl, by simp [Num.value, integerToBigRat, c21_to_bigInt s' v (valid_int.1 hv)]⟩, fun h => absurd trivial h⟩
  · rintro hk (⟨s', v⟩ | _ | _ | _ | _ | _) c hty hv hc <;> simp [Num.ty] at hty
    subst hty
    have hr := valid_int.1 hv
    refine ⟨fun _ => ⟨_, rfl, rfl, ?_⟩, fun h => absurd ⟨v, 0, by simp⟩ h⟩
    simp only [Num.value, Flt.fin.injEq]
    split
    · rename_i hs; exact c79_int s' hs v hr
    · apply c79_uint_partial <;> cases s' <;> simp [Kind.signed, Kind.bits] at * <;> kind_norm <;> omega

theorem never_fails {oor : Kind → ℚ → Int} {s t : NTy}
    (h : ∀ n : Num, n.ty = s → ∀ c, ∃ x, numTo oor n t c = some ⟨x, false⟩) : Complete oor s t ∧ Clean oor s t :=
  ⟨fun n c h1 _ _ _ => let ⟨_, hx⟩ := h n h1 c; ⟨_, hx, rfl⟩, fun n c h1 _ _ => let ⟨_, hx⟩ := h n h1 c; ⟨_, hx, by simp⟩⟩

theorem int_bigFloat_rest (oor : Kind → ℚ → Int) (k : Kind) : Complete oor (.int k) .bigFloat ∧ Clean oor (.int k) .bigFloat := by
  apply never_fails
  rintro (⟨s', v⟩ | _ | _ | _ | _ | _) hty c <;> simp [Num.ty] at hty
  exact ⟨_, rfl⟩

theorem uint_bigFloat_lossy (oor : Kind → ℚ → Int) (k : Kind) (h : (!k.signed && decide (k.bits = 64)) = true) :
    ¬ Exact oor (.int k) .bigFloat := by
  simp only [Bool.and_eq_true, Bool.not_eq_true', decide_eq_true_eq] at h
  intro hx
  have hr : k.InRange 9007199254740993 := by cases k <;> simp [Kind.signed, Kind.bits] at h <;> decide
  obtain ⟨r, h1, h2⟩ := hx (.int k 9007199254740993) none rfl (valid_int.2 hr) (Or.inr ⟨rfl, by simp⟩)
  simp only [numTo, intSrc, h.1, Bool.false_eq_true, if_false, Option.some.injEq] at h1
  subst h1
  obtain ⟨m, hm', _, _, hv⟩ := h2 rfl
  simp only [Option.some.injEq] at hm'
  subst hm'
  have := c79_uint_refuted
  unfold uintToBigFloat at this
  simp only [Num.value, Flt.fin.injEq, uintToBigFloat, this] at hv
  norm_num at hv

/-! ### From floats -/

/-- The outcome of a float to integer conversion depends on the number rounded to ten digits. -/
theorem floatInt_cases (k : Kind) (x : Flt) (cur : Int) :
    let r := if k.signed then floatToInt k x cur else floatToUint k x cur
    (∃ q j : _, x = .fin q ∧ roundSig 10 10 q = ((j : ℤ) : ℚ) ∧ k.InRange j ∧ r = ⟨j, false⟩) ∨
    ((∀ q, x = .fin q → ¬ ∃ j : ℤ, roundSig 10 10 q = j ∧ k.InRange j) ∧ r = ⟨cur, true⟩) := by
  intro r
  by_cases hx : ∃ q, x = .fin q
  · obtain ⟨q, rfl⟩ := hx
    have hs := sig10_idem q
    by_cases hj : ∃ j : ℤ, roundSig 10 10 q = j ∧ k.InRange j
    · obtain ⟨j, hj, hr⟩ := hj
      refine Or.inl ⟨q, j, rfl, hj, hr, ?_⟩
      simp only [r]
      split
      · rename_i hk
        rw [(floatToInt_round k q cur).1, (c78_int_partial k hk _ cur hs).1 j hj hr]
      · rename_i hk
        rw [(floatToInt_round k q cur).2, (c78_uint_partial k (by simpa using hk) _ cur hs).1 j hj hr]
    · refine Or.inr ⟨fun q' h => by simp only [Flt.fin.injEq] at h; subst h; exact hj, ?_⟩
      simp only [r]
      split
      · rename_i hk
        rw [(floatToInt_round k q cur).1, (c78_int_partial k hk _ cur hs).2 hj]
      · rename_i hk
        rw [(floatToInt_round k q cur).2, (c78_uint_partial k (by simpa using hk) _ cur hs).2 hj]
  · have h := c78_special k cur x (fun q h => hx ⟨q, h⟩)
    refine Or.inr ⟨fun q h => absurd ⟨q, h⟩ hx, ?_⟩
    simp only [r]
    split
    · exact h.1
    · exact h.2.1

/-- The same for To. -/
theorem floatSrc_int (is32 : Bool) (k : Kind) (x : Flt) (c : Cell) (hc : (NTy.int k).Cell c) :
    (∃ q j : _, x = .fin q ∧ roundSig 10 10 q = ((j : ℤ) : ℚ) ∧ k.InRange j ∧ floatSrc is32 x (.int k) c = ⟨some (.int k j), false⟩) ∨
    ((∀ q, x = .fin q → ¬ ∃ j : ℤ, roundSig 10 10 q = j ∧ k.InRange j) ∧ floatSrc is32 x (.int k) c = ⟨c, true⟩) := by
  have hc' := cell_int hc
  rcases floatInt_cases k x (curInt c) with ⟨q, j, h1, h2, h3, h4⟩ | ⟨h1, h2⟩
  · exact Or.inl ⟨q, j, h1, h2, h3, by simp only [floatSrc, h4]⟩
  · refine Or.inr ⟨h1, ?_⟩
    simp only [floatSrc, h2, ← hc']

theorem good_32_int (oor : Kind → ℚ → Int) (k : Kind) (hk : ¬ k.bits = 64) : Good oor .float32 (.int k) := by
  have hk' : k.bits ≤ 32 := by cases k <;> simp [Kind.bits] at *
  rintro (_ | x | _ | _ | _ | _) c hty hv hc <;> simp [Num.ty] at hty
  simp only [Num.value, numTo, Option.some.injEq]
  rcases floatSrc_int true k x c hc with ⟨q, j, rfl, h2, h3, h4⟩ | ⟨h1, h2⟩
  · have hq : q = j := float32_round_int hv (small_range hk' h3) h2
    subst hq
    exact ⟨fun _ => ⟨_, h4, rfl, rfl⟩, fun h => absurd (has_int.2 h3) h⟩
  · refine ⟨fun h => ?_, fun _ => h2⟩
    cases x with
    | nan => exact h.elim
    | inf n => exact h.elim
    | fin q =>
      obtain ⟨i, rfl, hi⟩ := h
      exact absurd ⟨i, roundSig10 (sig10_small (small_range hk' hi)), hi⟩ (h1 _ rfl)

theorem float_int_clean (oor : Kind → ℚ → Int) (k : Kind) : Clean oor .float32 (.int k) ∧ Clean oor .float64 (.int k) := by
  constructor
  · rintro (_ | x | _ | _ | _ | _) c hty hv hc <;> simp [Num.ty] at hty
    refine ⟨_, rfl, ?_⟩
    rcases floatSrc_int true k x c hc with ⟨q, j, rfl, h2, h3, h4⟩ | ⟨h1, h2⟩
    · simp [h4]
    · simp [h2]
  · rintro (_ | _ | x | _ | _ | _) c hty hv hc <;> simp [Num.ty] at hty
    refine ⟨_, rfl, ?_⟩
    rcases floatSrc_int false k x c hc with ⟨q, j, rfl, h2, h3, h4⟩ | ⟨h1, h2⟩
    · simp [h4]
    · simp [h2]

/-- Rounding to ten digits keeps the values of an unsigned or short type in the type. -/
theorem round_keeps_range (k : Kind) (hk : (k.signed && decide (k.bits = 64)) = false) (i : ℤ) (hi : k.InRange i) :
    ∃ j : ℤ, roundSig 10 10 (i : ℚ) = j ∧ k.InRange j := by
  by_cases hb : k.bits ≤ 32
  · exact ⟨i, roundSig10 (sig10_small (small_range hb hi)), hi⟩
  have h64 : k.bits = 64 := by cases k <;> simp [Kind.bits] at *
  have hs : k.signed = false := by simpa [h64] using hk
  have hlo : 0 ≤ i ∧ i ≤ 18446744073709551615 := by cases k <;> simp [Kind.bits, Kind.signed] at * <;> kind_norm <;> omega
  have hrange : ∀ j : ℤ, 0 ≤ j → j ≤ 18446744073709551615 → k.InRange j := by
    intro j h1 h2; cases k <;> simp [Kind.bits, Kind.signed] at * <;> kind_norm <;> omega
  by_cases hsm : |i| < 10 ^ 10
  · exact ⟨i, roundSig10 (sig10_small hsm), hi⟩
  have hbig : (10 : ℤ) ^ 10 ≤ i := by rw [abs_of_nonneg hlo.1] at hsm; omega
  -- the rounding is a multiple of 10^E with E ≥ 1
  have hi0 : (i : ℚ) ≠ 0 := by
    have : i ≠ 0 := by omega
    exact_mod_cast this
  have hipos : (0 : ℚ) < i := by
    have : 0 < i := by omega
    exact_mod_cast this
  have hlog : (10 : ℤ) ≤ Int.log 10 |(i : ℚ)| := by
    rw [abs_of_pos hipos, ← Int.zpow_le_iff_le_log (by omega) hipos]
    have : ((10 : ℤ) ^ 10 : ℤ) ≤ i := hbig
    have h : (((10 : ℤ) ^ 10 : ℤ) : ℚ) ≤ i := by exact_mod_cast this
    refine le_trans (le_of_eq ?_) h
    norm_num
  obtain ⟨E, hE⟩ := Int.eq_ofNat_of_zero_le (show 0 ≤ Int.log 10 |(i : ℚ)| - ((10 : ℕ) - 1) by push_cast; omega)
  obtain ⟨m, hm⟩ : ∃ m : ℤ, roundSig 10 10 (i : ℚ) = ((m * 10 ^ E : ℤ) : ℚ) := by
    refine ⟨rne ((i : ℚ) / ((10 : ℕ) : ℚ) ^ ((E : ℕ) : ℤ)), ?_⟩
    unfold roundSig
    rw [if_neg hi0, hE]
    unfold roundAt
    push_cast
    simp
  have h9 := roundSig_near10 (i : ℚ) 1844674407 10 (by norm_num)
  have h0 := roundSig_near10 (i : ℚ) 0 0 (by norm_num)
  refine ⟨m * 10 ^ E, hm, hrange _ ?_ ?_⟩
  · rw [hm] at h0
    by_contra hneg
    have h1 : ((m * 10 ^ E : ℤ) : ℚ) < 0 := by exact_mod_cast not_le.1 hneg
    rw [abs_of_neg (by linarith), abs_of_neg (by push_cast; linarith)] at h0
    push_cast at h0 h1
    linarith
  · rw [hm] at h9
    have h9' : |m * 10 ^ E - i| ≤ |18446744070000000000 - i| := by
      have e : ((1844674407 : ℤ) : ℚ) * 10 ^ (10 : ℤ) = ((18446744070000000000 : ℤ) : ℚ) := by norm_num
      rw [e] at h9
      exact_mod_cast h9
    by_contra hbad
    have hbad' := not_le.1 hbad
    rcases le_or_gt i 18446744070000000000 with hle | hgt
    · rw [abs_of_nonneg (by omega), abs_of_nonneg (by omega)] at h9'
      omega
    · -- i has twenty digits, so the rounding is a multiple of 10^10
      have hE10 : 10 ≤ E := by
        have hl : (19 : ℤ) ≤ Int.log 10 |(i : ℚ)| := by
          rw [abs_of_pos hipos, ← Int.zpow_le_iff_le_log (by omega) hipos]
          have h : ((18446744070000000000 : ℤ) : ℚ) < i := by exact_mod_cast hgt
          refine le_trans ?_ h.le
          norm_num
        push_cast at hE; omega
      obtain ⟨d, hd⟩ : ∃ d, m * 10 ^ E = d * 10 ^ 10 := ⟨m * 10 ^ (E - 10), by rw [mul_assoc, ← pow_add]; congr 2; omega⟩
      rw [hd] at h9' hbad'
      clear hm hd hE h9 h0 hbad
      norm_num at h9' hbad'
      rw [abs_of_nonneg (by omega), abs_of_nonpos (by omega)] at h9'
      omega

theorem float_int_complete (oor : Kind → ℚ → Int) (k : Kind) (hk : (k.signed && decide (k.bits = 64)) = false) :
    Complete oor .float32 (.int k) ∧ Complete oor .float64 (.int k) := by
  constructor
  · rintro (_ | x | _ | _ | _ | _) c hty hv hc h <;> simp [Num.ty] at hty
    refine ⟨_, rfl, ?_⟩
    rcases floatSrc_int true k x c hc with ⟨q, j, rfl, h2, h3, h4⟩ | ⟨h1, h2⟩
    · simp [h4]
    · exfalso
      cases x with
      | nan => exact h.elim
      | inf n => exact h.elim
      | fin q => obtain ⟨i, rfl, hi⟩ := h; exact h1 _ rfl (round_keeps_range k hk i hi)
  · rintro (_ | _ | x | _ | _ | _) c hty hv hc h <;> simp [Num.ty] at hty
    refine ⟨_, rfl, ?_⟩
    rcases floatSrc_int false k x c hc with ⟨q, j, rfl, h2, h3, h4⟩ | ⟨h1, h2⟩
    · simp [h4]
    · exfalso
      cases x with
      | nan => exact h.elim
      | inf n => exact h.elim
      | fin q => obtain ⟨i, rfl, hi⟩ := h; exact h1 _ rfl (round_keeps_range k hk i hi)

theorem round_min : roundSig 10 10 (-9223372036854775808) = ((-9223372037000000000 : ℤ) : ℚ) := by
  have hl : Int.log 10 |(-9223372036854775808 : ℚ)| = 18 := by
    rw [abs_of_neg (by norm_num)]
    exact log_eq_of (by omega) (by norm_num) (by norm_num) (by norm_num)
  unfold roundSig
  rw [if_neg (by norm_num), hl]
  unfold roundAt
  rw [rne_down (n := -9223372037) (by norm_num) (by norm_num)]
  norm_num

theorem round_2_40 : roundSig 10 10 1099511627776 = ((1099511628000 : ℤ) : ℚ) := by
  have hl : Int.log 10 |(1099511627776 : ℚ)| = 12 := by
    rw [abs_of_nonneg (by norm_num)]
    exact log_eq_of (by omega) (by norm_num) (by norm_num) (by norm_num)
  unfold roundSig
  rw [if_neg (by norm_num), hl]
  unfold roundAt
  rw [rne_up (n := 1099511628) (by norm_num) (by norm_num)]
  norm_num

theorem has32_min : float32.Has (-9223372036854775808) :=
  ⟨-1, 63, by norm_num, by norm_num [float32], by norm_num [float32], by norm_num [float32]⟩

theorem has32_2_40 : float32.Has 1099511627776 :=
  ⟨1, 40, by norm_num, by norm_num [float32], by norm_num [float32], by norm_num [float32]⟩

theorem float_int_refusing (oor : Kind → ℚ → Int) (k : Kind) (hk : (k.signed && decide (k.bits = 64)) = true) :
    ¬ Complete oor .float32 (.int k) ∧ ¬ Complete oor .float64 (.int k) := by
  have hr : k.InRange (-9223372036854775808) := by cases k <;> simp [Kind.signed, Kind.bits] at hk <;> decide
  have hn : ¬ k.InRange (-9223372037000000000) := by cases k <;> decide
  have hH : (NTy.int k).Has (.fin (-9223372036854775808)) := ⟨-9223372036854775808, by norm_num, hr⟩
  have key : ∀ b, (floatSrc b (.fin (-9223372036854775808)) (.int k) (some (.int k 0))).failed = true := by
    intro b
    rcases floatSrc_int b k (.fin (-9223372036854775808)) (some (.int k 0)) (Or.inl ⟨_, rfl, rfl⟩) with ⟨q, j, h1, h2, h3, h4⟩ | ⟨h1, h2⟩
    · exfalso
      simp only [Flt.fin.injEq] at h1
      subst h1
      rw [round_min] at h2
      rw [← show (-9223372037000000000 : ℤ) = j by exact_mod_cast h2] at h3
      exact hn h3
    · rw [h2]
  constructor
  · intro h
    obtain ⟨r, h1, h2⟩ := h (.float32 (.fin (-9223372036854775808))) (some (.int k 0)) rfl has32_min (Or.inl ⟨_, rfl, rfl⟩) hH
    simp only [numTo, Option.some.injEq] at h1
    subst h1
    rw [key] at h2; simp at h2
  · intro h
    obtain ⟨r, h1, h2⟩ := h (.float64 (.fin (-9223372036854775808))) (some (.int k 0)) rfl (has32_64 has32_min) (Or.inl ⟨_, rfl, rfl⟩) hH
    simp only [numTo, Option.some.injEq] at h1
    subst h1
    rw [key] at h2; simp at h2

theorem floatSrc_lossy (is32 : Bool) (k : Kind) (q : ℚ) (j : ℤ) (h : roundSig 10 10 q = j) (hj : k.InRange j) :
    floatSrc is32 (.fin q) (.int k) (some (.int k 0)) = ⟨some (.int k j), false⟩ := by
  rcases floatSrc_int is32 k (.fin q) (some (.int k 0)) (Or.inl ⟨_, rfl, rfl⟩) with ⟨q', j', h1, h2, h3, h4⟩ | ⟨h1, h2⟩
  · simp only [Flt.fin.injEq] at h1
    subst h1
    rw [h] at h2
    rw [h4, show j = j' by exact_mod_cast h2]
  · exact absurd ⟨j, h, hj⟩ (h1 q rfl)

theorem not_exact {oor : Kind → ℚ → Int} {t : NTy} (n m : Num) (c : Cell) (hv : n.Valid) (hc : t.Cell c)
    (h : numTo oor n t c = some ⟨some m, false⟩) (hne : m.value ≠ n.value) : ¬ Exact oor n.ty t := by
  intro hx
  obtain ⟨r, h1, h2⟩ := hx n c rfl hv hc
  rw [h, Option.some.injEq] at h1
  subst h1
  obtain ⟨m', hm', _, _, hv'⟩ := h2 rfl
  simp only [Option.some.injEq] at hm'
  subst hm'
  exact hne hv'

theorem float_int_lossy (oor : Kind → ℚ → Int) (k : Kind) :
    (k.bits = 64 → ¬ Exact oor .float32 (.int k)) ∧ ¬ Exact oor .float64 (.int k) := by
  constructor
  · intro hk
    have hr : k.InRange 1099511628000 := by cases k <;> simp [Kind.bits] at hk <;> decide
    exact not_exact (.float32 (.fin 1099511627776)) (.int k 1099511628000) (some (.int k 0)) has32_2_40 (Or.inl ⟨_, rfl, rfl⟩)
      (by simp only [numTo, floatSrc_lossy true k _ _ round_2_40 hr]) (by simp [Num.value])
  · have hr : k.InRange 1 := by cases k <;> decide
    have h1 : roundSig 10 10 (1099511627775 / 1099511627776) = ((1 : ℤ) : ℚ) := by rw [sig10_one]; norm_num
    exact not_exact (.float64 (.fin (1099511627775 / 1099511627776))) (.int k 1) (some (.int k 0))
      (show float64.Has _ from ⟨1099511627775, -40, by norm_num, by norm_num [float64], by norm_num [float64], by norm_num [float64]⟩)
      (Or.inl ⟨_, rfl, rfl⟩) (by simp only [numTo, floatSrc_lossy false k _ _ h1 hr]) (by simp [Num.value]; norm_num)

theorem good_float_copy (oor : Kind → ℚ → Int) :
    Good oor .float32 .float32 ∧ Good oor .float64 .float64 ∧ Good oor .float32 .float64 := by
  refine ⟨?_, ?_, ?_⟩
  · rintro (_ | x | _ | _ | _ | _) c hty hv hc <;> simp [Num.ty] at hty
    exact ⟨fun _ => ⟨_, rfl, rfl, rfl⟩, fun h => absurd hv h⟩
  · rintro (_ | _ | x | _ | _ | _) c hty hv hc <;> simp [Num.ty] at hty
    exact ⟨fun _ => ⟨_, rfl, rfl, rfl⟩, fun h => absurd hv h⟩
  · rintro (_ | x | _ | _ | _ | _) c hty hv hc <;> simp [Num.ty] at hty
    refine ⟨fun _ => ⟨_, rfl, rfl, rfl⟩, fun h => absurd ?_ h⟩
    cases x with
    | nan => trivial
    | inf n => trivial
    | fin q => exact has32_64 hv

theorem floatToFloat_cases (x c : Flt) : (floatToFloat true x c).failed = true → floatToFloat true x c = ⟨c, true⟩ := by
  cases x with
  | nan => simp [floatToFloat]
  | inf n => simp [floatToFloat]
  | fin q => simp only [floatToFloat]; split <;> simp

theorem floatToFloat_has (x c : Flt) (h : NTy.float32.Has x) : floatToFloat true x c = ⟨x, false⟩ := by
  cases x with
  | nan => simp [floatToFloat]
  | inf n => simp [floatToFloat]
  | fin q => exact (c80_exact q c h).2

theorem narrow_rest (oor : Kind → ℚ → Int) : Complete oor .float64 .float32 ∧ Clean oor .float64 .float32 := by
  constructor
  · rintro (_ | _ | x | _ | _ | _) c hty hv hc h <;> simp [Num.ty] at hty
    refine ⟨_, rfl, ?_⟩
    simp only [floatSrc, Bool.false_eq_true, if_false, floatToFloat_has x (curFlt c) h]
  · rintro (_ | _ | x | _ | _ | _) c hty hv hc <;> simp [Num.ty] at hty
    refine ⟨_, rfl, ?_⟩
    simp only [floatSrc, Bool.false_eq_true, if_false]
    intro h
    rw [floatToFloat_cases x (curFlt c) h, ← cell_32 hc]

theorem has64_odd : float64.Has 16777217 :=
  ⟨16777217, 0, by norm_num, by norm_num [float64], by norm_num [float64], by norm_num [float64]⟩

theorem narrow_odd (c : Flt) : ∃ r : ℚ, floatToFloat true (.fin 16777217) c = ⟨.fin r, false⟩ ∧ r ≠ 16777217 := by
  obtain ⟨r, h1, h2⟩ := (c80_narrow 16777217 c).1 ⟨Or.inr (by
    rw [abs_of_nonneg (by norm_num)]
    have : float32.smallest ≤ 1 := zpow_le_one_of_nonpos₀ (by norm_num) (by simp [float32])
    linarith), by rw [abs_of_nonneg (by norm_num)]; norm_num [Fmt.max, float32]⟩
  refine ⟨r, h1, ?_⟩
  rintro rfl
  exact odd_not_has (by push_cast; exact h2.1)

theorem narrow_lossy (oor : Kind → ℚ → Int) : ¬ Exact oor .float64 .float32 := by
  obtain ⟨r, h1, h2⟩ := narrow_odd .nan
  exact not_exact (.float64 (.fin 16777217)) (.float32 (.fin r)) (some (.float32 .nan)) has64_odd (Or.inl ⟨_, rfl, rfl⟩)
    (by simp only [numTo, floatSrc, Bool.false_eq_true, if_false, curFlt, h1]) (by simpa [Num.value] using h2)

theorem dyadic_of_has {f : Fmt} {q : ℚ} (h : f.Has q) : Dyadic q := by
  obtain ⟨m, e, h, _⟩ := h; exact ⟨m, e, h⟩

theorem good_float_big (oor : Kind → ℚ → Int) (s : NTy) (hs : s = .float32 ∨ s = .float64) : Good oor s .bigInt ∧ Good oor s .bigFloat := by
  have key : ∀ (b : Bool) (x : Flt) (c : Cell),
      (NTy.bigInt.Has x → ∃ m, floatSrc b x .bigInt c = ⟨some m, false⟩ ∧ m.ty = .bigInt ∧ m.value = x) ∧
      (¬ NTy.bigInt.Has x → floatSrc b x .bigInt c = ⟨c, true⟩) ∧
      (x ≠ .nan → ∃ m, floatSrc b x .bigFloat c = ⟨some m, false⟩ ∧ m.ty = .bigFloat ∧ m.value = x) ∧
      (x = .nan → floatSrc b x .bigFloat c = ⟨c, true⟩) := by
    intro b x c
    refine ⟨?_, ?_, ?_, ?_⟩
    · intro h
      cases x with
      | nan => exact h.elim
      | inf n => exact h.elim
      | fin q =>
        obtain ⟨i, rfl⟩ := h
        exact ⟨.bigInt i, by simp [floatSrc, floatToBigInt], rfl, rfl⟩
    · intro h
      cases x with
      | nan => rfl
      | inf n => rfl
      | fin q =>
        have hd : ¬ q.den = 1 := fun hd => h ((den_one_iff q).1 hd)
        simp [floatSrc, floatToBigInt, hd]
    · intro h
      cases x with
      | nan => exact absurd rfl h
      | inf n => exact ⟨_, rfl, rfl, rfl⟩
      | fin q => exact ⟨_, rfl, rfl, rfl⟩
    · rintro rfl; rfl
  have hdy : ∀ x : Flt, (NTy.float32.Has x ∨ NTy.float64.Has x) → (NTy.bigFloat.Has x ↔ x ≠ .nan) := by
    intro x h
    cases x with
    | nan => simp [NTy.Has]
    | inf n => simp [NTy.Has]
    | fin q =>
      simp only [NTy.Has, ne_eq, reduceCtorEq, not_false_eq_true, iff_true]
      rcases h with h | h
      · exact dyadic_of_has (f := float32) h
      · exact dyadic_of_has (f := float64) h
  rcases hs with rfl | rfl
  · constructor
    · rintro (_ | x | _ | _ | _ | _) c hty hv hc <;> simp [Num.ty] at hty
      obtain ⟨k1, k2, -, -⟩ := key true x c
      simp only [numTo, Option.some.injEq]
      exact ⟨k1, k2⟩
    · rintro (_ | x | _ | _ | _ | _) c hty hv hc <;> simp [Num.ty] at hty
      obtain ⟨-, -, k1, k2⟩ := key true x c
      simp only [numTo, Option.some.injEq]
      rw [show (Num.float32 x).value = x from rfl, hdy x (Or.inl hv)]
      exact ⟨k1, fun h => k2 (not_not.1 h)⟩
  · constructor
    · rintro (_ | _ | x | _ | _ | _) c hty hv hc <;> simp [Num.ty] at hty
      obtain ⟨k1, k2, -, -⟩ := key false x c
      simp only [numTo, Option.some.injEq]
      exact ⟨k1, k2⟩
    · rintro (_ | _ | x | _ | _ | _) c hty hv hc <;> simp [Num.ty] at hty
      obtain ⟨-, -, k1, k2⟩ := key false x c
      simp only [numTo, Option.some.injEq]
      rw [show (Num.float64 x).value = x from rfl, hdy x (Or.inr hv)]
      exact ⟨k1, fun h => k2 (not_not.1 h)⟩

theorem float_rat (oor : Kind → ℚ → Int) (s : NTy) (hs : s = .float32 ∨ s = .float64) :
    ¬ Exact oor s .bigRat ∧ Complete oor s .bigRat ∧ Clean oor s .bigRat := by
  have h40 : floatToBigRat (.fin 1099511627776) = some 1099511628000 := by
    simp only [floatToBigRat, round_2_40]; norm_num
  rcases hs with rfl | rfl
  · refine ⟨?_, ?_, ?_⟩
    · exact not_exact (.float32 (.fin 1099511627776)) (.bigRat 1099511628000) none has32_2_40 (Or.inr ⟨rfl, by simp⟩)
        (by simp only [numTo, floatSrc, h40]) (by simp [Num.value])
    · rintro (_ | x | _ | _ | _ | _) c hty hv hc h <;> simp [Num.ty] at hty
      refine ⟨_, rfl, ?_⟩
      cases x with
      | nan => exact h.elim
      | inf n => exact h.elim
      | fin q => rfl
    · rintro (_ | x | _ | _ | _ | _) c hty hv hc <;> simp [Num.ty] at hty
      refine ⟨_, rfl, ?_⟩
      cases x <;> simp [floatSrc, floatToBigRat]
  · refine ⟨?_, ?_, ?_⟩
    · exact not_exact (.float64 (.fin 1099511627776)) (.bigRat 1099511628000) none (has32_64 has32_2_40) (Or.inr ⟨rfl, by simp⟩)
        (by simp only [numTo, floatSrc, h40]) (by simp [Num.value])
    · rintro (_ | _ | x | _ | _ | _) c hty hv hc h <;> simp [Num.ty] at hty
      refine ⟨_, rfl, ?_⟩
      cases x with
      | nan => exact h.elim
      | inf n => exact h.elim
      | fin q => rfl
    · rintro (_ | _ | x | _ | _ | _) c hty hv hc <;> simp [Num.ty] at hty
      refine ⟨_, rfl, ?_⟩
      cases x <;> simp [floatSrc, floatToBigRat]

/-! ### From big numbers -/

theorem good_big_int (oor : Kind → ℚ → Int) (s : NTy) (hs : s = .bigInt ∨ s = .bigFloat ∨ s = .bigRat) (k : Kind) : Good oor s (.int k) := by
  rcases hs with rfl | rfl | rfl
  · rintro (_ | _ | _ | v | _ | _) c hty hv hc <;> simp [Num.ty] at hty
    have hc' := cell_int hc
    simp only [Num.value, has_int, numTo, bigIntSrc, c21_bigInt_exact k v (curInt c)]
    constructor
    · intro h; exact ⟨.int k v, by simp [h], rfl, rfl⟩
    · intro h; simp [h]; exact hc'.symm
  · rintro (_ | _ | _ | _ | x | _) c hty hv hc <;> simp [Num.ty] at hty
    have hc' := cell_int hc
    cases x with
    | nan => exact hv.elim
    | inf n =>
      refine ⟨fun h => h.elim, fun _ => ?_⟩
      simp only [numTo, bigFloatSrc, bigFloatTo_special k (.inf n) (curInt c) (by simp), ← hc']
    | fin q =>
      obtain ⟨h1, h2⟩ := bigFloatTo_fin k q (curInt c)
      constructor
      · rintro ⟨i, rfl, hi⟩
        refine ⟨.int k i, ?_, rfl, rfl⟩
        simp only [numTo, bigFloatSrc, (h1 i rfl).1, c21_bigInt_exact k i (curInt c), hi, if_true]
      · intro h
        by_cases hq : ∃ i : ℤ, q = i
        · obtain ⟨i, rfl⟩ := hq
          have hi : ¬ k.InRange i := fun hi => h ⟨i, rfl, hi⟩
          simp only [numTo, bigFloatSrc, (h1 i rfl).1, c21_bigInt_exact k i (curInt c), hi, if_false, ← hc']
        · simp only [numTo, bigFloatSrc, (h2 hq).1, ← hc']
  · rintro (_ | _ | _ | _ | _ | q) c hty hv hc <;> simp [Num.ty] at hty
    have hc' := cell_int hc
    obtain ⟨h1, h2⟩ := bigFloatTo_fin k q (curInt c)
    constructor
    · rintro ⟨i, rfl, hi⟩
      refine ⟨.int k i, ?_, rfl, rfl⟩
      simp only [numTo, bigRatSrc, (h1 i rfl).2, c21_bigInt_exact k i (curInt c), hi, if_true]
    · intro h
      by_cases hq : ∃ i : ℤ, q = i
      · obtain ⟨i, rfl⟩ := hq
        have hi : ¬ k.InRange i := fun hi => h ⟨i, rfl, hi⟩
        simp only [numTo, bigRatSrc, (h1 i rfl).2, c21_bigInt_exact k i (curInt c), hi, if_false, ← hc']
      · simp only [numTo, bigRatSrc, (h2 hq).2, ← hc']

/-- An odd integer beyond the precision is no float. -/
theorem odd64_not_has : ¬ float64.Has ((9007199254740993 : Int) : ℚ) := by
  rintro ⟨m, e, h, hm, _, _⟩
  have hm' : |m| < 9007199254740992 := by simpa [float64] using hm
  rcases le_or_gt e 0 with he | he
  · have hp : (2 : ℚ) ^ e ≤ 1 := zpow_le_one_of_nonpos₀ (by norm_num) he
    have hpos : (0 : ℚ) < 2 ^ e := by positivity
    have h1 : (m : ℚ) < 9007199254740992 := by
      have := (abs_lt.1 hm').2
      exact_mod_cast this
    push_cast at h
    nlinarith
  · obtain ⟨k, rfl⟩ := Int.eq_ofNat_of_zero_le (show 0 ≤ e by omega)
    obtain ⟨j, rfl⟩ : ∃ j, k = j + 1 := ⟨k - 1, by omega⟩
    have h1 : (9007199254740993 : ℤ) = m * 2 ^ (j + 1) := by
      have : ((9007199254740993 : ℤ) : ℚ) = ((m * 2 ^ (j + 1) : ℤ) : ℚ) := by
        rw [h]; push_cast; rw [← zpow_natCast]; norm_num
      exact_mod_cast this
    have h2 : (9007199254740993 : ℤ) = (m * 2 ^ j) * 2 := by rw [h1]; ring
    clear h1 hm h
    omega

theorem toNearest_ne_nan (f : Fmt) (q : ℚ) : (toNearest f q).1 ≠ .nan := by
  unfold toNearest
  simp only
  split <;> simp

/-- Big numbers to float64: exact and complete, but an error leaves the nearest float64 in the target. -/
theorem big_float64 (oor : Kind → ℚ → Int) (s : NTy) (hs : s = .bigInt ∨ s = .bigFloat ∨ s = .bigRat) :
    Exact oor s .float64 ∧ Complete oor s .float64 ∧ ¬ Clean oor s .float64 := by
  have hI : ∀ v : Int, (float64.Has v → bigIntToFloat float64 v = ⟨.fin v, false⟩) ∧
      (¬ float64.Has v → (bigIntToFloat float64 v).failed = true) := fun v => ((c81_big float64 (Or.inr rfl) 0 v).2.2)
  have hF : ∀ q : ℚ, (float64.Has q → bigFloatToFloat float64 (.fin q) = ⟨.fin q, false⟩ ∧ bigRatToFloat float64 q = ⟨.fin q, false⟩) ∧
      (¬ float64.Has q → (bigFloatToFloat float64 (.fin q)).failed = true ∧ (bigRatToFloat float64 q).failed = true) := fun q =>
    ⟨(c81_big float64 (Or.inr rfl) q 0).1, (c81_big float64 (Or.inr rfl) q 0).2.1⟩
  have hodd : ¬ float64.Has (9007199254740993 : ℚ) := by have := odd64_not_has; push_cast at this; exact this
  have hdy : Dyadic 9007199254740993 := ⟨9007199254740993, 0, by norm_num⟩
  rcases hs with rfl | rfl | rfl
  · refine ⟨?_, ?_, ?_⟩
    · rintro (_ | _ | _ | v | _ | _) c hty hv hc <;> simp [Num.ty] at hty
      refine ⟨_, rfl, fun h => ?_⟩
      simp only [bigIntSrc] at h ⊢
      by_cases hh : float64.Has v
      · rw [(hI v).1 hh]; exact ⟨_, rfl, rfl, hh, rfl⟩
      · rw [(hI v).2 hh] at h; simp at h
    · rintro (_ | _ | _ | v | _ | _) c hty hv hc hh <;> simp [Num.ty] at hty
      exact ⟨_, rfl, by simp only [bigIntSrc, (hI v).1 hh]⟩
    · intro h
      obtain ⟨r, h1, h2⟩ := h (.bigInt 9007199254740993) (some (.float64 .nan)) rfl ⟨_, rfl⟩ (Or.inl ⟨_, rfl, rfl⟩)
      simp only [numTo, Option.some.injEq, bigIntSrc] at h1
      subst h1
      have := h2 ((hI _).2 odd64_not_has)
      simp only [Option.some.injEq, Num.float64.injEq, bigIntToFloat] at this
      exact toNearest_ne_nan _ _ this
  · refine ⟨?_, ?_, ?_⟩
    · rintro (_ | _ | _ | _ | x | _) c hty hv hc <;> simp [Num.ty] at hty
      refine ⟨_, rfl, fun h => ?_⟩
      simp only [bigFloatSrc] at h ⊢
      cases x with
      | nan => exact hv.elim
      | inf n => exact ⟨_, rfl, rfl, trivial, rfl⟩
      | fin q =>
        by_cases hh : float64.Has q
        · rw [((hF q).1 hh).1]; exact ⟨_, rfl, rfl, hh, rfl⟩
        · rw [((hF q).2 hh).1] at h; simp at h
    · rintro (_ | _ | _ | _ | x | _) c hty hv hc hh <;> simp [Num.ty] at hty
      refine ⟨_, rfl, ?_⟩
      cases x with
      | nan => exact hv.elim
      | inf n => rfl
      | fin q => simp only [bigFloatSrc, ((hF q).1 hh).1]
    · intro h
      obtain ⟨r, h1, h2⟩ := h (.bigFloat (.fin 9007199254740993)) (some (.float64 .nan)) rfl hdy (Or.inl ⟨_, rfl, rfl⟩)
      simp only [numTo, Option.some.injEq, bigFloatSrc] at h1
      subst h1
      have := h2 ((hF _).2 hodd).1
      simp only [Option.some.injEq, Num.float64.injEq, bigFloatToFloat] at this
      exact toNearest_ne_nan _ _ this
  · refine ⟨?_, ?_, ?_⟩
    · rintro (_ | _ | _ | _ | _ | q) c hty hv hc <;> simp [Num.ty] at hty
      refine ⟨_, rfl, fun h => ?_⟩
      simp only [bigRatSrc] at h ⊢
      by_cases hh : float64.Has q
      · rw [((hF q).1 hh).2]; exact ⟨_, rfl, rfl, hh, rfl⟩
      · rw [((hF q).2 hh).2] at h; simp at h
    · rintro (_ | _ | _ | _ | _ | q) c hty hv hc hh <;> simp [Num.ty] at hty
      exact ⟨_, rfl, by simp only [bigRatSrc, ((hF q).1 hh).2]⟩
    · intro h
      obtain ⟨r, h1, h2⟩ := h (.bigRat 9007199254740993) (some (.float64 .nan)) rfl trivial (Or.inl ⟨_, rfl, rfl⟩)
      simp only [numTo, Option.some.injEq, bigRatSrc] at h1
      subst h1
      have := h2 ((hF _).2 hodd).2
      simp only [Option.some.injEq, Num.float64.injEq, bigRatToFloat] at this
      exact toNearest_ne_nan _ _ this

/-- Big numbers to float32, through a float64. -/
theorem big_float32 (oor : Kind → ℚ → Int) (s : NTy) (hs : s = .bigInt ∨ s = .bigFloat ∨ s = .bigRat) :
    ¬ Exact oor s .float32 ∧ Complete oor s .float32 ∧ Clean oor s .float32 := by
  have hB := fun (q : ℚ) (i : Int) => c81_big float64 (Or.inr rfl) q i
  obtain ⟨w, hw, hne⟩ := narrow_odd .nan
  have via : ∀ (r : Res Flt) (cur : Flt), (if r.failed then (⟨cur, true⟩ : Res Flt) else floatToFloat true r.target cur).failed = true →
      (if r.failed then (⟨cur, true⟩ : Res Flt) else floatToFloat true r.target cur) = ⟨cur, true⟩ := by
    intro r cur h
    split
    · rfl
    · rename_i hf; rw [if_neg hf] at h; exact floatToFloat_cases _ _ h
  rcases hs with rfl | rfl | rfl
  · refine ⟨?_, ?_, ?_⟩
    · refine not_exact (.bigInt 16777217) (.float32 (.fin w)) (some (.float32 .nan)) ⟨_, rfl⟩ (Or.inl ⟨_, rfl, rfl⟩) ?_ (by simpa [Num.value] using hne)
      simp only [numTo, bigIntSrc, bigIntToFloat32Entry, (hB 0 16777217).2.2.1 (by push_cast; exact has64_odd), Bool.false_eq_true, if_false,
        curFlt]
      push_cast
      rw [hw]
    · rintro (_ | _ | _ | v | _ | _) c hty hv hc hh <;> simp [Num.ty] at hty
      refine ⟨_, rfl, ?_⟩
      simp only [bigIntSrc, bigIntToFloat32Entry, (hB 0 v).2.2.1 (has32_64 hh), Bool.false_eq_true, if_false]
      rw [floatToFloat_has (.fin v) _ hh]
    · rintro (_ | _ | _ | v | _ | _) c hty hv hc <;> simp [Num.ty] at hty
      refine ⟨_, rfl, fun h => ?_⟩
      simp only [bigIntSrc, bigIntToFloat32Entry] at h ⊢
      rw [via _ _ h, ← cell_32 hc]
  · refine ⟨?_, ?_, ?_⟩
    · refine not_exact (.bigFloat (.fin 16777217)) (.float32 (.fin w)) (some (.float32 .nan)) ⟨16777217, 0, by norm_num⟩ (Or.inl ⟨_, rfl, rfl⟩) ?_
        (by simpa [Num.value] using hne)
      simp only [numTo, bigFloatSrc, bigFloatToFloat32Entry, ((hB 16777217 0).1 has64_odd).1, Bool.false_eq_true, if_false, curFlt, hw]
    · rintro (_ | _ | _ | _ | x | _) c hty hv hc hh <;> simp [Num.ty] at hty
      refine ⟨_, rfl, ?_⟩
      cases x with
      | nan => exact hv.elim
      | inf n => rfl
      | fin q =>
        simp only [bigFloatSrc, bigFloatToFloat32Entry, ((hB q 0).1 (has32_64 hh)).1, Bool.false_eq_true, if_false]
        rw [floatToFloat_has (.fin q) _ hh]
    · rintro (_ | _ | _ | _ | x | _) c hty hv hc <;> simp [Num.ty] at hty
      refine ⟨_, rfl, fun h => ?_⟩
      simp only [bigFloatSrc, bigFloatToFloat32Entry] at h ⊢
      rw [via _ _ h, ← cell_32 hc]
  · refine ⟨?_, ?_, ?_⟩
    · refine not_exact (.bigRat 16777217) (.float32 (.fin w)) (some (.float32 .nan)) trivial (Or.inl ⟨_, rfl, rfl⟩) ?_
        (by simpa [Num.value] using hne)
      simp only [numTo, bigRatSrc, bigRatToFloat32Entry, ((hB 16777217 0).1 has64_odd).2, Bool.false_eq_true, if_false, curFlt, hw]
    · rintro (_ | _ | _ | _ | _ | q) c hty hv hc hh <;> simp [Num.ty] at hty
      refine ⟨_, rfl, ?_⟩
      simp only [bigRatSrc, bigRatToFloat32Entry, ((hB q 0).1 (has32_64 hh)).2, Bool.false_eq_true, if_false]
      rw [floatToFloat_has (.fin q) _ hh]
    · rintro (_ | _ | _ | _ | _ | q) c hty hv hc <;> simp [Num.ty] at hty
      refine ⟨_, rfl, fun h => ?_⟩
      simp only [bigRatSrc, bigRatToFloat32Entry] at h ⊢
      rw [via _ _ h, ← cell_32 hc]

theorem good_big_big (oor : Kind → ℚ → Int) :
    Good oor .bigInt .bigInt ∧ Good oor .bigInt .bigFloat ∧ Good oor .bigInt .bigRat ∧
    Good oor .bigFloat .bigInt ∧ Good oor .bigFloat .bigFloat ∧ Good oor .bigRat .bigInt ∧ Good oor .bigRat .bigRat := by
  refine ⟨?_, ?_, ?_, ?_, ?_, ?_, ?_⟩
  · rintro (_ | _ | _ | v | _ | _) c hty hv hc <;> simp [Num.ty] at hty
    exact ⟨fun _ => ⟨_, rfl, rfl, rfl⟩, fun h => absurd hv h⟩
  · rintro (_ | _ | _ | v | _ | _) c hty hv hc <;> simp [Num.ty] at hty
    refine ⟨fun _ => ⟨_, rfl, rfl, by simp [Num.value, c79_bigInt]⟩, fun h => absurd ⟨v, 0, by simp⟩ h⟩
  · rintro (_ | _ | _ | v | _ | _) c hty hv hc <;> simp [Num.ty] at hty
    exact ⟨fun _ => ⟨_, rfl, rfl, rfl⟩, fun h => absurd trivial h⟩
  · rintro (_ | _ | _ | _ | x | _) c hty hv hc <;> simp [Num.ty] at hty
    cases x with
    | nan => exact hv.elim
    | inf n => exact ⟨fun h => h.elim, fun _ => rfl⟩
    | fin q =>
      constructor
      · rintro ⟨i, rfl⟩
        exact ⟨.bigInt i, by simp [numTo, bigFloatSrc, bigFloatToBigInt], rfl, rfl⟩
      · intro h
        have hd : ¬ q.den = 1 := fun hd => h ((den_one_iff q).1 hd)
        simp [numTo, bigFloatSrc, bigFloatToBigInt, hd]
  · rintro (_ | _ | _ | _ | x | _) c hty hv hc <;> simp [Num.ty] at hty
    exact ⟨fun _ => ⟨_, rfl, rfl, rfl⟩, fun h => absurd hv h⟩
  · rintro (_ | _ | _ | _ | _ | q) c hty hv hc <;> simp [Num.ty] at hty
    constructor
    · rintro ⟨i, rfl⟩
      exact ⟨.bigInt i, by simp [numTo, bigRatSrc, bigRatToBigInt], rfl, rfl⟩
    · intro h
      have hd : ¬ q.den = 1 := fun hd => h ((den_one_iff q).1 hd)
      simp [numTo, bigRatSrc, bigRatToBigInt, hd]
  · rintro (_ | _ | _ | _ | _ | q) c hty hv hc <;> simp [Num.ty] at hty
    exact ⟨fun _ => ⟨_, rfl, rfl, rfl⟩, fun h => absurd trivial h⟩

theorem bigFloat_rat (oor : Kind → ℚ → Int) :
    ¬ Exact oor .bigFloat .bigRat ∧ Complete oor .bigFloat .bigRat ∧ Clean oor .bigFloat .bigRat := by
  refine ⟨?_, ?_, ?_⟩
  · have h := c79_moderate 1099511627776 13 (by norm_num) (by norm_num) (by norm_num)
    rw [round_2_40] at h
    exact not_exact (.bigFloat (.fin 1099511627776)) (.bigRat ((1099511628000 : ℤ) : ℚ)) none ⟨1099511627776, 0, by norm_num⟩
      (Or.inr ⟨rfl, by simp⟩) (by simp only [numTo, bigFloatSrc, h]; rfl) (by simp [Num.value])
  · rintro (_ | _ | _ | _ | x | _) c hty hv hc h <;> simp [Num.ty] at hty
    refine ⟨_, rfl, ?_⟩
    cases x with
    | nan => exact h.elim
    | inf n => exact h.elim
    | fin q =>
      simp only [bigFloatSrc, bigFloatToBigRat]
      split <;> rename_i heq
      · rfl
      · split at heq <;> simp at heq
  · rintro (_ | _ | _ | _ | x | _) c hty hv hc <;> simp [Num.ty] at hty
    refine ⟨_, rfl, ?_⟩
    simp only [bigFloatSrc]
    split <;> simp

theorem third_not_dyadic : ¬ Dyadic (1 / 3) := by
  rintro ⟨m, e, h⟩
  have h3 : (2 : ℚ) ^ (-e) = 3 * m := by
    rw [zpow_neg]; field_simp; linarith
  rcases le_or_gt 0 (-e) with he | he
  · obtain ⟨n, hn⟩ := Int.eq_ofNat_of_zero_le he
    rw [hn] at h3
    have h3' : ((2 : ℤ) ^ n) = 3 * m := by
      simp only [zpow_natCast] at h3
      exact_mod_cast h3
    have : ∀ n : ℕ, (2 : ℤ) ^ n % 3 ≠ 0 := by
      intro n
      induction n with
      | zero => decide
      | succ n ih => rw [pow_succ]; omega
    have := this n
    omega
  · have h1 : (2 : ℚ) ^ (-e) < 1 := zpow_lt_one_of_neg₀ (by norm_num) he
    have h2 : (0 : ℚ) < (2 : ℚ) ^ (-e) := by positivity
    rw [h3] at h1 h2
    have h1' : 3 * m < 1 := by exact_mod_cast h1
    have h2' : 0 < 3 * m := by exact_mod_cast h2
    omega

theorem rat_bigFloat (oor : Kind → ℚ → Int) :
    ¬ Exact oor .bigRat .bigFloat ∧ Complete oor .bigRat .bigFloat ∧ Clean oor .bigRat .bigFloat := by
  refine ⟨?_, ?_⟩
  · refine not_exact (.bigRat (1 / 3)) (.bigFloat (.fin (bigRatToBigFloat (1 / 3)))) none trivial (Or.inr ⟨rfl, by simp⟩) rfl ?_
    simp only [Num.value, ne_eq, Flt.fin.injEq]
    exact (c79_ratFloat_dyadic _).2 third_not_dyadic
  · apply never_fails
    rintro (_ | _ | _ | _ | _ | q) hty c <;> simp [Num.ty] at hty
    exact ⟨_, rfl⟩

end Micro.Conv
