import Verif.Conv.Lemmas
/-
Property theorems for conv (C21, C22).
-/
namespace Micro.Conv
open Micro

/-- Close a goal about concrete integer types after unfolding. -/
macro "conv_finish" : tactic =>
  `(tactic| (repeat' split) <;> first | omega | (simp; done) | (simp; omega) | (exfalso; omega) | grind)

/-! ### C21 integer conversions -/

/-- C21. `To` between any two integer types never panics; it returns nil exactly when the source
value is a value of the target type, and then the target equals the source; otherwise the target is
unchanged. -/
theorem c21_to_exact (s t : Kind) (v cur : Int) (hv : s.InRange v) :
    toInt s t v cur = some (if t.InRange v then ⟨v, false⟩ else ⟨cur, true⟩) := by
  cases s <;> cases t <;>
    simp [toInt, convertFromTo, Entry.run, intToInt, uintToInt, intToUint, uintToUint, minIntValue,
      maxIntValue, maxUintValue, Kind.InRange, Kind.minV, Kind.maxV, Kind.wrap, Kind.signed,
      Kind.bits] at hv ⊢ <;> conv_finish

example : Kind.int16.InRange 300 ∧ toInt .int16 .uint8 300 7 = some ⟨7, true⟩ ∧
    toInt .int16 .uint8 200 7 = some ⟨200, false⟩ := by decide

/-- C21. The checked conversion functions called directly (not through the table) are exact for
every pair of source and target types of the right signedness. -/
theorem c21_functions_exact (s t : Kind) (v cur : Int) (hv : s.InRange v) :
    (s.signed → t.signed → intToInt s t v cur = if t.InRange v then ⟨v, false⟩ else ⟨cur, true⟩) ∧
    (¬ s.signed → t.signed → uintToInt s t v cur = if t.InRange v then ⟨v, false⟩ else ⟨cur, true⟩) ∧
    (s.signed → ¬ t.signed → intToUint s t v cur = if t.InRange v then ⟨v, false⟩ else ⟨cur, true⟩) ∧
    (¬ s.signed → ¬ t.signed →
      uintToUint s t v cur = if t.InRange v then ⟨v, false⟩ else ⟨cur, true⟩) := by
  cases s <;> cases t <;>
    simp [intToInt, uintToInt, intToUint, uintToUint, minIntValue,
      maxIntValue, maxUintValue, Kind.InRange, Kind.minV, Kind.maxV, Kind.wrap, Kind.signed,
      Kind.bits] at hv ⊢ <;> conv_finish

example : intToInt .int64 .int8 (-128) 0 = ⟨-128, false⟩ ∧ intToInt .int64 .int8 (-129) 5 = ⟨5, true⟩ := by
  decide

/-- C21. Converting there and back is the identity whenever the first conversion succeeds. -/
theorem c21_round_trip (s t : Kind) (v c1 c2 : Int) (r : Res Int) (hv : s.InRange v)
    (h : toInt s t v c1 = some r) (hok : r.failed = false) :
    toInt t s r.target c2 = some ⟨v, false⟩ := by
  rw [c21_to_exact s t v c1 hv] at h
  by_cases ht : t.InRange v
  · simp [ht] at h; subst h
    rw [c21_to_exact t s v c2 ht]; simp [hv]
  · simp [ht] at h; subst h; simp at hok

example : Kind.uint64.InRange 77 ∧ toInt .uint64 .int8 77 0 = some ⟨77, false⟩ := by decide

/-- C21. Distinct pairs of type names give distinct table keys (`"int"+"uint8"` cannot be mistaken
for another pair), so the string-keyed table is a function of the pair of types. -/
theorem c21_keys_injective (s t s' t' : Kind) (h : s.name ++ t.name = s'.name ++ t'.name) :
    s = s' ∧ t = t' := by
  revert h
  cases s <;> cases t <;> cases s' <;> cases t' <;> decide

example := c21_keys_injective .int .uint8 .int .uint8 rfl

/-- C21. *big.Int to any integer type: exact or an error with the target unchanged. -/
theorem c21_bigInt_exact (t : Kind) (v cur : Int) :
    bigIntTo t v cur = if t.InRange v then ⟨v, false⟩ else ⟨cur, true⟩ := by
  cases t <;>
    simp [bigIntTo, bigIntToInt64, bigIntToUint64, intToInt, uintToUint, minIntValue, maxIntValue,
      maxUintValue, Kind.InRange, Kind.minV, Kind.maxV, Kind.wrap, Kind.signed, Kind.bits] <;>
    grind

example : bigIntTo .int8 128 3 = ⟨3, true⟩ ∧ bigIntTo .uint64 (2 ^ 64 - 1) 3 = ⟨2 ^ 64 - 1, false⟩ := by
  decide

/-- C21. Integer to *big.Int is exact. -/
theorem c21_to_bigInt (k : Kind) (v : Int) (h : k.InRange v) : integerToBigInt k v = v := by
  cases k <;> simp [integerToBigInt] <;> kind_norm <;> omega

example : integerToBigInt .int8 (-5) = -5 := by decide

/-! ### C22 integers and strings -/

/-- C22. Converting a string to any integer type succeeds with value `v` exactly when the string
spells `v` (a sign only for signed types) and `v` is a value of the type. -/
theorem c22_string_to_integer (t : Kind) (cs : List Char) (v cur : Int) :
    stringTo t cs cur = ⟨v, false⟩ ↔ Spells t.signed cs v ∧ t.InRange v := by
  have hs : ∀ cs w, (stringToInt64 cs 0).failed = false ∧ (stringToInt64 cs 0).target = w ↔
      Spells true cs w ∧ Kind.int64.InRange w := by
    intro cs w; rw [← stringToInt64_iff cs w 0]
    cases stringToInt64 cs 0; simp [and_comm]
  have hu : ∀ cs w, (stringToUint64 cs 0).failed = false ∧ (stringToUint64 cs 0).target = w ↔
      Spells false cs w ∧ Kind.uint64.InRange w := by
    intro cs w; rw [← stringToUint64_iff cs w 0]
    cases stringToUint64 cs 0; simp [and_comm]
  have fin1 : ∀ t : Kind, t.signed = true →
      ((if (stringToInt64 cs 0).failed = true then (⟨cur, true⟩ : Res Int)
        else intToInt .int64 t (stringToInt64 cs 0).target cur) = ⟨v, false⟩ ↔
       Spells true cs v ∧ t.InRange v) := by
    intro t ht
    have hsub : t.InRange v → Kind.int64.InRange v := by
      cases t <;> simp [Kind.signed] at ht <;> kind_norm <;> omega
    cases hf : (stringToInt64 cs 0).failed with
    | true =>
      simp only [if_true]
      constructor
      · intro h; simp at h
      · rintro ⟨h1, h2⟩
        have := ((hs cs v).mpr ⟨h1, hsub h2⟩).1
        simp [hf] at this
    | false =>
      simp only [Bool.false_eq_true, if_false]
      obtain ⟨h1, h2⟩ := (hs cs (stringToInt64 cs 0).target).mp ⟨hf, rfl⟩
      rw [(c21_functions_exact .int64 t _ cur h2).1 rfl ht]
      constructor
      · intro h
        split at h
        · simp at h; subst h; exact ⟨h1, by assumption⟩
        · simp at h
      · rintro ⟨h3, h4⟩
        have := ((hs cs v).mpr ⟨h3, hsub h4⟩).2
        rw [this]; simp [h4]
  have fin2 : ∀ t : Kind, t.signed = false →
      ((if (stringToUint64 cs 0).failed = true then (⟨cur, true⟩ : Res Int)
        else uintToUint .uint64 t (stringToUint64 cs 0).target cur) = ⟨v, false⟩ ↔
       Spells false cs v ∧ t.InRange v) := by
    intro t ht
    have hsub : t.InRange v → Kind.uint64.InRange v := by
      cases t <;> simp [Kind.signed] at ht <;> kind_norm <;> omega
    cases hf : (stringToUint64 cs 0).failed with
    | true =>
      simp only [if_true]
      constructor
      · intro h; simp at h
      · rintro ⟨h1, h2⟩
        have := ((hu cs v).mpr ⟨h1, hsub h2⟩).1
        simp [hf] at this
    | false =>
      simp only [Bool.false_eq_true, if_false]
      obtain ⟨h1, h2⟩ := (hu cs (stringToUint64 cs 0).target).mp ⟨hf, rfl⟩
      rw [(c21_functions_exact .uint64 t _ cur h2).2.2.2 (by decide) (by simp [ht])]
      constructor
      · intro h
        split at h
        · simp at h; subst h; exact ⟨h1, by assumption⟩
        · simp at h
      · rintro ⟨h3, h4⟩
        have := ((hu cs v).mpr ⟨h3, hsub h4⟩).2
        rw [this]; simp [h4]
  cases t
  · exact fin1 .int rfl
  · exact fin1 .int8 rfl
  · exact fin1 .int16 rfl
  · exact fin1 .int32 rfl
  · exact stringToInt64_iff cs v cur
  · exact fin2 .uint rfl
  · exact fin2 .uint8 rfl
  · exact fin2 .uint16 rfl
  · exact fin2 .uint32 rfl
  · exact stringToUint64_iff cs v cur

example : Spells true "-12".toList (-12) ∧ Kind.int8.InRange (-12) := by
  refine ⟨⟨['1', '2'], ?_⟩, ?_⟩ <;> decide

theorem spells_format (k : Kind) (v : Int) (h : k.InRange v) :
    Spells k.signed (integerToString k v) v := by
  have hw : (if k.signed then Kind.int64.wrap v else Kind.uint64.wrap v) = v := by
    cases k <;> kind_norm <;> omega
  have hi : integerToString k v = formatInt v := by
    unfold integerToString
    split <;> rename_i hk <;> simp [hk] at hw <;> rw [hw]
  rw [hi]
  unfold formatInt
  refine ⟨natChars v.natAbs, natChars_ne_nil _, natChars_digits _, ?_⟩
  rw [digitsVal_natChars]
  by_cases hneg : v < 0
  · rw [if_pos hneg]
    refine .inr (.inr ⟨?_, rfl, by omega⟩)
    cases k <;> first | rfl | (exfalso; kind_norm; omega)
  · rw [if_neg hneg]
    exact .inl ⟨rfl, by omega⟩

/-- C22. Every value of every integer type survives the trip through a string. -/
theorem c22_round_trip (k : Kind) (v cur : Int) (h : k.InRange v) :
    stringTo k (integerToString k v) cur = ⟨v, false⟩ :=
  (c22_string_to_integer k _ v cur).mpr ⟨spells_format k v h, h⟩

example : Kind.int64.InRange (-9223372036854775808) ∧
    stringTo .int64 (integerToString .int64 (-9223372036854775808)) 0 =
      ⟨-9223372036854775808, false⟩ := by
  refine ⟨by decide, c22_round_trip _ _ _ (by decide)⟩

/-- C22. Printing one integer type and reading another succeeds exactly when the value is in range
(an unsigned target never accepts a negative number). -/
theorem c22_cross (s t : Kind) (v cur : Int) (hv : s.InRange v) :
    (stringTo t (integerToString s v) cur).failed = false ↔ t.InRange v := by
  have det : ∀ b1 b2 cs a b, Spells b1 cs a → Spells b2 cs b → a = b := by
    have hd := not_digit_sign
    rintro b1 b2 cs a b ⟨d1, h1, h2, h3⟩ ⟨d2, h4, h5, h6⟩
    rcases h3 with ⟨rfl, rfl⟩ | ⟨-, rfl, rfl⟩ | ⟨-, rfl, rfl⟩ <;>
      rcases h6 with ⟨h, rfl⟩ | ⟨-, h, rfl⟩ | ⟨-, h, rfl⟩
    all_goals first
      | (subst h; rfl)
      | (simp at h; subst h; rfl)
      | (rw [h] at h2; exact absurd (h2 '+' List.mem_cons_self) (by simp only [hd]; decide))
      | (rw [h] at h2; exact absurd (h2 '-' List.mem_cons_self) (by simp only [hd]; decide))
      | (rw [← h] at h5; exact absurd (h5 '+' List.mem_cons_self) (by simp only [hd]; decide))
      | (rw [← h] at h5; exact absurd (h5 '-' List.mem_cons_self) (by simp only [hd]; decide))
      | (simp at h; done)
  constructor
  · intro h
    have := (c22_string_to_integer t (integerToString s v) (stringTo t (integerToString s v) cur).target
      cur).mp (by rw [← h])
    rw [det _ _ _ _ _ (spells_format s v hv) this.1]; exact this.2
  · intro h
    have hsp : Spells t.signed (integerToString s v) v := by
      obtain ⟨ds, h1, h2, h3⟩ := spells_format s v hv
      refine ⟨ds, h1, h2, ?_⟩
      rcases h3 with h3 | ⟨hs, h3, h4⟩ | ⟨hs, h3, h4⟩
      · exact .inl h3
      · -- the printer never writes '+'
        exfalso
        unfold integerToString formatInt at h3
        have hd := not_digit_sign
        split at h3 <;> split at h3 <;> first
          | (simp at h3; done)
          | (have := natChars_digits _ '+' (by rw [h3]; simp); simp [hd] at this)
      · by_cases ht : t.signed = true
        · exact .inr (.inr ⟨ht, h3, h4⟩)
        · have hv0 : v = 0 := by
            have : 0 ≤ v := by cases t <;> simp [Kind.signed] at ht <;> kind_norm <;> omega
            omega
          exfalso
          subst hv0
          unfold integerToString formatInt at h3
          have : ∀ k : Kind, k.wrap 0 = 0 := by intro k; cases k <;> decide
          simp [this, natChars_zero] at h3
    rw [(c22_string_to_integer t _ v cur).mpr ⟨hsp, h⟩]

example : Kind.int32.InRange 300 := by decide

/-- C22 (finding). A failed conversion to int64 overwrites the target, unlike the narrower types. -/
theorem c22_target_clobbered_refuted :
    ∃ (cs : List Char) (cur : Int), (stringTo .int64 cs cur).failed = true ∧
      (stringTo .int64 cs cur).target ≠ cur ∧ (stringTo .int8 cs cur).target = cur :=
  ⟨['x'], 7, by decide⟩

end Micro.Conv
