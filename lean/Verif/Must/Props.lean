import Verif.Must.Model
import Verif.Decimal.AddProps
import Verif.Decimal.MulProps
import Verif.Conv.FloatProps
import Verif.Conv.TextProps
import Verif.Json.Props
import Verif.Json.ValueProps
import Verif.Rest.Props
set_option linter.unusedSimpArgs false
/-
C114: the Must version of a function returns what the function returns, and panics with its error exactly when it has one.
-/
namespace Micro.Must
open Micro

/-- `m` is what a Must version should do, if the plain function does `p`: the same value, a panic with the same error, or the same panic. -/
def Agrees {ε α : Type} (m : Ret ε α) (p : Out ε α) : Prop :=
  (∀ a, m = .returned a ↔ p = .ok a) ∧ (∀ e, m = .panicked (some e) ↔ p = .err e) ∧ (m = .panicked none ↔ p = .panic)

/-- C114: MustValue (and MustValue2) for every call. -/
theorem c114_value {ε α : Type} (p : Out ε α) : Agrees (mustValue p) p := by
  cases p <;> simp [Agrees, mustValue]

example : mustValue (.ok 3 : Out Nat Nat) = .returned 3 ∧ mustValue (.err 7 : Out Nat Nat) = .panicked (some 7) := ⟨rfl, rfl⟩

/-- C114: Must for every error: it returns for nil, and panics with every other error. -/
theorem c114_must {ε : Type} (err : Option ε) :
    (must err = .returned () ↔ err = none) ∧ (∀ e, must err = .panicked (some e) ↔ err = some e) ∧ must err ≠ .panicked none := by
  cases err <;> simp [must]

open Dec in
/-- C114: the arithmetic of Decimals. -/
theorem c114_decimals (d o : Decimal) (n : Nat) (v : Int) (s : Nat) (b : List Bool) (t : List Char) :
    Agrees (mustDecimal v s b) (ofDecimal v s b) ∧ Agrees (mustStringToDecimal t) (stringToDecimal t) ∧
    Agrees (mustAdd d o) (d.add o) ∧ Agrees (mustSub d o) (d.sub o) ∧ Agrees (mustMul d o) (d.mul o) ∧
    Agrees (mustDivIntQuoRem d n) (d.divIntQuoRem n) ∧ Agrees (mustDivIntAdd d n) (d.divIntAdd n) ∧
    (∀ p, d.div o = some p → ∃ m, mustDiv d o = some m ∧ Agrees m p) ∧ (d.div o = none → mustDiv d o = none) := by
  refine ⟨c114_value _, c114_value _, c114_value _, c114_value _, c114_value _, c114_value _, c114_value _, ?_, ?_⟩
  · intro p h; exact ⟨_, by unfold mustDiv; rw [h]; rfl, c114_value p⟩
  · intro h; unfold mustDiv; rw [h]; rfl

example : mustAdd ⟨1, 0, false⟩ ⟨999999999999999999, 0, false⟩ = .panicked (some .overflow) ∧
    mustSub ⟨1, 0, false⟩ ⟨2, 0, false⟩ = .returned ⟨-1, 0, false⟩ := by decide

open Dec in
/-- C114: MustDecimal returns exactly for a scale of at most 18 and a value of at most 18 digits, and then the number that was meant. -/
theorem c114_mustDecimal (v : Int) (s : Nat) (b : List Bool) :
    ((∃ d, mustDecimal v s b = .returned d) ↔ s ≤ 18 ∧ -999999999999999999 ≤ v ∧ v ≤ 999999999999999999) ∧
    (∀ d, mustDecimal v s b = .returned d → d.num = (v : ℚ) / 10 ^ s) ∧
    (mustDecimal v s b = .panicked (some .scaleTooLarge) ↔ 18 < s) ∧ mustDecimal v s b ≠ .panicked none := by
  obtain ⟨h1, h2, h3⟩ := c114_value (ofDecimal v s b)
  have ha := c01_accepts v s b
  refine ⟨?_, ?_, ?_, ?_⟩
  · unfold mustDecimal
    simp only [h1]
    rw [ha.1]; unfold Fits; rfl
  · intro d h
    exact (c01_value v s b d ((h1 d).mp h)).1
  · unfold mustDecimal
    rw [h2, c01_errors]; simp
  · unfold mustDecimal
    intro h; exact ha.2 (h3.mp h)

open Dec in
/-- C114: MustAdd and MustSub return the exact result if it fits, and panic otherwise (with room at the common scale, as C07). -/
theorem c114_sum (d o : Decimal) (hd : d.Valid) (ho : o.Valid) (hr : Room d o) :
    (FitsAt (d.num + o.num) (max d.scale o.scale) → ∃ r, mustAdd d o = .returned r ∧ r.num = d.num + o.num) ∧
    (¬ FitsAt (d.num + o.num) (max d.scale o.scale) → mustAdd d o = .panicked (some .overflow) ∨ mustAdd d o = .panicked (some .underflow)) ∧
    (FitsAt (d.num - o.num) (max d.scale o.scale) → ∃ r, mustSub d o = .returned r ∧ r.num = d.num - o.num) ∧
    (¬ FitsAt (d.num - o.num) (max d.scale o.scale) → mustSub d o = .panicked (some .overflow) ∨ mustSub d o = .panicked (some .underflow)) := by
  obtain ⟨a1, a2⟩ := c07_add d o hd ho hr
  obtain ⟨s1, s2⟩ := c07_sub d o hd ho hr
  unfold mustAdd mustSub
  refine ⟨fun h => ?_, fun h => ?_, fun h => ?_, fun h => ?_⟩
  · obtain ⟨r, h1, h2, _⟩ := a1 h; exact ⟨r, by rw [h1]; rfl, h2⟩
  · rcases a2 h with ⟨_, h⟩ | ⟨_, h⟩ <;> rw [h] <;> simp [mustValue]
  · obtain ⟨r, h1, h2, _⟩ := s1 h; exact ⟨r, by rw [h1]; rfl, h2⟩
  · rcases s2 h with ⟨_, h⟩ | ⟨_, h⟩ <;> rw [h] <;> simp [mustValue]

example := c114_sum ⟨15, 1, false⟩ ⟨-225, 2, false⟩ (by decide) (by decide) Dec.room_case

open Dec in
/-- C114: MustAdjustDecimalScale ends as AdjustDecimalScale does, and leaves the same decimals. -/
theorem c114_adjust (d1 d2 : Decimal) :
    (mustAdjustDecimalScale d1 d2 = none ↔ adjustDecimalScale d1 d2 = none) ∧
    (∀ a b, mustAdjustDecimalScale d1 d2 = some (.returned (), a, b) ↔ adjustDecimalScale d1 d2 = some (none, a, b)) ∧
    (∀ e a b, mustAdjustDecimalScale d1 d2 = some (.panicked (some e), a, b) ↔ adjustDecimalScale d1 d2 = some (some e, a, b)) := by
  unfold mustAdjustDecimalScale
  rcases adjustDecimalScale d1 d2 with _ | ⟨_ | e, a, b⟩ <;> simp [must]

example : mustAdjustDecimalScale ⟨15, 1, false⟩ ⟨2, 1, false⟩ = some (.returned (), ⟨15, 1, false⟩, ⟨2, 1, false⟩) := by decide

/-! ### conv -/
open Conv

theorem mustConv_some {α : Type} (r : Res α) (a : α) : mustConv r = some a ↔ r = ⟨a, false⟩ := by
  rcases r with ⟨x, _ | _⟩ <;> simp [mustConv, must]

theorem mustConv_none {α : Type} (r : Res α) : mustConv r = none ↔ r.failed = true := by
  rcases r with ⟨x, _ | _⟩ <;> simp [mustConv, must]

/-- C114: an integer converted by a Must function arrives unchanged; the function panics exactly if the value is none of the target type. -/
theorem c114_integers (s t : Kind) (v cur : Int) (hv : s.InRange v) :
    (s.signed → t.signed → mustIntToInt s t v cur = if t.InRange v then some v else none) ∧
    (¬ s.signed → t.signed → mustUintToInt s t v cur = if t.InRange v then some v else none) ∧
    (s.signed → ¬ t.signed → mustIntToUint s t v cur = if t.InRange v then some v else none) ∧
    (¬ s.signed → ¬ t.signed → mustUintToUint s t v cur = if t.InRange v then some v else none) := by
  obtain ⟨h1, h2, h3, h4⟩ := c21_functions_exact s t v cur hv
  refine ⟨fun a b => ?_, fun a b => ?_, fun a b => ?_, fun a b => ?_⟩
  · unfold mustIntToInt; rw [h1 a b]; split <;> rfl
  · unfold mustUintToInt; rw [h2 a b]; split <;> rfl
  · unfold mustIntToUint; rw [h3 a b]; split <;> rfl
  · unfold mustUintToUint; rw [h4 a b]; split <;> rfl

example : Kind.int16.InRange 300 ∧ mustIntToUint .int16 .uint8 300 7 = none ∧ mustIntToUint .int16 .uint8 200 7 = some 200 := by decide

/-- C114: big integers to 64 bits. -/
theorem c114_bigInt (v cur : Int) :
    mustBigIntToInt64 v cur = (if Kind.int64.InRange v then some v else none) ∧
    mustBigIntToUint64 v cur = (if Kind.uint64.InRange v then some v else none) := by
  unfold mustBigIntToInt64 mustBigIntToUint64 bigIntToInt64 bigIntToUint64
  constructor <;> split <;> rfl

example : mustBigIntToUint64 (2 ^ 64) 0 = none ∧ mustBigIntToUint64 (2 ^ 64 - 1) 0 = some (2 ^ 64 - 1) := by decide

/-- C114: *big.Float and *big.Rat to 64 bits: the same number, a panic exactly if there is none. -/
theorem c114_big64 (q : ℚ) (cur i : Int) :
    (mustBigFloatToInt64 (.fin q) cur = some i ↔ q = i ∧ Kind.int64.InRange i) ∧
    (mustBigRatToInt64 q cur = some i ↔ q = i ∧ Kind.int64.InRange i) ∧
    (mustBigFloatToUint64 (.fin q) cur = some i ↔ q = i ∧ Kind.uint64.InRange i) ∧
    (mustBigRatToUint64 q cur = some i ↔ q = i ∧ Kind.uint64.InRange i) := by
  have key : ∀ (k : Kind) (r : Res Int), (∀ i : ℤ, q = i → k.InRange i → r = ⟨i, false⟩) →
      ((¬ ∃ i : ℤ, q = i ∧ k.InRange i) → r = ⟨cur, true⟩) → (mustConv r = some i ↔ q = i ∧ k.InRange i) := by
    intro k r h1 h2
    rw [mustConv_some]
    constructor
    · intro h
      by_cases hx : ∃ i : ℤ, q = i ∧ k.InRange i
      · obtain ⟨j, hj, hr⟩ := hx
        rw [h1 j hj hr] at h
        cases h; exact ⟨hj, hr⟩
      · rw [h2 hx] at h; simp at h
    · rintro ⟨h, hr⟩; exact h1 i h hr
  have f1 := c78_big64 q cur .int64 (.inl rfl) _ (.inl rfl)
  have f2 := c78_big64 q cur .int64 (.inl rfl) _ (.inr rfl)
  have f3 := c78_big64 q cur .uint64 (.inr rfl) _ (.inl rfl)
  have f4 := c78_big64 q cur .uint64 (.inr rfl) _ (.inr rfl)
  exact ⟨key _ _ f1.1 f1.2, key _ _ f2.1 f2.2, key _ _ f3.1 f3.2, key _ _ f4.1 f4.2⟩

example (cur : Int) : mustBigRatToInt64 (((-5 : Int) : ℚ)) cur = some (-5) := (c114_big64 _ cur (-5)).2.1.mpr ⟨rfl, by decide⟩

/-- C114: texts of integers: a text that spells a number of the type gives it, and every other text panics. -/
theorem c114_text (s : List Char) (cur v : Int) (c : Option Int) :
    (mustStringToInt64 s cur = some v ↔ Spells true s v ∧ Kind.int64.InRange v) ∧
    (mustStringToUint64 s cur = some v ↔ Spells false s v ∧ Kind.uint64.InRange v) ∧
    (mustStringToBigInt s c = some (some v) ↔ Spells true s v) ∧ mustStringToBigInt s c ≠ some none := by
  unfold mustStringToInt64 mustStringToUint64 mustStringToBigInt
  simp only [mustConv_some, ne_eq]
  refine ⟨stringToInt64_iff s v cur, stringToUint64_iff s v cur, (c95_bigInt s c).1 v, ?_⟩
  unfold stringToBigInt
  cases scanInt s <;> simp

example (cur : Int) : mustStringToInt64 "-12".toList cur = some (-12) :=
  (c114_text _ cur _ none).1.mpr ⟨⟨['1', '2'], by decide, by decide, .inr (.inr ⟨rfl, by decide, by decide⟩)⟩, by decide⟩

/-- C114: numbers to floats: exactly the numbers of the format pass, unchanged. -/
theorem c114_floats (f : Fmt) (hf : IsGo f) (q : ℚ) (i : Int) (x : Flt) :
    (mustBigFloatToFloat f (.fin q) = some x ↔ x = .fin q ∧ f.Has q) ∧
    (mustBigRatToFloat f q = some x ↔ x = .fin q ∧ f.Has q) ∧
    (mustBigIntToFloat f i = some x ↔ x = .fin i ∧ f.Has i) := by
  obtain ⟨h1, h2, h3, h4⟩ := c81_big f hf q i
  unfold mustBigFloatToFloat mustBigRatToFloat mustBigIntToFloat
  simp only [mustConv_some]
  have key : ∀ (P : Prop) (r : Res Flt) (y : Flt), (P → r = ⟨y, false⟩) → (¬ P → r.failed = true) → (r = ⟨x, false⟩ ↔ x = y ∧ P) := by
    intro P r y a b
    by_cases hP : P
    · rw [a hP]; simp [hP, eq_comm]
    · have := b hP
      constructor
      · intro h; rw [h] at this; simp at this
      · intro h; exact absurd h.2 hP
  exact ⟨key _ _ _ (fun h => (h1 h).1) (fun h => (h2 h).1), key _ _ _ (fun h => (h1 h).2) (fun h => (h2 h).2), key _ _ _ h3 h4⟩

/-- C114: a float64 to a float32: the nearest one, or a panic if it is too large or too small. -/
theorem c114_narrow (q : ℚ) (cur : Flt) :
    ((q = 0 ∨ float32.smallest ≤ |q|) ∧ |q| ≤ float32.max → ∃ r, mustFloatToFloat true (.fin q) cur = some (.fin r) ∧ float32.Nearest q r) ∧
    (¬ ((q = 0 ∨ float32.smallest ≤ |q|) ∧ |q| ≤ float32.max) → mustFloatToFloat true (.fin q) cur = none) := by
  obtain ⟨h1, h2⟩ := c80_narrow q cur
  unfold mustFloatToFloat
  constructor
  · intro h; obtain ⟨r, h3, h4⟩ := h1 h; exact ⟨r, (mustConv_some _ _).mpr h3, h4⟩
  · intro h; rw [mustConv_none, h2 h]

/-- C114: the other conversions: the target when the plain one succeeds, a panic when it fails. -/
theorem c114_convs (oor : Kind → ℚ → Int) (lib : TextLib) (f : Fmt) (k : Kind) (x y : Flt) (v i : Int) (q r : ℚ)
    (s : List Char) (c d : Option ℚ) (a b : Option Flt) (j : Int) (z : Flt) :
    (mustFloatToInt k x v = some j ↔ floatToInt k x v = ⟨j, false⟩) ∧ (mustFloatToInt k x v = none ↔ (floatToInt k x v).failed = true) ∧
    (mustFloatToUint k x v = some j ↔ floatToUint k x v = ⟨j, false⟩) ∧ (mustFloatToUint k x v = none ↔ (floatToUint k x v).failed = true) ∧
    (mustIntToFloat oor f k i q = some r ↔ intToFloat oor f k i q = ⟨r, false⟩) ∧
    (mustIntToFloat oor f k i q = none ↔ (intToFloat oor f k i q).failed = true) ∧
    (mustStringToFloat lib f s y = some z ↔ stringToFloat lib f s y = ⟨z, false⟩) ∧
    (mustStringToFloat lib f s y = none ↔ (stringToFloat lib f s y).failed = true) ∧
    (mustStringToBigRat lib s c = some d ↔ stringToBigRat lib s c = ⟨d, false⟩) ∧
    (mustStringToBigRat lib s c = none ↔ (stringToBigRat lib s c).failed = true) ∧
    (mustFloatStringToBigRat lib s c = some d ↔ floatStringToBigRat lib s c = ⟨d, false⟩) ∧
    (mustFloatStringToBigRat lib s c = none ↔ (floatStringToBigRat lib s c).failed = true) ∧
    (mustStringToBigFloat lib s a = some b ↔ stringToBigFloat lib s a = ⟨b, false⟩) ∧
    (mustStringToBigFloat lib s a = none ↔ (stringToBigFloat lib s a).failed = true) :=
  ⟨mustConv_some _ _, mustConv_none _, mustConv_some _ _, mustConv_none _, mustConv_some _ _, mustConv_none _, mustConv_some _ _,
    mustConv_none _, mustConv_some _ _, mustConv_none _, mustConv_some _ _, mustConv_none _, mustConv_some _ _, mustConv_none _⟩

/-! ### json and rest -/
open Json

/-- C114: MustParse always ends; it returns the value of a document with which the text begins, and panics exactly if there is none. -/
theorem c114_parse (fin : Iter.Err) (t : List Char) :
    (∃ m, mustParse fin t = some m ∧ m ≠ .panicked none) ∧
    (∀ v, mustParse fin t = some (.returned v) ↔ ∃ pre rest, t = pre ++ rest ∧ parse fin t = some (.ok (v, rest)) ∧ IsDoc code pre v) ∧
    (∀ e, mustParse fin t = some (.panicked (some e)) ↔ parse fin t = some (.error e)) := by
  obtain ⟨r, hr⟩ := c60_terminates fin t
  have h := c60_exact_partial fin t
  unfold mustParse
  refine ⟨?_, ?_, ?_⟩
  · rw [hr]; rcases r with e | ⟨v, rest⟩
    · exact ⟨_, rfl, by simp⟩
    · exact ⟨_, rfl, by simp⟩
  · intro v
    constructor
    · intro hv
      rw [hr] at hv
      rcases r with e | ⟨v', rest⟩
      · simp at hv
      · simp at hv; subst hv
        obtain ⟨pre, h1, h2⟩ := (h v' rest).mp hr
        exact ⟨pre, rest, h1, hr, h2⟩
    · rintro ⟨pre, rest, _, h2, _⟩
      rw [h2]; rfl
  · intro e
    rw [hr]; rcases r with e' | ⟨v, rest⟩ <;> simp

example : mustParse .eoi ['[', ']', 'x'] = some (.returned (.arr [])) := by
  unfold mustParse; rw [c60_trailing_refuted]; rfl

/-- C114: MustWrite writes what Write writes, to any writer, and panics with the error of the writer. -/
theorem c114_write {σ : Type} (w : W σ) (s s' : σ) (v : JVal) :
    (mustWrite w s v = (.returned (), s') ↔ writeTo w s v = (none, s')) ∧
    (∀ e, mustWrite w s v = (.panicked (some e), s') ↔ writeTo w s v = (some e, s')) := by
  unfold mustWrite
  rcases writeTo w s v with ⟨_ | e, x⟩ <;> simp [must]

/-- C114: the text MustWrite writes is read back by MustParse as the same value (if no string has to be escaped). -/
theorem c114_write_parse (v : JVal) (hc : Clean common v) (hd : v.isDocument = true) :
    ∃ text, mustWrite (fun (s : List Char) c => (none, s ++ c)) [] v = (.returned (), text) ∧ mustParse .eoi text = some (.returned v) := by
  obtain ⟨text, h1, h2⟩ := c69_roundtrip v hc hd
  refine ⟨text, (c114_write _ _ _ _).1.mpr h1, ?_⟩
  unfold mustParse; rw [h2]; rfl

/-- C114: MustHandle adds a valid registration at the end, and panics for every other one, leaving the handlers as they are. -/
theorem c114_handle {P H : Type} (compile : List Char → Option P) (c : Rest.HCall H) (hs : List (Rest.Reg P H)) :
    (∀ r, Rest.Valid compile c r → mustHandle compile c hs = (.returned (), hs ++ [r])) ∧
    ((¬ ∃ r, Rest.Valid compile c r) → ∃ e, mustHandle compile c hs = (.panicked (some e), hs)) := by
  obtain ⟨h1, h2⟩ := Rest.c65_handle compile c hs
  unfold mustHandle
  constructor
  · intro r hr; rw [h1 r hr]; rfl
  · intro h; obtain ⟨e, he⟩ := h2 h; exact ⟨e, by rw [he]; rfl⟩

example : mustHandle (fun _ => some ()) ⟨"GET".toList, "/a".toList, some 1⟩ ([] : List (Rest.Reg Unit Nat)) =
    (.returned (), [⟨"GET".toList, (), 1⟩]) := (c114_handle _ _ _).1 ⟨"GET".toList, (), 1⟩ ⟨by decide, by decide, rfl, rfl, rfl⟩

open Dec in
/-- C01: what Scale and Normalized return for the Decimal that OfDecimal returns: Normalized the flag that was given (true if none), Scale
the scale that was given if not normalized and not zero, and otherwise the least number of fractional digits the number can be written with. -/
theorem c01_accessors (v : Int) (s : Nat) (b : List Bool) (d : Decimal) (h : ofDecimal v s b = .ok d) :
    normalized d = b.head?.getD true ∧
    (b.head? = some false ∧ v ≠ 0 → scale d = s) ∧
    (b.head? ≠ some false ∨ v = 0 → ∀ t : Nat, scale d ≤ t ↔ ∃ u : Int, (v : ℚ) / 10 ^ s = (u : ℚ) / 10 ^ t) := by
  obtain ⟨h1, h2, h3, h4, h5, h6⟩ := c01_value v s b d h
  refine ⟨by unfold normalized; rw [h3]; simp, fun hb => (h6 hb).2, fun hb t => ?_⟩
  have hc : d.Canonical := h4 (by
    rcases hb with hb | hb
    · left
      cases hh : b.head? with
      | none => rfl
      | some x => cases x <;> simp_all
    · exact Or.inr hb)
  rw [← h1]
  unfold scale Decimal.num
  constructor
  · intro hle
    refine ⟨d.value * 10 ^ (t - d.scale), ?_⟩
    obtain ⟨k, rfl⟩ := Nat.exists_eq_add_of_le hle
    rw [Nat.add_sub_cancel_left]
    push_cast
    rw [pow_add, mul_div_mul_right _ _ (by positivity)]
  · rintro ⟨u, hu⟩
    by_contra hlt
    obtain ⟨k, hk⟩ := Nat.exists_eq_add_of_lt (Nat.lt_of_not_le hlt)
    rw [div_eq_div_iff (by positivity) (by positivity), hk, show t + k + 1 = t + (k + 1) from rfl, pow_add, mul_comm _ ((10 : ℚ) ^ t), mul_left_comm] at hu
    have hu' := mul_left_cancel₀ (by positivity) hu
    have hz : d.value = u * 10 ^ (k + 1) := by exact_mod_cast hu'
    unfold Decimal.Canonical at hc
    have h10 : (10 : Int) ∣ d.value := ⟨u * 10 ^ k, by rw [hz, pow_succ]; ring⟩
    obtain ⟨w, hw⟩ := h10
    rcases hc with hc | hc <;> omega

example : ∃ d, Dec.ofDecimal 1500 3 [] = .ok d ∧ normalized d = true ∧ scale d = 1 := ⟨_, rfl, by decide, by decide⟩

end Micro.Must
