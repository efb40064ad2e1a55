import Verif.Json.NumberTextProps
set_option linter.unusedSimpArgs false
/-
C140: Go values sent as JSON and read back: conversion to a Value, Write, Parse, and the conversions of the number texts together.
-/
namespace Micro.Json
open Micro Micro.Conv
open Micro.Iter (Err)

/-! ### Specification -/

/-- What the reader of a document finds in place of a Go value: the same structure with the same keys, strings and booleans, and, for a number, a text from
which conv.To gives the number back (for the integer types, *big.Int, float32 and float64; texts of *big.Float and *big.Rat have 10 digits, C134). For a floating point number To may also return an error, but not if the text has at most 15 runes. -/
inductive Recovered (lib : TextLib) (sd32 : ShortestDigits float32) (sd64 : ShortestDigits float64) : GoAny → JVal → Prop
  | nil : Recovered lib sd32 sd64 .nil .null
  | bool (b) : Recovered lib sd32 sd64 (.bool b) (.bool b)
  | str (s) : Recovered lib sd32 sd64 (.str s) (.str s)
  | numStr (s) : Recovered lib sd32 sd64 (.numStr s) (.num s)
  | int (k v ds) : (∀ cur, stringTo k ds cur = ⟨v, false⟩) → Recovered lib sd32 sd64 (.int k v) (.num ds)
  | num (t : NumText) :
      (∀ i cur, t.text = bigIntToString i → stringToBigInt t.text cur = ⟨some i, false⟩) →
      (∀ q cur, float64.Has q → t.text = floatToString sd64 (.fin q) →
        ((stringToFloat lib float64 t.text cur).failed = true ∨ stringToFloat lib float64 t.text cur = ⟨.fin q, false⟩) ∧
        (t.text.length ≤ 15 → stringToFloat lib float64 t.text cur = ⟨.fin q, false⟩)) →
      (∀ q cur, float32.Has q → t.text = floatToString sd32 (.fin q) →
        (stringToFloat lib float32 t.text cur).failed = true ∨ stringToFloat lib float32 t.text cur = ⟨.fin q, false⟩) →
      Recovered lib sd32 sd64 (.num t) (.num t.text)
  | map (kvs : List (List Char × GoAny)) (r : List (List Char × JVal)) : r.map Prod.fst = kvs.map Prod.fst →
      (∀ (i : Nat) kv j, kvs[i]? = some kv → r[i]? = some j → Recovered lib sd32 sd64 kv.2 j.2) → Recovered lib sd32 sd64 (.map kvs) (.obj r)
  | slice (vs : List GoAny) (r : List JVal) : r.length = vs.length →
      (∀ (i : Nat) a j, vs[i]? = some a → r[i]? = some j → Recovered lib sd32 sd64 a j) → Recovered lib sd32 sd64 (.slice vs) (.arr r)

/-! ### Lemmas -/

variable (lib : TextLib) (sd32 : ShortestDigits float32) (sd64 : ShortestDigits float64)

mutual
theorem toValue_recovered : ∀ (a : GoAny), CleanGo a → ∀ v, toValue a = .ok v → Recovered lib sd32 sd64 a v
  | .nil, _, v, h => by simp [toValue] at h; subst h; exact .nil
  | .bool b, _, v, h => by simp [toValue] at h; subst h; exact .bool b
  | .str s, _, v, h => by simp [toValue] at h; subst h; exact .str s
  | .numStr s, _, v, h => by
    simp only [toValue] at h
    split at h
    · simp at h; subst h; exact .numStr s
    · cases h
  | .namedStr _, hc, _, _ => by cases hc
  | .num t, _, v, h => by
    simp [toValue] at h
    subst h
    refine .num t (fun i cur hi => ?_) (fun q cur hq ht => ?_) (fun q cur hq ht => ?_)
    · rw [hi]; exact c95_bigInt_roundtrip i cur
    · rw [ht]; exact ⟨c134_float_partial lib float64 (Or.inr rfl) sd64 q hq cur, fun hl => c134_short lib sd64 q hq cur hl⟩
    · rw [ht]; exact c134_float_partial lib float32 (Or.inl rfl) sd32 q hq cur
  | .int k v, hc, w, h => by
    have hc : k.InRange v := by cases hc; assumption
    simp [toValue] at h
    subst h
    exact .int k v _ (fun cur => c22_round_trip k v cur hc)
  | .mapV _, hc, _, _ => by cases hc
  | .sliceV _, hc, _, _ => by cases hc
  | .other, hc, _, _ => by cases hc
  | .map kvs, hc, v, h => by
    have hc : ∀ kv ∈ kvs, CleanGo kv.2 := by cases hc; assumption
    simp only [toValue, mapToValue] at h
    cases hf : convFields kvs with
    | error e => rw [hf] at h; cases h
    | ok r =>
      rw [hf] at h
      simp at h
      subst h
      obtain ⟨h1, h2⟩ := convFields_recovered kvs hc r hf
      exact .map kvs r h1 h2
  | .slice vs, hc, v, h => by
    have hc : ∀ v ∈ vs, CleanGo v := by cases hc; assumption
    simp only [toValue, sliceToValue] at h
    cases hf : convElems vs with
    | error e => rw [hf] at h; cases h
    | ok r =>
      rw [hf] at h
      simp at h
      subst h
      obtain ⟨h1, h2⟩ := convElems_recovered vs hc r hf
      exact .slice vs r h1 h2

theorem convFields_recovered : ∀ (kvs : List (List Char × GoAny)), (∀ kv ∈ kvs, CleanGo kv.2) → ∀ r, convFields kvs = .ok r →
    r.map Prod.fst = kvs.map Prod.fst ∧ ∀ (i : Nat) kv j, kvs[i]? = some kv → r[i]? = some j → Recovered lib sd32 sd64 kv.2 j.2
  | [], _, r, h => by simp [convFields] at h; subst h; simp
  | (k, v) :: kvs, hc, r, h => by
    simp only [convFields] at h
    cases hv : toValue v with
    | error e => rw [hv] at h; cases h
    | ok jv =>
      rw [hv] at h
      cases hr : convFields kvs with
      | error e => rw [hr] at h; cases h
      | ok r' =>
        rw [hr] at h
        simp at h
        subst h
        have h1 := toValue_recovered v (hc (k, v) (by simp)) jv hv
        obtain ⟨h2, h3⟩ := convFields_recovered kvs (fun kv hk => hc kv (by simp [hk])) r' hr
        refine ⟨by simp [h2], fun i kv j e1 e2 => ?_⟩
        cases i with
        | zero =>
          simp only [List.getElem?_cons_zero, Option.some.injEq] at e1 e2
          subst e1 e2
          exact h1
        | succ i =>
          simp only [List.getElem?_cons_succ] at e1 e2
          exact h3 i kv j e1 e2

theorem convElems_recovered : ∀ (vs : List GoAny), (∀ v ∈ vs, CleanGo v) → ∀ r, convElems vs = .ok r →
    r.length = vs.length ∧ ∀ (i : Nat) a j, vs[i]? = some a → r[i]? = some j → Recovered lib sd32 sd64 a j
  | [], _, r, h => by simp [convElems] at h; subst h; simp
  | v :: vs, hc, r, h => by
    simp only [convElems] at h
    cases hv : toValue v with
    | error e => rw [hv] at h; cases h
    | ok jv =>
      rw [hv] at h
      cases hr : convElems vs with
      | error e => rw [hr] at h; cases h
      | ok r' =>
        rw [hr] at h
        simp at h
        subst h
        have h1 := toValue_recovered v (hc v (by simp)) jv hv
        obtain ⟨h2, h3⟩ := convElems_recovered vs (fun u hu => hc u (by simp [hu])) r' hr
        refine ⟨by simp [h2], fun i a j e1 e2 => ?_⟩
        cases i with
        | zero =>
          simp only [List.getElem?_cons_zero, Option.some.injEq] at e1 e2
          subst e1 e2
          exact h1
        | succ i =>
          simp only [List.getElem?_cons_succ] at e1 e2
          exact h3 i a j e1 e2
end

/-! ### C140 -/

/-- C140 (partial). A map or slice of Go values - strings and keys that need no escapes, numbers that are finite - becomes a Value; what Write
writes for it is a JSON document; Parse gives the Value back; and the Value has, everywhere, what was sent, numbers included. Missing: strings that need
escapes (C59), NaN and infinities (C103), and floats whose text has more than 15 runes, for which To may return an error (`c140_float_refuted`) - but never a
wrong number. -/
theorem c140_document_partial (fin : Err) (a : GoAny) (ha : (∃ kvs, a = .map kvs) ∨ ∃ vs, a = .slice vs) (h : CleanGo a) :
    ∃ v, toValue a = .ok v ∧ IsDoc rfc (written v) v ∧ parse fin (written v) = some (.ok (v, [])) ∧ Recovered lib sd32 sd64 a v := by
  obtain ⟨v, h1, h2, h3⟩ := c103_document_partial fin a ha h
  exact ⟨v, h1, h2, h3, toValue_recovered lib sd32 sd64 a h v h1⟩

/-- A JSON number without a capital E has the form of the texts that conv writes. -/
theorem numText_of {s : List Char} (h : NumLit rfc s) (hE : 'E' ∉ s) : ∃ t : NumText, t.text = s := by
  obtain ⟨neg, int, f, x, -, hf, hx, rfl⟩ := h
  rcases hx with rfl | ⟨c, sg, ds, hc, -, hd, -, rfl⟩
  · rcases hf with rfl | ⟨f', hf', -, rfl⟩
    · exact ⟨.dec neg int [] [], by simp [NumText.text]⟩
    · exact ⟨.dec neg int f' [], by simp [NumText.text, hf']⟩
  · rcases hc with rfl | rfl
    · rcases hf with rfl | ⟨f', hf', -, rfl⟩
      · by_cases hn : sg ++ ds = []
        · simp only [List.append_eq_nil_iff] at hn
          exfalso
          exact hd hn.2
        · exact ⟨.dec neg int [] (sg ++ ds), by simp only [NumText.text, hn, if_false, if_true]; simp⟩
      · by_cases hn : sg ++ ds = []
        · simp only [List.append_eq_nil_iff] at hn
          exfalso
          exact hd hn.2
        · exact ⟨.dec neg int f' (sg ++ ds), by simp only [NumText.text, hf', hn, if_false]; simp⟩
    · exact absurd (by simp) hE

/-- C140. Every finite float32 and float64 and every *big.Int meets the requirements of `c140_document_partial`. -/
theorem c140_numbers (q : ℚ) (i : Int) :
    (float64.Has q → ∃ t, t.text = floatToString sd64 (.fin q) ∧ CleanGo (.num t)) ∧
    (float32.Has q → ∃ t, t.text = floatToString sd32 (.fin q) ∧ CleanGo (.num t)) ∧
    (∃ t, t.text = bigIntToString i ∧ CleanGo (.num t)) := by
  have key : ∀ s, NumLit rfc s → 'E' ∉ s → ∃ t : NumText, t.text = s ∧ CleanGo (.num t) := by
    intro s hs hE
    obtain ⟨t, ht⟩ := numText_of hs hE
    exact ⟨t, ht, .num t (by rw [ht]; exact hs)⟩
  have hdec : ∀ s v, Decimal s v → 'E' ∉ s := by
    rintro s v ⟨sign, ip, fp, hd, -, hs, hf, -⟩ hm
    have hn : 'E' ∉ ip ++ fp := fun h => by have := hd _ h; revert this; decide
    simp only [List.mem_append, not_or] at hn
    have hsg : 'E' ∉ sign := by rcases hs with rfl | rfl | rfl <;> decide
    rcases hf with rfl | ⟨-, rfl⟩
    · simp [hn.1, hn.2, hsg] at hm
    · simp [hn.1, hsg] at hm
  refine ⟨fun hq => ?_, fun hq => ?_, ?_⟩
  · obtain ⟨v, hv, -⟩ := floatToString_decimal sd64 q hq
    exact key _ ((c134_json float64 sd64 q).1 hq) (hdec _ _ hv)
  · obtain ⟨v, hv, -⟩ := floatToString_decimal sd32 q hq
    exact key _ ((c134_json float32 sd32 q).1 hq) (hdec _ _ hv)
  · have h := (c134_json float64 sd64 (i : ℚ)).2.2.1
    have e : bigRatToNormalizedString (i : ℚ) = bigIntToString i := by
      unfold bigRatToNormalizedString bigIntToString
      rw [if_pos (by simp)]
      simp
    rw [e] at h
    refine key _ h ?_
    intro hm
    have hall : ∀ c ∈ bigIntToString i, isDigit c = true ∨ c = '-' := by
      intro c hc
      unfold bigIntToString formatInt at hc
      split at hc
      · rcases List.mem_cons.1 hc with rfl | hc
        · exact Or.inr rfl
        · exact Or.inl (natChars_digits _ c hc)
      · exact Or.inl (natChars_digits _ c hc)
    have := hall _ hm
    revert this
    decide

/-- C140, refuted for floats: the float64 0.1 + 0.2, whose text is 0.30000000000000004, is written and parsed, but its text cannot be converted back. -/
theorem c140_float_refuted (fin : Err) (q : ℚ) (hq : float64.Has q) (ht : floatToString sd64 (.fin q) = "0.30000000000000004".toList) (cur : Flt) :
    ∃ t ds, t.text = floatToString sd64 (.fin q) ∧ toValue (.map [("k".toList, .num t)]) = .ok (.obj [("k".toList, .num ds)]) ∧
      parse fin (written (.obj [("k".toList, .num ds)])) = some (.ok (.obj [("k".toList, .num ds)], [])) ∧
      (stringToFloat lib float64 ds cur).failed = true := by
  obtain ⟨t, h1, h2⟩ := (c140_numbers (exactDigits float32) sd64 q 0).1 hq
  have hc : CleanGo (.map [("k".toList, .num t)]) := by
    refine .map _ ?_ ?_ (by simp)
    · simp only [List.mem_singleton]; rintro kv rfl; show PlainStr "k".toList; unfold PlainStr; decide
    · simp only [List.mem_singleton]; rintro kv rfl; exact h2
  obtain ⟨v, h3, -, h4⟩ := c103_document_partial fin _ (Or.inl ⟨_, rfl⟩) hc
  have hv : toValue (.map [("k".toList, .num t)]) = .ok (.obj [("k".toList, .num t.text)]) := by simp [toValue, mapToValue, convFields]
  rw [hv] at h3
  simp only [Except.ok.injEq] at h3
  subst h3
  refine ⟨t, t.text, h1, hv, h4, ?_⟩
  rw [h1, ht]
  exact c96_float64_refuted lib cur

/-- A record with an integer, a short float and a list. -/
example : CleanGo (.map [("id".toList, .int .int64 (-9223372036854775808)), ("x".toList, .num (.dec false ['0'] ['5'] [])),
    ("tags".toList, .slice [.str "a b".toList, .nil, .bool true])]) := by
  refine .map _ ?_ ?_ (by decide)
  · simp only [List.mem_cons, List.not_mem_nil, or_false]
    rintro kv (rfl | rfl | rfl) <;> (unfold PlainStr; decide)
  · simp only [List.mem_cons, List.not_mem_nil, or_false]
    rintro kv (rfl | rfl | rfl)
    · exact .int _ _ (by decide)
    · exact .num _ ⟨false, ['0'], ['.', '5'], [], ⟨by simp, by unfold AllDigits; decide, by simp⟩, .inr ⟨['5'], by simp, by unfold AllDigits; decide, rfl⟩, .inl rfl, rfl⟩
    · refine .slice _ ?_
      simp only [List.mem_cons, List.not_mem_nil, or_false]
      rintro v (rfl | rfl | rfl)
      · exact .str _ (by unfold PlainStr; decide)
      · exact .nil
      · exact .bool _

end Micro.Json
