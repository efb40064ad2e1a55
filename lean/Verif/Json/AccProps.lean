import Verif.Json.AccModel
import Verif.Json.ValueProps
set_option linter.unusedSimpArgs false
/-
C103: which Go values become Values, and that these are JSON. C104: the accessors of a Value.
-/
namespace Micro.Json
open Micro Micro.Iter

/-! ### C103 -/

/-- A Go value that is a JSON value according to the documentation of MapToValue: nil, bool, string, NumberString with a number in it, numeric
types, map[string]any and []any of such values. -/
inductive Accepts : GoAny → Prop
  | nil : Accepts .nil
  | bool (b) : Accepts (.bool b)
  | str (s) : Accepts (.str s)
  | numStr (s) : (∃ a m b, s = a ++ m ++ b ∧ NumberRegex m) → Accepts (.numStr s)
  | num (t) : Accepts (.num t)
  | int (k v) : Accepts (.int k v)
  | map (kvs : List (List Char × GoAny)) : (∀ kv ∈ kvs, Accepts kv.2) → Accepts (.map kvs)
  | slice (vs) : (∀ v ∈ vs, Accepts v) → Accepts (.slice vs)

mutual
theorem toValue_ok : ∀ a : GoAny, (∃ v, toValue a = .ok v) ↔ Accepts a
  | .nil => ⟨fun _ => .nil, fun _ => ⟨.null, by simp [toValue]⟩⟩
  | .bool b => ⟨fun _ => .bool b, fun _ => ⟨.bool b, by simp [toValue]⟩⟩
  | .str s => ⟨fun _ => .str s, fun _ => ⟨.str s, by simp [toValue]⟩⟩
  | .numStr s => by
    rw [show Accepts (.numStr s) ↔ (∃ a m b, s = a ++ m ++ b ∧ NumberRegex m) from ⟨fun h => by cases h; assumption, .numStr s⟩, ← matchNumber_iff]
    simp only [toValue]
    by_cases h : matchNumber s = true <;> simp [h]
  | .namedStr s => ⟨fun ⟨v, h⟩ => by simp [toValue] at h, fun h => by cases h⟩
  | .num t => ⟨fun _ => .num t, fun _ => ⟨_, by simp [toValue]; rfl⟩⟩
  | .int k v => ⟨fun _ => .int k v, fun _ => ⟨_, by simp [toValue]; rfl⟩⟩
  | .mapV _ => ⟨fun ⟨v, h⟩ => by simp [toValue] at h, fun h => by cases h⟩
  | .sliceV _ => ⟨fun ⟨v, h⟩ => by simp [toValue] at h, fun h => by cases h⟩
  | .other => ⟨fun ⟨v, h⟩ => by simp [toValue] at h, fun h => by cases h⟩
  | .map kvs => by
    have := convFields_ok kvs
    rw [show Accepts (.map kvs) ↔ ∀ kv ∈ kvs, Accepts kv.2 from ⟨fun h => by cases h; assumption, .map kvs⟩, ← this]
    simp only [toValue, mapToValue]
    cases convFields kvs <;> simp
  | .slice vs => by
    have := convElems_ok vs
    rw [show Accepts (.slice vs) ↔ ∀ v ∈ vs, Accepts v from ⟨fun h => by cases h; assumption, .slice vs⟩, ← this]
    simp only [toValue, sliceToValue]
    cases convElems vs <;> simp

theorem convFields_ok : ∀ kvs : List (List Char × GoAny), (∃ r, convFields kvs = .ok r) ↔ ∀ kv ∈ kvs, Accepts kv.2
  | [] => by simp [convFields]
  | (k, v) :: kvs => by
    have h1 := toValue_ok v
    have h2 := convFields_ok kvs
    simp only [List.mem_cons, forall_eq_or_imp, ← h1, ← h2, convFields]
    cases toValue v with
    | error e => simp
    | ok jv => cases convFields kvs <;> simp

theorem convElems_ok : ∀ vs : List GoAny, (∃ r, convElems vs = .ok r) ↔ ∀ v ∈ vs, Accepts v
  | [] => by simp [convElems]
  | v :: vs => by
    have h1 := toValue_ok v
    have h2 := convElems_ok vs
    simp only [List.mem_cons, forall_eq_or_imp, ← h1, ← h2, convElems]
    cases toValue v with
    | error e => simp
    | ok jv => cases convElems vs <;> simp
end

/-- C103. ToValue, MapToValue and SliceToValue succeed exactly for the documented values, at any depth. -/
theorem c103_accepts (a : GoAny) : (∃ v, toValue a = .ok v) ↔ Accepts a := toValue_ok a

/-- C103 is violated: a value of a user defined string type makes MapToValue panic instead of returning an error. -/
theorem c103_panic_refuted (k s : List Char) : toValue (.map [(k, .namedStr s)]) = .error .panic := by
  simp [toValue, mapToValue, convFields]

/-- There is no value of a user defined string type in it. -/
inductive NoNamed : GoAny → Prop
  | nil : NoNamed .nil
  | bool (b) : NoNamed (.bool b)
  | str (s) : NoNamed (.str s)
  | numStr (s) : NoNamed (.numStr s)
  | num (t) : NoNamed (.num t)
  | int (k v) : NoNamed (.int k v)
  | map (kvs : List (List Char × GoAny)) : (∀ kv ∈ kvs, NoNamed kv.2) → NoNamed (.map kvs)
  | slice (vs) : (∀ v ∈ vs, NoNamed v) → NoNamed (.slice vs)
  | mapV (kvs) : NoNamed (.mapV kvs)
  | sliceV (vs) : NoNamed (.sliceV vs)
  | other : NoNamed .other

mutual
theorem toValue_noPanic : ∀ a : GoAny, NoNamed a → toValue a ≠ .error .panic
  | .nil, _ => by simp [toValue]
  | .bool _, _ => by simp [toValue]
  | .str _, _ => by simp [toValue]
  | .numStr s, _ => by simp only [toValue]; split <;> simp
  | .namedStr _, h => by cases h
  | .num _, _ => by simp [toValue]
  | .int _ _, _ => by simp [toValue]
  | .mapV _, _ => by simp [toValue]
  | .sliceV _, _ => by simp [toValue]
  | .other, _ => by simp [toValue]
  | .map kvs, h => by
    have : ∀ kv ∈ kvs, NoNamed kv.2 := by cases h; assumption
    have := convFields_noPanic kvs this
    simp only [toValue, mapToValue]
    cases hc : convFields kvs with
    | ok r => simp
    | error e => rw [hc] at this; simpa using this
  | .slice vs, h => by
    have : ∀ v ∈ vs, NoNamed v := by cases h; assumption
    have := convElems_noPanic vs this
    simp only [toValue, sliceToValue]
    cases hc : convElems vs with
    | ok r => simp
    | error e => rw [hc] at this; simpa using this

theorem convFields_noPanic : ∀ kvs : List (List Char × GoAny), (∀ kv ∈ kvs, NoNamed kv.2) → convFields kvs ≠ .error .panic
  | [], _ => by simp [convFields]
  | (k, v) :: kvs, h => by
    have h1 := toValue_noPanic v (h (k, v) (by simp))
    have h2 := convFields_noPanic kvs (fun kv hk => h kv (by simp [hk]))
    simp only [convFields]
    cases hv : toValue v with
    | error e => rw [hv] at h1; simpa using h1
    | ok jv =>
      cases hc : convFields kvs with
      | ok r => simp
      | error e => rw [hc] at h2; simpa using h2

theorem convElems_noPanic : ∀ vs : List GoAny, (∀ v ∈ vs, NoNamed v) → convElems vs ≠ .error .panic
  | [], _ => by simp [convElems]
  | v :: vs, h => by
    have h1 := toValue_noPanic v (h v (by simp))
    have h2 := convElems_noPanic vs (fun u hu => h u (by simp [hu]))
    simp only [convElems]
    cases hv : toValue v with
    | error e => rw [hv] at h1; simpa using h1
    | ok jv =>
      cases hc : convElems vs with
      | ok r => simp
      | error e => rw [hc] at h2; simpa using h2
end

/-- C103 (partial): a value that is not accepted is a returned error, provided no user defined string type occurs in it. Missing: those
(`c103_panic_refuted`). -/
theorem c103_error_partial (a : GoAny) (hn : NoNamed a) (ha : ¬ Accepts a) : ∃ e, e ≠ .panic ∧ toValue a = .error e := by
  have h1 := mt (c103_accepts a).mp ha
  have h2 := toValue_noPanic a hn
  cases h : toValue a with
  | ok v => exact absurd ⟨v, h⟩ h1
  | error e => exact ⟨e, by rintro rfl; exact h2 h, rfl⟩

example : NoNamed (.map [(['k'], .other)]) ∧ ¬ Accepts (.map [(['k'], .other)]) := by
  refine ⟨.map _ (by simp only [List.mem_singleton]; rintro kv rfl; exact .other), ?_⟩
  intro h
  have : ∀ kv ∈ [((['k'] : List Char), GoAny.other)], Accepts kv.2 := by cases h; assumption
  have := this (['k'], .other) (by simp)
  cases this

/-- C103 is violated: a float NaN (or an infinity) is accepted and becomes a Value of type Number whose text is no JSON number, so that the
document written is not JSON. -/
theorem c103_number_refuted : toValue (.slice [.num .nan]) = .ok (.arr [.num "NaN".toList]) ∧
    written (.arr [.num "NaN".toList]) = "[NaN]".toList ∧ ¬ NumLit rfc "NaN".toList ∧ ¬ NumLit code "NaN".toList ∧
    ∃ e, parse .eoi "[NaN]".toList = some (.error e) := by
  refine ⟨by simp [toValue, sliceToValue, convElems, NumText.text], by simp [written, writeChunks, writeElems], ?_, ?_, ?_⟩
  · intro h
    obtain ⟨c, t, h1, h2⟩ := numLit_head h
    have : c = 'N' := by have := congrArg List.head? h1; simpa using this.symm
    subst this
    rcases h2 with h2 | h2
    · cases h2
    · revert h2; decide
  · intro h
    obtain ⟨c, t, h1, h2⟩ := numLit_head h
    have : c = 'N' := by have := congrArg List.head? h1; simpa using this.symm
    subst this
    rcases h2 with h2 | h2
    · cases h2
    · revert h2; decide
  · refine ⟨eInvalidChar, ?_⟩
    have h1 : lex .eoi "[NaN]".toList = .ok (.oBracket, "NaN]".toList) := by decide
    have h2 : lex .eoi "NaN]".toList = .error eInvalidChar := by decide
    simp only [parse, h1]
    rw [if_pos (by simp), parseValue]
    rw [parseArrFirst, h2]
    rfl

/-- A Go value made of the JSON types with plain strings (which need no escapes), numbers that are numbers, and maps (distinct keys). -/
inductive CleanGo : GoAny → Prop
  | nil : CleanGo .nil
  | bool (b) : CleanGo (.bool b)
  | str (s) : PlainStr s → CleanGo (.str s)
  | numStr (s) : NumLit rfc s → CleanGo (.numStr s)
  | num (t : NumText) : NumLit rfc t.text → CleanGo (.num t)
  | int (k v) : k.InRange v → CleanGo (.int k v)
  | map (kvs : List (List Char × GoAny)) : (∀ kv ∈ kvs, PlainStr kv.1) → (∀ kv ∈ kvs, CleanGo kv.2) → (kvs.map Prod.fst).Nodup →
      CleanGo (.map kvs)
  | slice (vs) : (∀ v ∈ vs, CleanGo v) → CleanGo (.slice vs)

theorem numLit_match {m : Mode} {s : List Char} (h : NumLit m s) : matchNumber s = true := by
  obtain ⟨neg, int, f, x, ⟨h1, h2, -⟩, -, -, rfl⟩ := h
  cases int with
  | nil => exact absurd rfl h1
  | cons c t =>
    have := h2 c (by simp)
    simp [matchNumber, this]

mutual
theorem toValue_clean : ∀ a : GoAny, CleanGo a → ∃ v, toValue a = .ok v ∧ Clean rfc v
  | .nil, _ => ⟨.null, by simp [toValue], .null⟩
  | .bool b, _ => ⟨.bool b, by simp [toValue], .bool b⟩
  | .str s, h => ⟨.str s, by simp [toValue], .str s (by cases h; assumption)⟩
  | .numStr s, h => by
    have h : NumLit rfc s := by cases h; assumption
    exact ⟨.num s, by simp [toValue, numLit_match h], .num s h⟩
  | .namedStr _, h => by cases h
  | .num t, h => by
    have h : NumLit rfc t.text := by cases h; assumption
    exact ⟨.num t.text, by simp [toValue], .num _ h⟩
  | .int k v, h => by
    have h : k.InRange v := by cases h; assumption
    obtain ⟨ds, h1, -, h2⟩ := c63_integer k v h
    exact ⟨_, h1, .num _ (numLit_mono (by decide) h2)⟩
  | .mapV _, h => by cases h
  | .sliceV _, h => by cases h
  | .other, h => by cases h
  | .map kvs, h => by
    have h : (∀ kv ∈ kvs, PlainStr kv.1) ∧ (∀ kv ∈ kvs, CleanGo kv.2) ∧ (kvs.map Prod.fst).Nodup := by cases h; exact ⟨‹_›, ‹_›, ‹_›⟩
    obtain ⟨r, h1, h2, h3⟩ := convFields_clean kvs h.2.1
    refine ⟨.obj r, by simp [toValue, mapToValue, h1], .obj r ?_ h3 (h2 ▸ h.2.2)⟩
    intro kv hkv
    have : kv.1 ∈ kvs.map Prod.fst := by rw [← h2]; exact List.mem_map_of_mem hkv
    obtain ⟨kv', h4, h5⟩ := List.mem_map.mp this
    exact h5 ▸ h.1 kv' h4
  | .slice vs, h => by
    have h : ∀ v ∈ vs, CleanGo v := by cases h; assumption
    obtain ⟨r, h1, h2⟩ := convElems_clean vs h
    exact ⟨.arr r, by simp [toValue, sliceToValue, h1], .arr r h2⟩

theorem convFields_clean : ∀ kvs : List (List Char × GoAny), (∀ kv ∈ kvs, CleanGo kv.2) →
    ∃ r, convFields kvs = .ok r ∧ r.map Prod.fst = kvs.map Prod.fst ∧ ∀ kv ∈ r, Clean rfc kv.2
  | [], _ => ⟨[], by simp [convFields], rfl, by simp⟩
  | (k, v) :: kvs, h => by
    obtain ⟨jv, h1, h2⟩ := toValue_clean v (h (k, v) (by simp))
    obtain ⟨r, h3, h4, h5⟩ := convFields_clean kvs (fun kv hk => h kv (by simp [hk]))
    refine ⟨(k, jv) :: r, by simp [convFields, h1, h3], by simp [h4], ?_⟩
    intro kv hkv
    rcases List.mem_cons.mp hkv with rfl | hkv
    · exact h2
    · exact h5 kv hkv

theorem convElems_clean : ∀ vs : List GoAny, (∀ v ∈ vs, CleanGo v) → ∃ r, convElems vs = .ok r ∧ ∀ v ∈ r, Clean rfc v
  | [], _ => ⟨[], by simp [convElems], by simp⟩
  | v :: vs, h => by
    obtain ⟨jv, h1, h2⟩ := toValue_clean v (h v (by simp))
    obtain ⟨r, h3, h5⟩ := convElems_clean vs (fun u hu => h u (by simp [hu]))
    refine ⟨jv :: r, by simp [convElems, h1, h3], ?_⟩
    intro u hu
    rcases List.mem_cons.mp hu with rfl | hu
    · exact h2
    · exact h5 u hu
end

theorem toValue_doc {a : GoAny} {v : JVal} (h : toValue a = .ok v) (ha : (∃ kvs, a = .map kvs) ∨ ∃ vs, a = .slice vs) :
    v.isDocument = true := by
  rcases ha with ⟨kvs, rfl⟩ | ⟨vs, rfl⟩
  · simp only [toValue, mapToValue] at h
    cases hc : convFields kvs <;> rw [hc] at h
    · simp at h
    · simp at h; subst h; rfl
  · simp only [toValue, sliceToValue] at h
    cases hc : convElems vs <;> rw [hc] at h
    · simp at h
    · simp at h; subst h; rfl

theorem clean_common_code {v : JVal} (h : Clean rfc v) : Clean code v := by
  induction h with
  | null => exact .null
  | bool b => exact .bool b
  | num s h => exact .num s (numLit_mono (by decide) h)
  | str s h => exact .str s h
  | arr vs _ ih => exact .arr vs ih
  | obj kvs h1 _ h3 ih => exact .obj kvs h1 ih h3

/-- C103 (partial): a map[string]any or []any made of such values becomes a Value, the text written for this Value is a JSON document that
denotes it, and Parse gives the Value back. Missing: strings that need escapes (C59), and NaN and infinities (`c103_number_refuted`). -/
theorem c103_document_partial (fin : Err) (a : GoAny) (ha : (∃ kvs, a = .map kvs) ∨ ∃ vs, a = .slice vs) (h : CleanGo a) :
    ∃ v, toValue a = .ok v ∧ IsDoc rfc (written v) v ∧ parse fin (written v) = some (.ok (v, [])) := by
  obtain ⟨v, h1, h2⟩ := toValue_clean a h
  have hd := toValue_doc h1 ha
  refine ⟨v, h1, c59_text_partial v hd h2, ?_⟩
  have := c59_roundtrip_partial fin v hd (clean_common_code h2) []
  simpa using this

example : CleanGo (.map [("k".toList, .slice [.nil, .int .int8 (-5), .num (.dec true ['1'] ['5'] ['+', '2', '0']), .str ['x']])]) := by
  refine .map _ ?_ ?_ (by simp)
  · simp only [List.mem_singleton]; rintro kv rfl; unfold PlainStr; decide
  · simp only [List.mem_singleton]; rintro kv rfl
    refine .slice _ ?_
    simp only [List.mem_cons, List.not_mem_nil, or_false]
    rintro v (rfl | rfl | rfl | rfl)
    · exact .nil
    · exact .int _ _ (by decide)
    · exact .num _ ⟨true, ['1'], ['.', '5'], ['e', '+', '2', '0'], ⟨by simp, by unfold AllDigits; decide, by simp⟩,
        .inr ⟨['5'], by simp, by unfold AllDigits; decide, rfl⟩,
        .inr ⟨'e', ['+'], ['2', '0'], .inl rfl, .inr (.inl rfl), by simp, by unfold AllDigits; decide, by simp⟩, rfl⟩
    · exact .str _ (by unfold PlainStr; decide)

/-! ### C104 -/

/-- C104. What each accessor returns, and that it panics (`none`) exactly for the other types. -/
theorem c104_accessors (v : JVal) :
    (∀ kvs, v.asMap = some kvs ↔ v = .obj kvs) ∧ (v.asMap = none ↔ v.type ≠ .object) ∧
    (∀ vs, v.asSlice = some vs ↔ v = .arr vs) ∧ (v.asSlice = none ↔ v.type ≠ .array) ∧
    (∀ s, v.asNumber = some s ↔ v = .num s) ∧ (v.asNumber = none ↔ v.type ≠ .number) ∧
    (∀ b, v.asBool = some b ↔ v = .bool b) ∧ (v.asBool = none ↔ v.type ≠ .boolean) ∧
    (∀ s, v.asString = some s ↔ v = .str s ∨ v = .num s ∨ (v = .bool true ∧ s = "true".toList) ∨ (v = .bool false ∧ s = "false".toList)) ∧
    (v.asString = none ↔ v.type ≠ .string ∧ v.type ≠ .number ∧ v.type ≠ .boolean) ∧
    (v.isNull = true ↔ v = .null) ∧ (v.isDoc = true ↔ (∃ kvs, v = .obj kvs) ∨ ∃ vs, v = .arr vs) := by
  cases v with
  | bool b => cases b <;> simp [JVal.asMap, JVal.asSlice, JVal.asNumber, JVal.asBool, JVal.asString, JVal.isNull, JVal.isDoc, JVal.type, eq_comm]
  | _ => simp [JVal.asMap, JVal.asSlice, JVal.asNumber, JVal.asBool, JVal.asString, JVal.isNull, JVal.isDoc, JVal.type, eq_comm]

theorem anyFields_map : ∀ kvs : List (List Char × JVal), anyFields kvs = kvs.map fun kv => (kv.1, toAny kv.2)
  | [] => by simp [anyFields]
  | (k, v) :: kvs => by simp [anyFields, anyFields_map kvs]

theorem anyElems_map : ∀ vs : List JVal, anyElems vs = vs.map toAny
  | [] => by simp [anyElems]
  | v :: vs => by simp [anyElems, anyElems_map vs]

/-- C104. ToMap and ToSlice convert every entry with ToAny, under its key or at its position, and panic for the other types. -/
theorem c104_toMap (v : JVal) :
    (v.toMap = none ↔ v.type ≠ .object) ∧ (∀ kvs, v = .obj kvs → v.toMap = some (kvs.map fun kv => (kv.1, toAny kv.2))) ∧
    (v.toSlice = none ↔ v.type ≠ .array) ∧ (∀ vs, v = .arr vs → v.toSlice = some (vs.map toAny)) := by
  refine ⟨?_, ?_, ?_, ?_⟩
  · cases v <;> simp [JVal.toMap, JVal.type]
  · rintro kvs rfl; simp [JVal.toMap, anyFields_map]
  · cases v <;> simp [JVal.toSlice, JVal.type]
  · rintro vs rfl; simp [JVal.toSlice, anyElems_map]

/-- C104. The constructors and the accessors are inverse to each other. -/
theorem c104_constructors (s : List Char) (b : Bool) (kvs : List (List Char × JVal)) (vs : List JVal) :
    (stringToValue s).type = .string ∧ (stringToValue s).asString = some s ∧
    (boolToValue b).type = .boolean ∧ (boolToValue b).asBool = some b ∧
    (mapVToValue kvs).type = .object ∧ (mapVToValue kvs).asMap = some kvs ∧
    (sliceVToValue vs).type = .array ∧ (sliceVToValue vs).asSlice = some vs := by
  cases b <;> simp [stringToValue, boolToValue, mapVToValue, sliceVToValue, JVal.type, JVal.asString, JVal.asBool, JVal.asMap, JVal.asSlice]

/-- C104. The Must versions return what the plain version returns, and panic exactly when it does not return a Value. -/
theorem c104_must (a : GoAny) : (∀ v, mustToValue a = some v ↔ toValue a = .ok v) ∧ (mustToValue a = none ↔ ¬ Accepts a) := by
  rw [← c103_accepts]
  unfold mustToValue
  cases toValue a <;> simp

/-- C104. Types of valid Values have different names, and only the type of the zero Value has none. -/
theorem c104_names (t u : JType) : (t.str = u.str ↔ t = u) ∧ (t.str = "" ↔ t = .invalid) := by
  cases t <;> cases u <;> decide

end Micro.Json
