import Verif.Json.AccProps
import Verif.Json.RoundProps
set_option linter.unusedSimpArgs false
/-
C103, exactly: which error ToValue gives for which value, and which values survive ToValue, Write and Parse.
-/
namespace Micro.Json
open Micro Micro.Iter

/-- The first thing that is no JSON value, in the order of the elements of a slice and of the iteration over a map, and what comes of it: a NumberString without a number, a
value of some other type, or one of a user defined string type. -/
inductive FirstBad : GoAny → VErr → Prop
  | numStr (s) : (¬ ∃ a m b, s = a ++ m ++ b ∧ NumberRegex m) → FirstBad (.numStr s) .notNumber
  | named (s) : FirstBad (.namedStr s) .panic
  | mapV (kvs) : FirstBad (.mapV kvs) .invalidType
  | sliceV (vs) : FirstBad (.sliceV vs) .invalidType
  | other : FirstBad .other .invalidType
  | map (pre post : List (List Char × GoAny)) (k v e) : (∀ kv ∈ pre, Accepts kv.2) → FirstBad v e → FirstBad (.map (pre ++ (k, v) :: post)) e
  | slice (pre post : List GoAny) (v e) : (∀ u ∈ pre, Accepts u) → FirstBad v e → FirstBad (.slice (pre ++ v :: post)) e

theorem convElems_pre (pre post : List GoAny) (v : GoAny) (e : VErr) (hp : ∀ u ∈ pre, Accepts u) (h : toValue v = .error e) :
    convElems (pre ++ v :: post) = .error e := by
  induction pre with
  | nil => simp [convElems, h]
  | cons u pre ih =>
    obtain ⟨j, hj⟩ := (toValue_ok u).2 (hp u (by simp))
    simp [convElems, hj, ih (fun x hx => hp x (by simp [hx]))]

theorem convFields_pre (pre post : List (List Char × GoAny)) (k : List Char) (v : GoAny) (e : VErr) (hp : ∀ u ∈ pre, Accepts u.2)
    (h : toValue v = .error e) : convFields (pre ++ (k, v) :: post) = .error e := by
  induction pre with
  | nil => simp [convFields, h]
  | cons u pre ih =>
    obtain ⟨k', u⟩ := u
    obtain ⟨j, hj⟩ := (toValue_ok u).2 (hp (k', u) (by simp))
    simp [convFields, hj, ih (fun x hx => hp x (by simp [hx]))]

mutual
theorem toValue_bad : ∀ (a : GoAny) (e : VErr), toValue a = .error e → FirstBad a e
  | .nil, e, h => by simp [toValue] at h
  | .bool b, e, h => by simp [toValue] at h
  | .str s, e, h => by simp [toValue] at h
  | .numStr s, e, h => by
    simp only [toValue] at h
    by_cases hm : matchNumber s = true
    · simp [hm] at h
    · simp [hm] at h
      subst h
      exact .numStr s (by rw [← matchNumber_iff]; exact hm)
  | .namedStr s, e, h => by simp [toValue] at h; subst h; exact .named s
  | .num t, e, h => by simp [toValue] at h
  | .int k v, e, h => by simp [toValue] at h
  | .mapV _, e, h => by simp [toValue] at h; subst h; exact .mapV _
  | .sliceV _, e, h => by simp [toValue] at h; subst h; exact .sliceV _
  | .other, e, h => by simp [toValue] at h; subst h; exact .other
  | .map kvs, e, h => by
    simp only [toValue, mapToValue] at h
    cases hc : convFields kvs with
    | ok r => rw [hc] at h; simp at h
    | error e' =>
      rw [hc] at h
      simp at h
      subst h
      obtain ⟨pre, k, v, post, rfl, h1, h2⟩ := convFields_bad kvs e' hc
      exact .map pre post k v e' h1 h2
  | .slice vs, e, h => by
    simp only [toValue, sliceToValue] at h
    cases hc : convElems vs with
    | ok r => rw [hc] at h; simp at h
    | error e' =>
      rw [hc] at h
      simp at h
      subst h
      obtain ⟨pre, v, post, rfl, h1, h2⟩ := convElems_bad vs e' hc
      exact .slice pre post v e' h1 h2

theorem convFields_bad : ∀ (kvs : List (List Char × GoAny)) (e : VErr), convFields kvs = .error e →
    ∃ pre k v post, kvs = pre ++ (k, v) :: post ∧ (∀ u ∈ pre, Accepts u.2) ∧ FirstBad v e
  | [], e, h => by simp [convFields] at h
  | (k, v) :: kvs, e, h => by
    simp only [convFields] at h
    cases hv : toValue v with
    | error e' =>
      rw [hv] at h
      simp at h
      subst h
      exact ⟨[], k, v, kvs, rfl, by simp, toValue_bad v e' hv⟩
    | ok j =>
      rw [hv] at h
      simp only at h
      cases hc : convFields kvs with
      | ok r => rw [hc] at h; simp at h
      | error e' =>
        rw [hc] at h
        simp at h
        subst h
        obtain ⟨pre, k', v', post, he, h1, h2⟩ := convFields_bad kvs e' hc
        refine ⟨(k, v) :: pre, k', v', post, by rw [he]; rfl, ?_, h2⟩
        intro u hu
        rcases List.mem_cons.mp hu with rfl | hu
        · exact (toValue_ok v).1 ⟨j, hv⟩
        · exact h1 u hu

theorem convElems_bad : ∀ (vs : List GoAny) (e : VErr), convElems vs = .error e →
    ∃ pre v post, vs = pre ++ v :: post ∧ (∀ u ∈ pre, Accepts u) ∧ FirstBad v e
  | [], e, h => by simp [convElems] at h
  | v :: vs, e, h => by
    simp only [convElems] at h
    cases hv : toValue v with
    | error e' =>
      rw [hv] at h
      simp at h
      subst h
      exact ⟨[], v, vs, rfl, by simp, toValue_bad v e' hv⟩
    | ok j =>
      rw [hv] at h
      simp only at h
      cases hc : convElems vs with
      | ok r => rw [hc] at h; simp at h
      | error e' =>
        rw [hc] at h
        simp at h
        subst h
        obtain ⟨pre, v', post, he, h1, h2⟩ := convElems_bad vs e' hc
        refine ⟨v :: pre, v', post, by rw [he]; rfl, ?_, h2⟩
        intro u hu
        rcases List.mem_cons.mp hu with rfl | hu
        · exact (toValue_ok _).1 ⟨j, hv⟩
        · exact h1 u hu
end

/-- C103, exactly: ToValue ends with an error or a panic if and only if there is something in the value that is no JSON value, and it is the first such thing that decides
which; it is a panic exactly if that is of a user defined string type. -/
theorem c103_error_iff (a : GoAny) (e : VErr) : toValue a = .error e ↔ FirstBad a e := by
  refine ⟨toValue_bad a e, fun h => ?_⟩
  induction h with
  | numStr s h => rw [← matchNumber_iff] at h; simp [toValue, h]
  | named s => simp [toValue]
  | mapV kvs => simp [toValue]
  | sliceV vs => simp [toValue]
  | other => simp [toValue]
  | map pre post k v e hp _ ih => simp [toValue, mapToValue, convFields_pre pre post k v e hp ih]
  | slice pre post v e hp _ ih => simp [toValue, sliceToValue, convElems_pre pre post v e hp ih]

example (s : List Char) : FirstBad (.slice [.nil, .map [(['k'], .namedStr s)], .other]) .panic :=
  .slice [.nil] [.other] _ _ (by intro u hu; simp at hu; subst hu; exact .nil) (.map [] [] _ _ _ (by simp) (.named s))

/-- The Go values that survive: no string or key has a quotation mark, a backslash or a control character, and all number texts are JSON numbers, or the ones with leading
zeros Parse takes too (C62). Integers are always fine. -/
inductive BackGo : GoAny → Prop
  | nil : BackGo .nil
  | bool (b) : BackGo (.bool b)
  | str (s) : PlainStr s → BackGo (.str s)
  | numStr (s) : NumLit code s → BackGo (.numStr s)
  | num (t : NumText) : NumLit code t.text → BackGo (.num t)
  | int (k v) : BackGo (.int k v)
  | map (kvs : List (List Char × GoAny)) : (∀ kv ∈ kvs, PlainStr kv.1) → (∀ kv ∈ kvs, BackGo kv.2) → (kvs.map Prod.fst).Nodup → BackGo (.map kvs)
  | slice (vs) : (∀ v ∈ vs, BackGo v) → BackGo (.slice vs)

/-- The text of any integer is a JSON number. -/
theorem int_numLit (k : Kind) (v : Int) (h : k.InRange v) : NumLit code (Conv.integerToString k v) := by
  obtain ⟨j, h1, h2⟩ := toValue_clean (.int k v) (.int k v h)
  simp only [toValue, Except.ok.injEq] at h1
  subst h1
  have := clean_common_code h2
  cases this
  assumption

/-- All integers in it are values of their types, as they are in Go. -/
inductive IntsOk : GoAny → Prop
  | nil : IntsOk .nil
  | bool (b) : IntsOk (.bool b)
  | str (s) : IntsOk (.str s)
  | numStr (s) : IntsOk (.numStr s)
  | namedStr (s) : IntsOk (.namedStr s)
  | num (t) : IntsOk (.num t)
  | int (k v) : k.InRange v → IntsOk (.int k v)
  | map (kvs : List (List Char × GoAny)) : (∀ kv ∈ kvs, IntsOk kv.2) → IntsOk (.map kvs)
  | slice (vs) : (∀ v ∈ vs, IntsOk v) → IntsOk (.slice vs)
  | mapV (kvs) : IntsOk (.mapV kvs)
  | sliceV (vs) : IntsOk (.sliceV vs)
  | other : IntsOk .other

mutual
theorem toValue_back : ∀ (a : GoAny) (v : JVal), IntsOk a → toValue a = .ok v → NoInvalid v ∧ (Clean code v ↔ BackGo a)
  | .nil, v, _, h => by simp [toValue] at h; subst h; exact ⟨.null, fun _ => .nil, fun _ => .null⟩
  | .bool b, v, _, h => by simp [toValue] at h; subst h; exact ⟨.bool b, fun _ => .bool b, fun _ => .bool b⟩
  | .str s, v, _, h => by
    simp [toValue] at h; subst h
    exact ⟨.str s, fun h => by cases h; exact .str s ‹_›, fun h => by cases h; exact .str s ‹_›⟩
  | .numStr s, v, _, h => by
    simp only [toValue] at h
    by_cases hm : matchNumber s = true
    · simp [hm] at h; subst h
      exact ⟨.num s, fun h => by cases h; exact .numStr s ‹_›, fun h => by cases h; exact .num s ‹_›⟩
    · simp [hm] at h
  | .namedStr s, v, _, h => by simp [toValue] at h
  | .num t, v, _, h => by
    simp [toValue] at h; subst h
    exact ⟨.num _, fun h => by cases h; exact .num t ‹_›, fun h => by cases h; exact .num _ ‹_›⟩
  | .int k x, v, hi, h => by
    simp [toValue] at h; subst h
    have hx : k.InRange x := by cases hi; assumption
    exact ⟨.num _, fun _ => .int k x, fun _ => .num _ (int_numLit k x hx)⟩
  | .mapV _, v, _, h => by simp [toValue] at h
  | .sliceV _, v, _, h => by simp [toValue] at h
  | .other, v, _, h => by simp [toValue] at h
  | .map kvs, v, hi, h => by
    have hi : ∀ kv ∈ kvs, IntsOk kv.2 := by cases hi; assumption
    simp only [toValue, mapToValue] at h
    cases hc : convFields kvs with
    | error e => rw [hc] at h; simp at h
    | ok r =>
      rw [hc] at h
      simp at h
      subst h
      obtain ⟨h1, h2, h3⟩ := convFields_back kvs r hi hc
      refine ⟨.obj r h2, fun h => ?_, fun h => ?_⟩
      · cases h with
        | obj _ g1 g2 g3 =>
          refine .map kvs ?_ (h3.1 g2) (h1 ▸ g3)
          intro kv hkv
          have : kv.1 ∈ r.map Prod.fst := by rw [h1]; exact List.mem_map_of_mem hkv
          obtain ⟨kv', h4, h5⟩ := List.mem_map.mp this
          exact h5 ▸ g1 kv' h4
      · cases h with
        | map _ g1 g2 g3 =>
          refine .obj r ?_ (h3.2 g2) (h1 ▸ g3)
          intro kv hkv
          have : kv.1 ∈ kvs.map Prod.fst := by rw [← h1]; exact List.mem_map_of_mem hkv
          obtain ⟨kv', h4, h5⟩ := List.mem_map.mp this
          exact h5 ▸ g1 kv' h4
  | .slice vs, v, hi, h => by
    have hi : ∀ u ∈ vs, IntsOk u := by cases hi; assumption
    simp only [toValue, sliceToValue] at h
    cases hc : convElems vs with
    | error e => rw [hc] at h; simp at h
    | ok r =>
      rw [hc] at h
      simp at h
      subst h
      obtain ⟨h2, h3⟩ := convElems_back vs r hi hc
      exact ⟨.arr r h2, fun h => by cases h with | arr _ g => exact .slice vs (h3.1 g), fun h => by cases h with | slice _ g => exact .arr r (h3.2 g)⟩

theorem convFields_back : ∀ (kvs : List (List Char × GoAny)) (r : List (List Char × JVal)), (∀ kv ∈ kvs, IntsOk kv.2) → convFields kvs = .ok r →
    r.map Prod.fst = kvs.map Prod.fst ∧ (∀ kv ∈ r, NoInvalid kv.2) ∧ ((∀ kv ∈ r, Clean code kv.2) ↔ ∀ kv ∈ kvs, BackGo kv.2)
  | [], r, _, h => by simp [convFields] at h; subst h; simp
  | (k, a) :: kvs, r, hi, h => by
    simp only [convFields] at h
    cases hv : toValue a with
    | error e => rw [hv] at h; simp at h
    | ok j =>
      rw [hv] at h
      simp only at h
      cases hc : convFields kvs with
      | error e => rw [hc] at h; simp at h
      | ok r' =>
        rw [hc] at h
        simp at h
        subst h
        obtain ⟨h1, h2⟩ := toValue_back a j (hi (k, a) (by simp)) hv
        obtain ⟨h3, h4, h5⟩ := convFields_back kvs r' (fun kv hk => hi kv (by simp [hk])) hc
        refine ⟨by simp only [List.map_cons, h3], ?_, ?_⟩
        · intro kv hkv
          rcases List.mem_cons.mp hkv with rfl | hkv
          · exact h1
          · exact h4 kv hkv
        · rw [List.forall_mem_cons, List.forall_mem_cons, h5, h2]

theorem convElems_back : ∀ (vs : List GoAny) (r : List JVal), (∀ u ∈ vs, IntsOk u) → convElems vs = .ok r →
    (∀ u ∈ r, NoInvalid u) ∧ ((∀ u ∈ r, Clean code u) ↔ ∀ u ∈ vs, BackGo u)
  | [], r, _, h => by simp [convElems] at h; subst h; simp
  | a :: vs, r, hi, h => by
    simp only [convElems] at h
    cases hv : toValue a with
    | error e => rw [hv] at h; simp at h
    | ok j =>
      rw [hv] at h
      simp only at h
      cases hc : convElems vs with
      | error e => rw [hc] at h; simp at h
      | ok r' =>
        rw [hc] at h
        simp at h
        subst h
        obtain ⟨h1, h2⟩ := toValue_back a j (hi a (by simp)) hv
        obtain ⟨h4, h5⟩ := convElems_back vs r' (fun u hu => hi u (by simp [hu])) hc
        refine ⟨?_, ?_⟩
        · intro u hu
          rcases List.mem_cons.mp hu with rfl | hu
          · exact h1
          · exact h4 u hu
        · rw [List.forall_mem_cons, List.forall_mem_cons, h5, h2]
end

/-- C103, exactly: the Value ToValue makes of a map[string]any or []any is read back from the text Write gives for it, if and only if no string or key in the Go value needs
an escape and all its number texts are JSON numbers (`BackGo`). -/
theorem c103_document_iff (fin : Err) (a : GoAny) (v : JVal) (ha : (∃ kvs, a = .map kvs) ∨ ∃ vs, a = .slice vs) (hi : IntsOk a) (h : toValue a = .ok v) :
    (∃ u rest, parse fin (written v) = some (.ok (u, rest)) ∧ SameValue v u) ↔ BackGo a := by
  obtain ⟨h1, h2⟩ := toValue_back a v hi h
  rw [c59_roundtrip_iff fin v (toValue_doc h ha) h1, h2]

example (fin : Err) := c103_document_iff fin (.slice [.str ['"'], .int .int8 5]) (.arr [.str ['"'], .num (Conv.integerToString .int8 5)]) (.inr ⟨_, rfl⟩)
  (.slice _ (by intro v hv; simp at hv; rcases hv with rfl | rfl; exact .str _; exact .int _ _ (by decide))) (by simp [toValue, sliceToValue, convElems])

end Micro.Json
