import Verif.Json.Props
import Mathlib.Data.List.Perm.Basic
set_option linter.unusedSimpArgs false
/-
C59, converse: which values survive Write and Parse.
-/
namespace Micro.Json
open Micro Micro.Iter

/-- A value without invalid parts. -/
inductive NoInvalid : JVal → Prop
  | null : NoInvalid .null
  | bool (b) : NoInvalid (.bool b)
  | num (s) : NoInvalid (.num s)
  | str (s) : NoInvalid (.str s)
  | arr (vs) : (∀ v ∈ vs, NoInvalid v) → NoInvalid (.arr vs)
  | obj (kvs) : (∀ kv ∈ kvs, NoInvalid kv.2) → NoInvalid (.obj kvs)

/-- The same value: the order of the members of an object does not matter, at any depth. -/
inductive SameValue : JVal → JVal → Prop
  | leaf (v) : (∀ vs, v ≠ .arr vs) → (∀ kvs, v ≠ .obj kvs) → SameValue v v
  | arr (vs us : List JVal) : vs.length = us.length → (∀ i (h : i < vs.length) (h' : i < us.length), SameValue vs[i] us[i]) →
      SameValue (.arr vs) (.arr us)
  | obj (kvs ws us : List (List Char × JVal)) : kvs.Perm ws → ws.length = us.length →
      (∀ i (h : i < ws.length) (h' : i < us.length), ws[i].1 = us[i].1) →
      (∀ i (h : i < ws.length) (h' : i < us.length), SameValue ws[i].2 us[i].2) → SameValue (.obj kvs) (.obj us)

/-! #### Lengths of texts -/

theorem strBody_length {m : Mode} {s v : List Char} (h : StrBody m s v) : v.length ≤ s.length ∧ (s.length ≤ v.length → PlainStr v) := by
  have h4 : ∀ {h n}, Hex4 h n → h.length = 4 := by
    rintro h n ⟨a, b, c, d, x, y, z, u, rfl, _⟩; rfl
  induction h with
  | nil => exact ⟨le_refl _, fun _ c hc => by cases hc⟩
  | plain c s v h1 h2 h3 _ ih =>
    refine ⟨by simp only [List.length_cons]; omega, fun hle d hd => ?_⟩
    simp only [List.length_cons] at hle
    simp only [List.mem_cons] at hd
    rcases hd with rfl | hd
    · exact ⟨h1, h2, h3⟩
    · exact ih.2 (by omega) d hd
  | short e c s v _ _ ih => exact ⟨by simp only [List.length_cons]; omega, fun hle => by simp only [List.length_cons] at hle; omega⟩
  | uni h n s v hh _ _ _ _ ih =>
    have := h4 hh
    exact ⟨by simp only [List.length_cons, List.length_append]; omega, fun hle => by simp only [List.length_cons, List.length_append] at hle; omega⟩
  | pair h1 h2 n1 n2 s v hh1 hh2 _ _ _ ih =>
    have := h4 hh1
    exact ⟨by simp only [List.length_cons, List.length_append]; omega, fun hle => by simp only [List.length_cons, List.length_append] at hle; omega⟩
  | swapped h1 h2 n1 n2 s v _ hh1 hh2 _ _ _ ih =>
    have := h4 hh1
    exact ⟨by simp only [List.length_cons, List.length_append]; omega, fun hle => by simp only [List.length_cons, List.length_append] at hle; omega⟩

theorem strLit_length {m : Mode} {s v : List Char} (h : StrLit m s v) : v.length + 2 ≤ s.length ∧ (s.length ≤ v.length + 2 → PlainStr v) := by
  obtain ⟨body, q, hb, hq, rfl⟩ := h
  have h1 := strBody_length hb
  have h2 : 1 ≤ q.length := by
    rcases hq with rfl | ⟨_, h, _, rfl⟩
    · simp
    · simp
  refine ⟨by simp only [List.length_cons, List.length_append]; omega, fun hle => h1.2 ?_⟩
  simp only [List.length_cons, List.length_append] at hle; omega

/-- The number of characters written for a value. -/
def wlen (v : JVal) : Nat := (written v).length
def wlenElems (vs : List JVal) : Nat := (vs.map (fun v => 1 + wlen v)).sum
def wlenFields (kvs : List (List Char × JVal)) : Nat := (kvs.map (fun kv => 4 + kv.1.length + wlen kv.2)).sum

theorem writeElems_false_len (vs : List JVal) : ((writeElems false vs).flatten).length = wlenElems vs := by
  induction vs with
  | nil => simp [writeElems, wlenElems]
  | cons v vs ih =>
    simp only [writeElems, Bool.false_eq_true, if_false, List.flatten_append, List.length_append, ih]
    simp [wlenElems, wlen, written]

theorem writeElems_true_len (v : JVal) (vs : List JVal) : ((writeElems true (v :: vs)).flatten).length + 1 = wlenElems (v :: vs) := by
  simp only [writeElems, if_true, List.flatten_append, List.length_append, writeElems_false_len]
  simp [wlenElems, wlen, written]; omega

theorem writeFields_false_len (kvs : List (List Char × JVal)) : ((writeFields false kvs).flatten).length = wlenFields kvs := by
  induction kvs with
  | nil => simp [writeFields, wlenFields]
  | cons kv kvs ih =>
    obtain ⟨k, v⟩ := kv
    simp only [writeFields, Bool.false_eq_true, if_false, List.flatten_append, List.flatten_cons, List.length_append, ih, List.cons_append,
      wlenFields, wlen, written, List.map_cons, List.sum_cons, List.length_cons, List.length_nil, List.nil_append]
    omega

theorem writeFields_true_len (kv : List Char × JVal) (kvs : List (List Char × JVal)) :
    ((writeFields true (kv :: kvs)).flatten).length + 1 = wlenFields (kv :: kvs) := by
  obtain ⟨k, v⟩ := kv
  simp only [writeFields, if_true, List.flatten_append, List.flatten_cons, List.length_append, writeFields_false_len, List.cons_append]
  simp [wlenFields, wlen, written]; omega

theorem wlen_arr (vs : List JVal) : wlen (.arr vs) = if vs = [] then 2 else 1 + wlenElems vs := by
  cases vs with
  | nil => simp [wlen, written, writeChunks, writeElems]
  | cons v vs =>
    have := writeElems_true_len v vs
    simp only [wlen, written, writeChunks, List.cons_append, List.flatten_cons, List.flatten_append, List.length_append, reduceCtorEq, if_false,
      List.flatten_nil, List.length_cons, List.length_nil, List.nil_append]
    omega

theorem wlen_obj (kvs : List (List Char × JVal)) : wlen (.obj kvs) = if kvs = [] then 2 else 1 + wlenFields kvs := by
  cases kvs with
  | nil => simp [wlen, written, writeChunks, writeFields]
  | cons kv kvs =>
    have := writeFields_true_len kv kvs
    simp only [wlen, written, writeChunks, List.cons_append, List.flatten_cons, List.flatten_append, List.length_append, reduceCtorEq, if_false,
      List.flatten_nil, List.length_cons, List.length_nil, List.nil_append]
    omega

mutual
/-- A text that denotes v is no shorter than what is written for v, and as short only if nothing in v needs an escape. -/
theorem isVal_length : ∀ {s v}, IsVal code s v → NoInvalid v → wlen v ≤ s.length ∧ (s.length ≤ wlen v → Clean code v)
  | _, _, .null, _ => ⟨by simp [wlen, written, writeChunks], fun _ => .null⟩
  | _, _, .true, _ => ⟨by simp [wlen, written, writeChunks], fun _ => .bool _⟩
  | _, _, .false, _ => ⟨by simp [wlen, written, writeChunks], fun _ => .bool _⟩
  | _, _, .num s h, _ => ⟨by simp [wlen, written, writeChunks], fun _ => .num _ h⟩
  | _, _, .str s v h, _ => by
    have := strLit_length h
    have e : wlen (.str v) = v.length + 2 := by simp [wlen, written, writeChunks]
    rw [e]
    exact ⟨this.1, fun hle => .str _ (this.2 hle)⟩
  | _, _, .arr0 w hw, _ => ⟨by simp [wlen_arr], fun _ => .arr _ (by simp)⟩
  | _, _, .arr s vs h _, hn => by
    have := isElems_length h (by cases hn with | arr _ h => exact h)
    rw [wlen_arr, if_neg this.2.2]
    exact ⟨by simp only [List.length_cons]; omega, fun hle => .arr _ (this.2.1 (by simp only [List.length_cons] at hle; omega))⟩
  | _, _, .obj s kvs h hnd, hn => by
    have := isMembers_length h (by cases hn with | obj _ h => exact h)
    rw [wlen_obj]
    split
    · rename_i hk
      subst hk
      refine ⟨?_, fun _ => .obj _ (by simp) (by simp) (by simp)⟩
      have := this.1
      simp [wlenFields] at this ⊢
      cases h; simp
    · rename_i hk
      exact ⟨by have := this.1; simp only [List.length_cons]; omega,
        fun hle => by
          have h2 := this.2 (by simp only [List.length_cons] at hle; omega)
          exact .obj _ (fun kv hkv => (h2 kv hkv).1) (fun kv hkv => (h2 kv hkv).2) hnd⟩
  | _, _, .junk s _ _, hn => by cases hn

theorem isElems_length : ∀ {s vs}, IsElems code s vs → (∀ v ∈ vs, NoInvalid v) →
    wlenElems vs ≤ s.length ∧ (s.length ≤ wlenElems vs → ∀ v ∈ vs, Clean code v) ∧ vs ≠ []
  | _, _, .last w1 s w2 v _ h _, hn => by
    have := isVal_length h (hn v (by simp))
    refine ⟨by simp [wlenElems]; omega, fun hle u hu => ?_, by simp⟩
    simp only [List.mem_singleton] at hu
    subst hu
    exact this.2 (by simp [wlenElems] at hle; omega)
  | _, _, .more w1 s w2 v r vs _ h _ hr, hn => by
    have h1 := isVal_length h (hn v (by simp))
    have h2 := isElems_length hr (fun u hu => hn u (by simp [hu]))
    have e : wlenElems (v :: vs) = 1 + wlen v + wlenElems vs := by simp [wlenElems]
    have el : (w1 ++ s ++ w2 ++ ',' :: r).length = w1.length + s.length + w2.length + 1 + r.length := by simp; omega
    rw [e, el]
    refine ⟨by omega, fun hle u hu => ?_, by simp⟩
    simp only [List.mem_cons] at hu
    rcases hu with rfl | hu
    · exact h1.2 (by omega)
    · exact h2.2.1 (by omega) u hu

theorem isMembers_length : ∀ {s kvs}, IsMembers code s kvs → (∀ kv ∈ kvs, NoInvalid kv.2) →
    wlenFields kvs ≤ s.length ∧ (s.length ≤ wlenFields kvs → ∀ kv ∈ kvs, PlainStr kv.1 ∧ Clean code kv.2)
  | _, _, .empty w _, _ => ⟨by simp [wlenFields], by simp⟩
  | _, _, .last w1 k key w2 w3 s w4 v _ hk _ _ h _, hn => by
    have h1 := isVal_length h (hn (key, v) (by simp))
    have h2 := strLit_length hk
    have e : wlenFields [(key, v)] = 4 + key.length + wlen v := by simp [wlenFields]
    have el : (w1 ++ k ++ w2 ++ ':' :: w3 ++ s ++ w4 ++ ['}']).length = w1.length + k.length + w2.length + 1 + w3.length + s.length + w4.length + 1 := by
      simp; omega
    rw [e, el]
    refine ⟨by omega, fun hle kv hkv => ?_⟩
    simp only [List.mem_singleton] at hkv
    subst hkv
    exact ⟨h2.2 (by omega), h1.2 (by omega)⟩
  | _, _, .more w1 k key w2 w3 s w4 v r kvs _ hk _ _ h _ hr _, hn => by
    have h1 := isVal_length h (hn (key, v) (by simp))
    have h2 := strLit_length hk
    have h3 := isMembers_length hr (fun u hu => hn u (by simp [hu]))
    have e : wlenFields ((key, v) :: kvs) = 4 + key.length + wlen v + wlenFields kvs := by simp [wlenFields]
    have el : (w1 ++ k ++ w2 ++ ':' :: w3 ++ s ++ w4 ++ ',' :: r).length =
        w1.length + k.length + w2.length + 1 + w3.length + s.length + w4.length + 1 + r.length := by
      simp; omega
    rw [e, el]
    refine ⟨by omega, fun hle kv hkv => ?_⟩
    simp only [List.mem_cons] at hkv
    rcases hkv with rfl | hkv
    · exact ⟨h2.2 (by omega), h1.2 (by omega)⟩
    · exact h3.2 (by omega) kv hkv
end

/-! #### The same value in another order -/

theorem sum_map_eq {γ : Type} (f g : γ → Nat) (xs ys : List γ) (hl : xs.length = ys.length)
    (h : ∀ i (h : i < xs.length) (h' : i < ys.length), f xs[i] = g ys[i]) : (xs.map f).sum = (ys.map g).sum := by
  congr 1
  refine List.ext_getElem (by simpa using hl) fun i h1 h2 => ?_
  simp only [List.getElem_map]
  exact h i (by simpa using h1) (by simpa using h2)

theorem same_wlen {v u : JVal} (h : SameValue v u) : wlen v = wlen u := by
  induction h with
  | leaf => rfl
  | arr vs us hl _ ih =>
    have e : wlenElems vs = wlenElems us := sum_map_eq _ _ _ _ hl (fun i h1 h2 => by rw [ih i h1 h2])
    have : vs = [] ↔ us = [] := by rw [← List.length_eq_zero_iff, ← List.length_eq_zero_iff, hl]
    simp only [wlen_arr, e, this]
  | obj kvs ws us hp hl hk _ ih =>
    have e1 : wlenFields kvs = wlenFields ws := (hp.map _).sum_nat
    have e2 : wlenFields ws = wlenFields us := sum_map_eq _ _ _ _ hl (fun i h1 h2 => by rw [hk i h1 h2, ih i h1 h2])
    have : kvs = [] ↔ us = [] := by rw [← List.length_eq_zero_iff, ← List.length_eq_zero_iff, hp.length_eq, hl]
    simp only [wlen_obj, e1, e2, this]

theorem same_clean {m : Mode} {v u : JVal} (h : SameValue v u) (hc : Clean m u) : Clean m v := by
  induction h with
  | leaf => exact hc
  | arr vs us hl _ ih =>
    cases hc with
    | arr _ hc =>
      refine .arr _ fun v hv => ?_
      obtain ⟨i, hi, rfl⟩ := List.getElem_of_mem hv
      exact ih i hi (by omega) (hc _ (List.getElem_mem _))
  | obj kvs ws us hp hl hk _ ih =>
    cases hc with
    | obj _ h1 h2 h3 =>
      have key : ∀ kv ∈ kvs, PlainStr kv.1 ∧ Clean m kv.2 := by
        intro kv hkv
        obtain ⟨i, hi, rfl⟩ := List.getElem_of_mem (hp.subset hkv)
        exact ⟨by rw [hk i hi (by omega)]; exact h1 _ (List.getElem_mem _), ih i hi (by omega) (h2 _ (List.getElem_mem _))⟩
      refine .obj _ (fun kv h => (key kv h).1) (fun kv h => (key kv h).2) ?_
      have e : ws.map Prod.fst = us.map Prod.fst := by
        refine List.ext_getElem (by simpa using hl) fun i h1 h2 => ?_
        simp only [List.getElem_map]
        exact hk i (by simpa using h1) (by simpa using h2)
      rw [(hp.map Prod.fst).nodup_iff, e]
      exact h3

theorem same_noInvalid {v u : JVal} (h : SameValue v u) (hc : NoInvalid v) : NoInvalid u := by
  induction h with
  | leaf => exact hc
  | arr vs us hl _ ih =>
    cases hc with
    | arr _ hc =>
      refine .arr _ fun v hv => ?_
      obtain ⟨i, hi, rfl⟩ := List.getElem_of_mem hv
      exact ih i (by omega) hi (hc _ (List.getElem_mem _))
  | obj kvs ws us hp hl hk _ ih =>
    cases hc with
    | obj _ h1 =>
      refine .obj _ fun kv hkv => ?_
      obtain ⟨i, hi, rfl⟩ := List.getElem_of_mem hkv
      exact ih i (by omega) hi (h1 _ (hp.symm.subset (List.getElem_mem _)))

theorem same_refl : ∀ v, SameValue v v
  | .arr vs => .arr vs vs rfl (fun i h _ => same_refl vs[i])
  | .obj kvs => .obj kvs kvs kvs (.refl _) rfl (fun _ _ _ => rfl) (fun i h _ => same_refl kvs[i].2)
  | .null => .leaf _ (by simp) (by simp)
  | .bool b => .leaf _ (by simp) (by simp)
  | .num s => .leaf _ (by simp) (by simp)
  | .str s => .leaf _ (by simp) (by simp)
  | .invalid => .leaf _ (by simp) (by simp)
termination_by v => sizeOf v
decreasing_by
  · have := List.sizeOf_lt_of_mem (List.getElem_mem h); simp; omega
  · have h1 := List.sizeOf_lt_of_mem (List.getElem_mem h)
    have h2 : sizeOf kvs[i].2 < sizeOf kvs[i] := by
      cases kvs[i]; simp
    simp; omega

/-- C59, exactly: an object or array without invalid parts survives Write and Parse if and only if no string or key in it contains a quotation mark,
a backslash or a control character, its numbers are JSON numbers (or as c62 has it), and its keys are distinct. In whatever order a map is iterated, and
even if the order of the members read back is ignored. -/
theorem c59_roundtrip_iff (fin : Err) (v : JVal) (hd : v.isDocument = true) (hv : NoInvalid v) :
    (∃ u rest, parse fin (written v) = some (.ok (u, rest)) ∧ SameValue v u) ↔ Clean code v := by
  constructor
  · rintro ⟨u, rest, hp, hs⟩
    obtain ⟨pre, hpre, w, s, _, hval, _, rfl⟩ := (c60_exact_partial fin _ _ _).1 hp
    have hlen := isVal_length hval (same_noInvalid hs hv)
    have h1 : (written v).length = w.length + s.length + rest.length := by rw [hpre]; simp; omega
    have h2 := same_wlen hs
    unfold wlen at h2 hlen
    exact same_clean hs (hlen.2 (by omega))
  · intro h
    have := c59_roundtrip_partial fin v hd h []
    rw [List.append_nil] at this
    exact ⟨v, [], this, same_refl v⟩

/-- The second string needs an escape; the value meets the hypotheses and does not survive. -/
example : ∃ v : JVal, v.isDocument = true ∧ NoInvalid v ∧ ¬ Clean code v := by
  refine ⟨.arr [.str ['a'], .str ['"']], rfl, .arr _ (by intro v hv; simp at hv; rcases hv with rfl | rfl <;> exact .str _), ?_⟩
  intro h
  cases h with
  | arr _ h =>
    have := h (.str ['"']) (by simp)
    cases this with
    | str _ h => exact (h '"' (by simp)).2.1 rfl

theorem clean_noInvalid {m : Mode} {v : JVal} (h : Clean m v) : NoInvalid v := by
  induction h with
  | null => exact .null
  | bool b => exact .bool b
  | num s => exact .num s
  | str s => exact .str s
  | arr vs _ ih => exact .arr _ ih
  | obj kvs _ _ _ ih => exact .obj _ ih

theorem same_noInvalid' {v u : JVal} (h : SameValue v u) (hc : NoInvalid u) : NoInvalid v := by
  induction h with
  | leaf => exact hc
  | arr vs us hl _ ih =>
    cases hc with
    | arr _ hc =>
      refine .arr _ fun v hv => ?_
      obtain ⟨i, hi, rfl⟩ := List.getElem_of_mem hv
      exact ih i hi (by omega) (hc _ (List.getElem_mem _))
  | obj kvs ws us hp hl hk _ ih =>
    cases hc with
    | obj _ h1 =>
      refine .obj _ fun kv hkv => ?_
      obtain ⟨i, hi, rfl⟩ := List.getElem_of_mem (hp.subset hkv)
      exact ih i hi (by omega) (h1 _ (List.getElem_mem _))

/-- C59: a value with invalid parts, and with strings that need no escape, is read back as the value that has null instead. -/
theorem c59_invalid (fin : Err) (v u : JVal) (hd : u.isDocument = true) (hu : Clean code u) (hw : written v = written u) (hv : ¬ NoInvalid v) :
    parse fin (written v) = some (.ok (u, [])) ∧ ¬ SameValue v u := by
  have := c59_roundtrip_partial fin u hd hu []
  rw [List.append_nil, ← hw] at this
  exact ⟨this, fun hs => hv (same_noInvalid' hs (clean_noInvalid hu))⟩

example : written (.arr [.invalid]) = written (.arr [.null]) ∧ Clean code (.arr [.null]) ∧ ¬ NoInvalid (.arr [.invalid]) := by
  refine ⟨by simp [written, writeChunks, writeElems], .arr _ (by intro v hv; simp at hv; subst hv; exact .null), ?_⟩
  intro h
  cases h with
  | arr _ h => cases h .invalid (by simp)

end Micro.Json
