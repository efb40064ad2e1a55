import Verif.Json.ParseComplete
set_option linter.unusedSimpArgs false
namespace Micro.Json
open Micro Micro.Iter

/-- A string that needs no escaping. -/
def PlainStr (s : List Char) : Prop := ∀ c ∈ s, 0x20 ≤ c.toNat ∧ c ≠ '"' ∧ c ≠ '\\'

/-- A value without invalid parts, whose strings and keys need no escaping, whose numbers are numbers, and whose
objects have distinct keys (as maps do). -/
inductive Clean (m : Mode) : JVal → Prop
  | null : Clean m .null
  | bool (b) : Clean m (.bool b)
  | num (s) : NumLit m s → Clean m (.num s)
  | str (s) : PlainStr s → Clean m (.str s)
  | arr (vs) : (∀ v ∈ vs, Clean m v) → Clean m (.arr vs)
  | obj (kvs) : (∀ kv ∈ kvs, PlainStr kv.1) → (∀ kv ∈ kvs, Clean m kv.2) → (kvs.map Prod.fst).Nodup → Clean m (.obj kvs)

/-- An object or an array: encoding/json/value.go:379-381 `IsDocument`. -/
def JVal.isDocument : JVal → Bool
  | .obj _ => true
  | .arr _ => true
  | _ => false

theorem plain_body {m : Mode} {s : List Char} (h : PlainStr s) : StrBody m s s := by
  induction s with
  | nil => exact .nil
  | cons c s ih =>
    have := h c (by simp)
    exact .plain c s s this.1 this.2.1 this.2.2 (ih (fun d hd => h d (by simp [hd])))

theorem plain_lit {m : Mode} {s : List Char} (h : PlainStr s) : StrLit m ('"' :: s ++ ['"']) s :=
  ⟨s, ['"'], plain_body h, .inl rfl, rfl⟩

theorem ws_nil : Ws [] := by intro c hc; cases hc

theorem writeFields_false (kvs : List (List Char × JVal)) :
    writeFields false kvs = [] ∧ kvs = [] ∨ ∃ c cs, writeFields true kvs = c :: cs ∧ writeFields false kvs = (',' :: c) :: cs := by
  cases kvs with
  | nil => left; simp [writeFields]
  | cons kv kvs =>
    right
    obtain ⟨k, v⟩ := kv
    simp [writeFields]

/-- RFC texts apart from junk do not start with a bracket. -/
theorem clean_head {m : Mode} {s : List Char} {v : JVal} (h : IsVal m s v) (hv : v ≠ .invalid) : s.head? ≠ some ']' := by
  cases h with
  | num s hn =>
    obtain ⟨c, t, rfl, hc⟩ := numLit_head hn
    intro h
    simp at h
    subst h
    rcases hc with h | h <;> exact absurd h (by decide)
  | str s v hs => obtain ⟨b, q, _, _, rfl⟩ := hs; simp
  | junk => exact absurd rfl hv
  | null => simp
  | true => simp
  | false => simp
  | arr0 => simp
  | arr => simp
  | obj => simp

mutual
theorem written_val {m : Mode} : ∀ v, Clean m v → IsVal m (writeChunks v).flatten v
  | .null, _ => by simp only [writeChunks]; exact .null
  | .bool true, _ => by simp only [writeChunks]; exact .true
  | .bool false, _ => by simp only [writeChunks]; exact .false
  | .num s, h => by
    cases h with | num _ h => simpa [writeChunks] using IsVal.num s h
  | .str s, h => by
    cases h with | str _ h => simpa [writeChunks] using IsVal.str _ s (plain_lit h)
  | .invalid, h => by cases h
  | .arr [], _ => by simpa [writeChunks, writeElems] using IsVal.arr0 (m := m) [] ws_nil
  | .arr (v :: vs), h => by
    cases h with
    | arr _ h =>
        have hel := written_elems v vs h
        have hv := written_val v (h v (by simp))
        have hne : v ≠ .invalid := by rintro rfl; cases h .invalid (by simp)
        have := IsVal.arr _ _ hel ?_
        · simpa [writeChunks] using this
        · obtain ⟨c, t, hct, hc⟩ := isVal_head hv
          have hh := clean_head hv hne
          rw [hct] at hh
          simp only [writeElems, if_true, List.nil_append, List.flatten_append, hct]
          rw [List.cons_append, List.cons_append, List.dropWhile_cons, hc]
          simpa using hh
  | .obj kvs, h => by
    cases h with
    | obj _ h1 h2 hnd =>
      have := IsVal.obj _ _ (written_members kvs (fun kv hkv => ⟨h1 kv hkv, h2 kv hkv⟩)) hnd
      simpa [writeChunks] using this
termination_by v => sizeOf v
decreasing_by all_goals (simp_wf; (try subst_vars); (try simp); try omega)

theorem written_elems {m : Mode} : ∀ v vs, (∀ u ∈ v :: vs, Clean m u) →
    IsElems m ((writeElems true (v :: vs)).flatten ++ [']']) (v :: vs)
  | v, [], h => by
    have := IsElems.last [] _ [] v ws_nil (written_val v (h v (by simp))) ws_nil
    simpa [writeElems] using this
  | v, u :: vs, h => by
    have := IsElems.more [] _ [] v _ _ ws_nil (written_val v (h v (by simp))) ws_nil
      (written_elems u vs (fun x hx => h x (by simp [hx])))
    simpa [writeElems] using this
termination_by v vs => sizeOf v + sizeOf vs
decreasing_by all_goals (simp_wf; (try subst_vars); (try simp); try omega)

theorem written_members {m : Mode} : ∀ kvs : List (List Char × JVal), (∀ kv ∈ kvs, PlainStr kv.1 ∧ Clean m kv.2) →
    IsMembers m ((writeFields true kvs).flatten ++ ['}']) kvs
  | [], _ => by simpa [writeFields] using IsMembers.empty (m := m) [] ws_nil
  | [(k, v)], h => by
    have hk := h (k, v) (by simp)
    have := IsMembers.last [] _ k [] [] _ [] v ws_nil (plain_lit hk.1) ws_nil ws_nil (written_val v hk.2) ws_nil
    simpa [writeFields] using this
  | (k, v) :: (k', v') :: kvs, h => by
    have hk := h (k, v) (by simp)
    have hr := written_members ((k', v') :: kvs) (fun x hx => h x (by simp [hx]))
    have := IsMembers.more [] _ k [] [] _ [] v _ _ ws_nil (plain_lit hk.1) ws_nil ws_nil (written_val v hk.2) ws_nil hr (by simp)
    simpa [writeFields] using this
termination_by kvs => sizeOf kvs
decreasing_by all_goals (simp_wf; (try subst_vars); (try simp); try omega)
end

theorem written_doc {m : Mode} {v : JVal} (h : Clean m v) (hd : v.isDocument = true) : IsDoc m (written v) v := by
  refine ⟨[], written v, ws_nil, written_val v h, ?_, rfl⟩
  cases v with
  | arr vs => right; simp [written, writeChunks]
  | obj kvs => left; simp [written, writeChunks]
  | _ => cases hd

end Micro.Json
