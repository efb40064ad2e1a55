import Verif.Json.HeapAnyLemmas
set_option linter.unusedSimpArgs false
/-
C126: which maps and slices a Value shares with its caller.
-/
namespace Micro.Json
open Micro

/-- ToValue, MapToValue and SliceToValue of Go values that are finite trees return the error or the document that the conversion without
memory returns; the Value consists of maps and slices allocated by the call only, and no map or slice of Values that existed before
is changed. -/
theorem c126_toValue (A : Objs HAny) (V : Objs HVal) (P : Nat → Prop) (g : GoAny) (x : HAny) (h : Tree A P g x) :
    match toValue g with
    | .error e => toValueH A x V = some (.error e)
    | .ok j => ∃ v V', toValueH A x V = some (.ok (v, V')) ∧ Grows V V' ∧ Den V' (Fresh V V') j v := by
  have := toValueH_spec A P g x V h
  cases hg : toValue g with
  | error e => exact this.1 e hg
  | ok j => exact this.2 j hg

/-- Whatever is done later to maps and slices that do not belong to a Value does not change the document that the Value stands for. -/
theorem c126_frame (V V' : Objs HVal) (P : Nat → Prop) (j : JVal) (v : HVal) (h : Den V P j v) (hs : AgreeOn P V V') : Den V' P j v :=
  den_frame hs (fun _ hm => hm) j v h

/-- A Value stands for one document only. -/
theorem c126_unique (V : Objs HVal) (P Q : Nat → Prop) (i j : JVal) (v : HVal) (hi : Den V P i v) (hj : Den V Q j v) : i = j :=
  den_unique i j v hi hj

/-- ToAny, ToMap and ToSlice return for exactly the Values that stand for a (finite) document. -/
theorem c126_toAny_returns (V : Objs HVal) (hV : ∀ m, ((V.maps m).map Prod.fst).Nodup) (v : HVal) (A : Objs HAny) :
    (toAnyH V v A).isSome = true ↔ ∃ j, Den V (fun _ => True) j v := by
  constructor
  · intro h
    obtain ⟨r, hr⟩ := Option.isSome_iff_exists.mp h
    exact toAnyH_returns V hV v A r hr
  · rintro ⟨j, hj⟩
    obtain ⟨x, A', h, -⟩ := toAnyH_spec V _ j v A hj
    rw [h]; rfl

/-- ToAny, ToMap and ToSlice of a document return what the conversion without memory returns, in maps and slices allocated by the call
only; no map or slice of any that existed before is changed. -/
theorem c126_toAny (V : Objs HVal) (A : Objs HAny) (P : Nat → Prop) (j : JVal) (v : HVal) (h : Den V P j v) :
    ∃ x A', toAnyH V v A = some (x, A') ∧ Grows A A' ∧ Tree A' (Fresh A A') (toAny j) x :=
  toAnyH_spec V P j v A h

/-- The result of ToAny is not changed by later writes to other maps and slices. -/
theorem c126_any_frame (A A' : Objs HAny) (P : Nat → Prop) (g : GoAny) (x : HAny) (h : Tree A P g x) (hs : AgreeOn P A A') : Tree A' P g x :=
  tree_frame hs (fun _ hm => hm) g x h

/-- A map[string]Value given to MapToValue, and the map returned by AsMap, are the map of the Value: after m[k] = w the Value stands for the
changed document. The entries and w must not contain m itself. -/
theorem c126_map_live (V : Objs HVal) (Q : Nat → Prop) (m : Nat) (hQ : ¬ Q m) (kvs : List (List Char × JVal)) (hn : (kvs.map Prod.fst).Nodup)
    (hkvs : DenF V Q kvs (V.maps m)) (k : List Char) (w : HVal) (j : JVal) (hw : Den V Q j w) :
    (∀ v, asMapH v = some m → v = mapVToValueH m) ∧
    Den V (fun a => Q a ∨ a = m) (.obj kvs) (mapVToValueH m) ∧
    Den (V.setKey m k w) (fun a => Q a ∨ a = m) (.obj (docSet kvs k j)) (mapVToValueH m) := by
  refine ⟨fun v hv => ?_, ?_, ?_⟩
  · cases v <;> simp_all [asMapH, mapVToValueH]
  · simp only [Den]
    exact ⟨m, rfl, Or.inr rfl, hn, denF_frame (fun _ _ => ⟨rfl, rfl⟩) (fun _ h => Or.inl h) _ _ hkvs⟩
  · have hag : AgreeOn Q V (V.setKey m k w) := fun a ha => by
      refine ⟨?_, rfl⟩
      simp only [Objs.setKey]
      rw [Function.update_of_ne (fun hc => hQ (by rw [← hc]; exact ha))]
    have h1 := denF_frame (Q := Q) hag (fun _ h => h) _ _ hkvs
    have h2 := den_frame (Q := Q) hag (fun _ h => h) _ _ hw
    obtain ⟨h3, h4⟩ := denF_set kvs _ h1 hn k h2
    simp only [Den]
    refine ⟨m, rfl, Or.inr rfl, h4, denF_frame (fun _ _ => ⟨rfl, rfl⟩) (fun _ h => Or.inl h) _ _ ?_⟩
    simp only [Objs.setKey, Function.update_self] at h3 ⊢
    exact h3

/-- A []Value given to SliceToValue, and the slice returned by AsSlice, are the slice of the Value: after s[i] = w the Value stands for the
changed document. -/
theorem c126_slice_live (V : Objs HVal) (Q : Nat → Prop) (a off len : Nat) (hQ : ¬ Q a) (js : List JVal)
    (hjs : DenE V Q js (V.elems a off len)) (i : Nat) (hi : i < len) (w : HVal) (j : JVal) (hw : Den V Q j w) :
    (∀ v, asSliceH v = some (a, off, len) → v = sliceVToValueH a off len) ∧
    Den V (fun b => Q b ∨ b = a) (.arr js) (sliceVToValueH a off len) ∧
    Den (V.setIdx a (off + i) w) (fun b => Q b ∨ b = a) (.arr (js.set i j)) (sliceVToValueH a off len) := by
  refine ⟨fun v hv => ?_, ?_, ?_⟩
  · cases v <;> simp_all [asSliceH, sliceVToValueH]
  · simp only [Den]
    exact ⟨a, off, len, rfl, Or.inr rfl, denE_frame (fun _ _ => ⟨rfl, rfl⟩) (fun _ h => Or.inl h) _ _ hjs⟩
  · have hag : AgreeOn Q V (V.setIdx a (off + i) w) := fun b hb => by
      refine ⟨rfl, ?_⟩
      simp only [Objs.setIdx]
      rw [Function.update_of_ne (fun hc => hQ (by rw [← hc]; exact hb))]
    have h1 := denE_frame (Q := Q) hag (fun _ h => h) _ _ hjs
    have h2 := den_frame (Q := Q) hag (fun _ h => h) _ _ hw
    have h3 := denE_set js _ h1 i h2
    simp only [Den]
    refine ⟨a, off, len, rfl, Or.inr rfl, denE_frame (fun _ _ => ⟨rfl, rfl⟩) (fun _ h => Or.inl h) _ _ ?_⟩
    have he : (V.setIdx a (off + i) w).elems a off len = (V.elems a off len).set i w := by
      unfold Objs.elems
      simp only [Objs.setIdx, Function.update_self]
      rw [List.drop_set, if_neg (by omega), List.take_set, Nat.add_sub_cancel_left]
    rw [he]
    exact h3

/-- A memory without maps and arrays. -/
def emptyV : Objs HVal := ⟨fun _ => [], fun _ => [], 0⟩
/-- The same for any. -/
def emptyA : Objs HAny := ⟨fun _ => [], fun _ => [], 0⟩

/-- The claim "a Value does not change when the map it was made from changes" is false: `m := map[string]Value{}; v := MapToValue(m)` is {},
and after `m["a"] = null` v is {"a": null}. -/
theorem c126_shared_witness :
    ∃ (V V' : Objs HVal) (m : Nat) (k : List Char) (w : HVal), V' = V.setKey m k w ∧
      Den V (fun _ => True) (.obj []) (mapVToValueH m) ∧ Den V' (fun _ => True) (.obj [(k, .null)]) (mapVToValueH m) ∧
      ¬ Den V' (fun _ => True) (.obj []) (mapVToValueH m) := by
  refine ⟨emptyV.newMap [], _, 0, ['a'], .null, rfl, ?_, ?_, ?_⟩
  · simp [Den, DenF, mapVToValueH, Objs.newMap, emptyV]
  · simp [Den, DenF, mapVToValueH, Objs.newMap, emptyV, Objs.setKey, setKey]
  · simp [Den, DenF, mapVToValueH, Objs.newMap, emptyV, Objs.setKey, setKey]

/-- A Value can be put into its own map: after `m[k] = MapToValue(m)` it stands for no document, and ToAny and ToMap of it do not return. -/
theorem c126_cyclic (V : Objs HVal) (hV : ∀ m, ((V.maps m).map Prod.fst).Nodup) (m : Nat) (k : List Char) :
    (¬ ∃ j, Den (V.setKey m k (mapVToValueH m)) (fun _ => True) j (mapVToValueH m)) ∧
    ∀ A, toAnyH (V.setKey m k (mapVToValueH m)) (mapVToValueH m) A = none := by
  have h1 : ¬ ∃ j, Den (V.setKey m k (mapVToValueH m)) (fun _ => True) j (mapVToValueH m) := by
    rintro ⟨j, hj⟩
    refine den_acyclic _ m k ?_ j hj
    simp only [Objs.setKey, Function.update_self]
    exact setKey_mem _ _ _
  refine ⟨h1, fun A => ?_⟩
  cases h : toAnyH (V.setKey m k (mapVToValueH m)) (mapVToValueH m) A with
  | none => rfl
  | some r =>
    refine absurd (toAnyH_returns _ (fun a => ?_) _ A r h) h1
    by_cases ha : a = m
    · subst ha
      simp only [Objs.setKey, Function.update_self]
      exact setKey_nodup _ _ _ (hV a)
    · simp only [Objs.setKey]
      rw [Function.update_of_ne ha]
      exact hV a

/-! Cases that meet the hypotheses: map[string]any{"a": []any{true, nil}}. -/

/-- The map at address 0, the array at address 1. -/
def caseA : Objs HAny := ⟨fun _ => [(['a'], .slice 1 0 2)], fun _ => [.bool true, .nil], 2⟩

example : Tree caseA (fun _ => True) (.map [(['a'], .slice [.bool true, .nil])]) (.map 0) := by
  simp [Tree, TreeF, TreeE, caseA, Objs.elems]

example : ∃ v V', toValueH caseA (.map 0) emptyV = some (.ok (v, V')) ∧ Grows emptyV V' ∧
    Den V' (Fresh emptyV V') (.obj [(['a'], .arr [.bool true, .null])]) v := by
  have h := c126_toValue caseA emptyV (fun _ => True) (.map [(['a'], .slice [.bool true, .nil])]) (.map 0) (by
    simp [Tree, TreeF, TreeE, caseA, Objs.elems])
  rw [show toValue (.map [(['a'], .slice [.bool true, .nil])]) = .ok (.obj [(['a'], .arr [.bool true, .null])]) from by
    simp [toValue, mapToValue, convFields, sliceToValue, convElems]] at h
  exact h

/-- The object {"a": [1]} in memory. -/
def caseV : Objs HVal := ⟨fun _ => [(['a'], .arr 1 0 1)], fun _ => [.num ['1']], 2⟩

example : Den caseV (fun a => a < 2) (.obj [(['a'], .arr [.num ['1']])]) (.obj 0) := by
  simp [Den, DenF, DenE, caseV, Objs.elems]

example : ∃ x A', toAnyH caseV (.obj 0) emptyA = some (x, A') ∧ Grows emptyA A' ∧
    Tree A' (Fresh emptyA A') (.map [(['a'], .slice [.numStr ['1']])]) x :=
  c126_toAny caseV emptyA (fun a => a < 2) (.obj [(['a'], .arr [.num ['1']])]) (.obj 0) (by
    simp [Den, DenF, DenE, caseV, Objs.elems])

/- m := {"a": [1]}; m["b"] = null makes the Value {"a": [1], "b": null}; m["a"] = null makes it {"a": null}. -/
example : docSet [(['a'], .arr [.num ['1']])] ['b'] .null = [(['a'], .arr [.num ['1']]), (['b'], .null)] := by simp [docSet]
example : docSet [(['a'], .arr [.num ['1']])] ['a'] .null = [(['a'], .null)] := by simp [docSet]
example : ¬ (fun a => a = 1) 0 ∧ DenF caseV (fun a => a = 1) [(['a'], .arr [.num ['1']])] (caseV.maps 0) := by
  simp [Den, DenF, DenE, caseV, Objs.elems]
example : ¬ (fun _ : Nat => False) 1 ∧ DenE caseV (fun _ => False) [.num ['1']] (caseV.elems 1 0 1) := by
  simp [Den, DenF, DenE, caseV, Objs.elems]

end Micro.Json
