import Verif.Funcs.MapModel
import Verif.Funcs.Props
import Mathlib.Data.List.Nodup
import Mathlib.Data.List.Induction
import Mathlib.Data.List.Perm.Basic
import Mathlib.Data.List.Sort
import Mathlib.Data.List.Pairwise
/-
Theorems about the map functions and conversions of package funcs: C74 (maps), C75 (collecting and sorting), C76
(conversions).
-/
set_option linter.unusedSimpArgs false
namespace Micro.Funcs
open Micro

variable {α β K K1 K2 V : Type}

/-! ### Specification -/

/-- An operation on a map. -/
inductive MapOp (K V : Type) where
  | set (k : K) (v : V)
  | unset (k : K)

/-- The key an operation touches. -/
def MapOp.key : MapOp K V → K
  | .set k _ => k
  | .unset k => k

/-- The value the key has after the operation. -/
def MapOp.val : MapOp K V → Option V
  | .set _ v => some v
  | .unset _ => none

/-- What a history leaves at a key: the effect of the last operation on that key; nothing if there is none. -/
def lastAt [DecidableEq K] (ops : List (MapOp K V)) (k : K) : Option V :=
  ((ops.filter (fun op => op.key = k)).getLast?).bind MapOp.val

/-- An operation on a map of slices. -/
inductive SlcOp (K V : Type) where
  | add (k : K) (v : V)
  | remove (k : K) (v : V) (all : Bool)

/-- The key an operation touches. -/
def SlcOp.key : SlcOp K V → K
  | .add k _ => k
  | .remove k _ _ => k

/-- The effect on the values of the key. -/
def SlcOp.effect [DecidableEq V] : SlcOp K V → List V → List V
  | .add _ v, l => l ++ [v]
  | .remove _ v true, l => l.filter (fun x => decide (x ≠ v))
  | .remove _ v false, l => l.erase v

/-- The values a history leaves at a key: those added, in order, less those removed. -/
def valuesAt [DecidableEq K] [DecidableEq V] (ops : List (SlcOp K V)) (k : K) : List V :=
  (ops.filter (fun op => op.key = k)).foldl (fun l op => op.effect l) []

/-! ### C74: single level maps -/

/-- The code's effect of an operation. -/
def runMap [DecidableEq K] (m : GoMap K V) : MapOp K V → Option (GoMap K V)
  | .set k v => mapSet m k v
  | .unset k => some (mapUnset m k)

theorem lastAt_append [DecidableEq K] (ops : List (MapOp K V)) (op : MapOp K V) (k : K) :
    lastAt (ops ++ [op]) k = if op.key = k then op.val else lastAt ops k := by
  unfold lastAt
  rw [List.filter_append]
  by_cases h : op.key = k
  · simp [h]
  · simp [h]

theorem runMap_spec [DecidableEq K] (m : GoMap K V) (op : MapOp K V) :
    ∃ m', runMap m op = some m' ∧ ∀ k, m'.get k = if op.key = k then op.val else m.get k := by
  cases op with
  | set k v =>
    cases m with
    | none =>
      refine ⟨_, rfl, fun q => ?_⟩
      by_cases h : q = k
      · subst h; simp [GoMap.get, MapOp.key, MapOp.val]
      · simp [GoMap.get, MapOp.key, MapOp.val, h, Ne.symm h]
    | some f =>
      refine ⟨_, rfl, fun q => ?_⟩
      by_cases h : q = k
      · subst h; simp [GoMap.get, MapOp.key, MapOp.val]
      · simp [GoMap.get, MapOp.key, MapOp.val, h, Ne.symm h]
  | unset k =>
    cases m with
    | none => exact ⟨_, rfl, fun q => by simp only [mapUnset, GoMap.delete, GoMap.get, MapOp.key, MapOp.val]; exact (ite_self _).symm⟩
    | some f =>
      refine ⟨_, rfl, fun q => ?_⟩
      by_cases h : q = k
      · subst h; simp [mapUnset, GoMap.delete, GoMap.get, MapOp.key, MapOp.val]
      · simp [mapUnset, GoMap.delete, GoMap.get, MapOp.key, MapOp.val, h, Ne.symm h]

/-- C74. Starting from the nil map, no history of MapSet and MapUnset panics; afterwards MapTest tells whether the last
operation on the key was a MapSet, and MapIndex gives the value it set, else the default, else the zero value. -/
theorem c74_map [DecidableEq K] (ops : List (MapOp K V)) :
    ∃ m, ops.foldlM runMap (none : GoMap K V) = some m ∧
      (∀ k, mapTest m k = (lastAt ops k).isSome) ∧
      (∀ k d zv, mapIndex m k d zv = (lastAt ops k).getD (d.headD zv)) := by
  have key : ∃ m, ops.foldlM runMap (none : GoMap K V) = some m ∧ ∀ k, m.get k = lastAt ops k := by
    induction ops using List.reverseRecOn with
    | nil => exact ⟨none, rfl, fun k => rfl⟩
    | append_singleton ops op ih =>
      obtain ⟨m, h1, h2⟩ := ih
      obtain ⟨m', h3, h4⟩ := runMap_spec m op
      refine ⟨m', ?_, fun k => ?_⟩
      · rw [List.foldlM_append, h1]; simpa using h3
      · rw [h4, lastAt_append, h2]
  obtain ⟨m, h1, h2⟩ := key
  refine ⟨m, h1, fun k => ?_, fun k d zv => ?_⟩
  · rw [← h2]; cases m <;> simp [mapTest, GoMap.isNil, GoMap.get]
  · rw [← h2]; unfold mapIndex
    cases hm : m.get k with
    | some v => rfl
    | none => cases d <;> rfl

/-! ### C74: two level maps -/

/-- The value at the two keys. -/
def get2 (m : GoMap K1 (GoMap K2 V)) (k : K1 × K2) : Option V := (m.get k.1).bind (fun m2 => m2.get k.2)

/-- The code's effect of an operation. -/
def runMap2 [DecidableEq K1] [DecidableEq K2] (m : GoMap K1 (GoMap K2 V)) : MapOp (K1 × K2) V → Option (GoMap K1 (GoMap K2 V))
  | .set k v => map2Set m k.1 k.2 v
  | .unset k => map2Unset m k.1 k.2

theorem runMap2_spec [DecidableEq K1] [DecidableEq K2] (m : GoMap K1 (GoMap K2 V)) (op : MapOp (K1 × K2) V) :
    ∃ m', runMap2 m op = some m' ∧ ∀ k, get2 m' k = if op.key = k then op.val else get2 m k := by
  cases op with
  | set k v =>
    obtain ⟨a, b⟩ := k
    cases m with
    | none =>
      refine ⟨_, rfl, fun q => ?_⟩
      obtain ⟨c, d⟩ := q
      simp only [GoMap.make, get2, GoMap.get, MapOp.key, MapOp.val, Function.update_apply, Prod.mk.injEq]
      by_cases h1 : c = a
      · subst h1; by_cases h2 : d = b
        · subst h2; simp
        · simp [h2, Ne.symm h2]
      · simp [h1, Ne.symm h1]
    | some f =>
      cases hf : f a with
      | none =>
        refine ⟨some (Function.update (Function.update f a (some GoMap.make)) a
          (some (some (Function.update (fun _ => none) b (some v))))), ?_, fun q => ?_⟩
        · simp [runMap2, map2Set, GoMap.isNil, GoMap.get, GoMap.write, GoMap.make, hf]
        obtain ⟨c, d⟩ := q
        simp only [get2, GoMap.get, MapOp.key, MapOp.val, Function.update_apply, Prod.mk.injEq]
        by_cases h1 : c = a
        · subst h1; by_cases h2 : d = b
          · subst h2; simp
          · simp [h2, Ne.symm h2, hf]
        · simp [h1, Ne.symm h1]
      | some m2 =>
        cases m2 with
        | none =>
          refine ⟨some (Function.update (Function.update f a (some GoMap.make)) a
            (some (some (Function.update (fun _ => none) b (some v))))), ?_, fun q => ?_⟩
          · simp [runMap2, map2Set, GoMap.isNil, GoMap.get, GoMap.write, GoMap.make, hf]
          obtain ⟨c, d⟩ := q
          simp only [get2, GoMap.get, MapOp.key, MapOp.val, Function.update_apply, Prod.mk.injEq]
          by_cases h1 : c = a
          · subst h1; by_cases h2 : d = b
            · subst h2; simp
            · simp [h2, Ne.symm h2, hf]
          · simp [h1, Ne.symm h1]
        | some g =>
          refine ⟨some (Function.update f a (some (some (Function.update g b (some v))))), ?_, fun q => ?_⟩
          · simp [runMap2, map2Set, GoMap.isNil, GoMap.get, GoMap.write, hf]
          obtain ⟨c, d⟩ := q
          simp only [get2, GoMap.get, MapOp.key, MapOp.val, Function.update_apply, Prod.mk.injEq]
          by_cases h1 : c = a
          · subst h1; by_cases h2 : d = b
            · subst h2; simp
            · simp [h2, Ne.symm h2, hf]
          · simp [h1, Ne.symm h1]
  | unset k =>
    obtain ⟨a, b⟩ := k
    cases m with
    | none => exact ⟨none, rfl, fun q => by simp only [get2, GoMap.get, MapOp.key, MapOp.val, Option.bind_none]; exact (ite_self _).symm⟩
    | some f =>
      cases hf : f a with
      | none =>
        refine ⟨some f, by simp [runMap2, map2Unset, GoMap.isNil, GoMap.get, hf], fun q => ?_⟩
        obtain ⟨c, d⟩ := q
        simp only [get2, GoMap.get, MapOp.key, MapOp.val, Prod.mk.injEq]
        by_cases h1 : a = c
        · subst h1; simp [hf]
        · simp [h1]
      | some m2 =>
        refine ⟨some (Function.update f a (some (m2.delete b))), by simp [runMap2, map2Unset, GoMap.isNil, GoMap.get, hf, GoMap.write], fun q => ?_⟩
        obtain ⟨c, d⟩ := q
        simp only [get2, GoMap.get, MapOp.key, MapOp.val, Function.update_apply, Prod.mk.injEq]
        by_cases h1 : c = a
        · subst h1
          cases m2 with
          | none => simp [GoMap.delete, hf]
          | some g =>
            by_cases h2 : d = b
            · subst h2; simp [GoMap.delete]
            · simp [h2, Ne.symm h2, hf, GoMap.delete]
        · simp [h1, Ne.symm h1]

/-- C74. The same for two level maps: no history of Map2Set and Map2Unset panics, and Map2Test tells whether the last
operation on the pair of keys was a Map2Set; the inner maps hold the values set. -/
theorem c74_map2 [DecidableEq K1] [DecidableEq K2] (ops : List (MapOp (K1 × K2) V)) :
    ∃ m, ops.foldlM runMap2 (none : GoMap K1 (GoMap K2 V)) = some m ∧
      (∀ a b, map2Test m a b = (lastAt ops (a, b)).isSome) ∧
      (∀ a b, (m.get a).bind (fun m2 => m2.get b) = lastAt ops (a, b)) := by
  have key : ∃ m, ops.foldlM runMap2 (none : GoMap K1 (GoMap K2 V)) = some m ∧ ∀ k, get2 m k = lastAt ops k := by
    induction ops using List.reverseRecOn with
    | nil => exact ⟨none, rfl, fun k => rfl⟩
    | append_singleton ops op ih =>
      obtain ⟨m, h1, h2⟩ := ih
      obtain ⟨m', h3, h4⟩ := runMap2_spec m op
      refine ⟨m', ?_, fun k => ?_⟩
      · rw [List.foldlM_append, h1]; simpa using h3
      · rw [h4, lastAt_append, h2]
  obtain ⟨m, h1, h2⟩ := key
  refine ⟨m, h1, fun a b => ?_, fun a b => h2 (a, b)⟩
  rw [← h2]
  cases m with
  | none => rfl
  | some f =>
    rcases hx : f a with _ | _ | g <;> simp [map2Test, GoMap.isNil, GoMap.get, get2, hx]

/-! ### C74: maps of slices -/

/-- The code's effect of an operation. -/
def runSlc [DecidableEq K] [DecidableEq V] (m : GoMap K (List V)) : SlcOp K V → Option (GoMap K (List V))
  | .add k v => mapSliceAdd m k v
  | .remove k v all => mapSliceRemove (fun slc => sliceRemove slc v [all]) m k

/-- The code's effect of an operation. -/
def runSlc2 [DecidableEq K1] [DecidableEq K2] [DecidableEq V] (m : GoMap K1 (GoMap K2 (List V))) :
    SlcOp (K1 × K2) V → Option (GoMap K1 (GoMap K2 (List V)))
  | .add k v => map2SliceAdd m k.1 k.2 v
  | .remove k v all => map2SliceRemove (fun slc => sliceRemove slc v [all]) m k.1 k.2

theorem effect_nil_remove [DecidableEq V] (k : K) (v : V) (all : Bool) : (SlcOp.remove k v all).effect [] = [] := by
  cases all <;> rfl

theorem sliceRemove_effect [DecidableEq V] (k : K) (v : V) (all : Bool) (l : List V) :
    sliceRemove l v [all] = (SlcOp.remove k v all).effect l := by
  cases all
  · exact (c46_remove l v).2.1
  · exact (c46_remove l v).2.2

theorem valuesAt_append [DecidableEq K] [DecidableEq V] (ops : List (SlcOp K V)) (op : SlcOp K V) (k : K) :
    valuesAt (ops ++ [op]) k = if op.key = k then op.effect (valuesAt ops k) else valuesAt ops k := by
  unfold valuesAt
  rw [List.filter_append]
  by_cases h : op.key = k
  · simp [h]
  · simp [h]

theorem runSlc_spec [DecidableEq K] [DecidableEq V] (m : GoMap K (List V)) (op : SlcOp K V) :
    ∃ m', runSlc m op = some m' ∧
      ∀ k, (m'.get k).getD [] = if op.key = k then op.effect ((m.get k).getD []) else (m.get k).getD [] := by
  cases op with
  | add k v =>
    cases m with
    | none =>
      refine ⟨_, rfl, fun q => ?_⟩
      by_cases h : q = k
      · subst h; simp [GoMap.get, SlcOp.key, SlcOp.effect]
      · simp [GoMap.get, SlcOp.key, h, Ne.symm h, GoMap.make]
    | some f =>
      cases hf : f k with
      | none =>
        refine ⟨some (Function.update (Function.update f k (some [])) k (some [v])), ?_, fun q => ?_⟩
        · simp [runSlc, mapSliceAdd, GoMap.isNil, GoMap.get, hf, GoMap.write]
        simp only [GoMap.get, SlcOp.key, SlcOp.effect, Function.update_apply, eq_comm]
        by_cases h : q = k
        · subst h; simp [hf]
        · simp [h, Ne.symm h]
      | some l =>
        refine ⟨some (Function.update f k (some (l ++ [v]))), ?_, fun q => ?_⟩
        · simp [runSlc, mapSliceAdd, GoMap.isNil, GoMap.get, hf, GoMap.write]
        simp only [GoMap.get, SlcOp.key, SlcOp.effect, Function.update_apply, eq_comm]
        by_cases h : q = k
        · subst h; simp [hf]
        · simp [h, Ne.symm h]
  | remove k v all =>
    cases m with
    | none =>
      refine ⟨none, rfl, fun q => ?_⟩
      simp only [GoMap.get, SlcOp.key, Option.getD_none, effect_nil_remove, ite_self]
    | some f =>
      cases hf : f k with
      | none =>
        refine ⟨some f, by simp [runSlc, mapSliceRemove, GoMap.isNil, GoMap.get, hf], fun q => ?_⟩
        simp only [GoMap.get, SlcOp.key]
        by_cases h : k = q
        · subst h; simp [hf, effect_nil_remove]
        · simp [h]
      | some l =>
        refine ⟨some (Function.update f k (some (sliceRemove l v [all]))), ?_, fun q => ?_⟩
        · simp [runSlc, mapSliceRemove, GoMap.isNil, GoMap.get, hf, GoMap.write]
        simp only [GoMap.get, SlcOp.key, Function.update_apply]
        by_cases h : q = k
        · subst h; simp [hf, sliceRemove_effect q]
        · simp [h, Ne.symm h]

theorem runSlc2_spec [DecidableEq K1] [DecidableEq K2] [DecidableEq V] (m : GoMap K1 (GoMap K2 (List V))) (op : SlcOp (K1 × K2) V) :
    ∃ m', runSlc2 m op = some m' ∧
      ∀ k, (get2 m' k).getD [] = if op.key = k then op.effect ((get2 m k).getD []) else (get2 m k).getD [] := by
  cases op with
  | add k v =>
    obtain ⟨a, b⟩ := k
    -- the map after the inner map and the slice have been made
    have base : ∀ (f : K1 → Option (GoMap K2 (List V))) (g : K2 → Option (List V)), f a = some (some g) →
        ∃ m', runSlc2 (some f) (.add (a, b) v) = some m' ∧ m' =
          some (Function.update f a (some (some (fun q => if q = b then some ((g b).getD [] ++ [v]) else g q)))) := by
      intro f g hf
      refine ⟨_, ?_, rfl⟩
      cases hg : g b with
      | none =>
        simp only [runSlc2, map2SliceAdd, GoMap.isNil, GoMap.get, hf, GoMap.write, hg, Option.isNone_some, Option.getD_some,
          Function.update_self, Bool.false_eq_true, if_false, Option.bind_eq_bind, Option.bind_some, Option.some.injEq]
        congr 3
        funext q
        by_cases h : q = b <;> simp [h]
      | some l =>
        simp only [runSlc2, map2SliceAdd, GoMap.isNil, GoMap.get, hf, GoMap.write, hg, Option.isNone_some, Option.getD_some,
          Function.update_self, Bool.false_eq_true, if_false, Option.bind_eq_bind, Option.bind_some, Option.some.injEq]
        congr 3
        funext q
        by_cases h : q = b <;> simp [h]
    have fin : ∀ (f : K1 → Option (GoMap K2 (List V))) (g : K2 → Option (List V)), f a = some (some g) →
        ∀ k, (get2 (some (Function.update f a (some (some (fun q => if q = b then some ((g b).getD [] ++ [v]) else g q))))) k).getD []
          = if (a, b) = k then (get2 (some f) k).getD [] ++ [v] else (get2 (some f) k).getD [] := by
      intro f g hf k
      obtain ⟨c, d⟩ := k
      simp only [get2, GoMap.get, Function.update_apply, Prod.mk.injEq]
      by_cases h1 : c = a
      · subst h1; by_cases h2 : d = b
        · subst h2; simp [hf]
        · simp [h2, Ne.symm h2, hf]
      · simp [h1, Ne.symm h1]
    have same : ∀ (f : K1 → Option (GoMap K2 (List V))), (f a).getD none = none →
        runSlc2 (some f) (.add (a, b) v) = runSlc2 (some (Function.update f a (some GoMap.make))) (.add (a, b) v) ∧
        ∀ k, get2 (some (Function.update f a (some GoMap.make))) k = get2 (some f) k := by
      intro f hf
      constructor
      · simp [runSlc2, map2SliceAdd, GoMap.isNil, GoMap.get, hf, GoMap.write, GoMap.make]
      · rintro ⟨c, d⟩
        simp only [get2, GoMap.get, Function.update_apply]
        by_cases h1 : c = a
        · subst h1
          cases hfa : f c with
          | none => simp [GoMap.make]
          | some m2 => rw [hfa] at hf; simp at hf; subst hf; simp [GoMap.make]
        · simp [h1]
    have some_case : ∀ f : K1 → Option (GoMap K2 (List V)), ∃ m', runSlc2 (some f) (.add (a, b) v) = some m' ∧
      ∀ k, (get2 m' k).getD [] = if (a, b) = k then (get2 (some f) k).getD [] ++ [v] else (get2 (some f) k).getD [] := by
      intro f
      by_cases hn : (f a).getD none = none
      · obtain ⟨e1, e2⟩ := same f hn
        obtain ⟨m', h1, h2⟩ := base (Function.update f a (some GoMap.make)) (fun _ => none) (by simp [GoMap.make])
        refine ⟨m', by rw [e1, h1], fun k => ?_⟩
        rw [h2, fin (Function.update f a (some GoMap.make)) (fun _ => none) (by simp [GoMap.make]), e2]
      · cases hfa : f a with
        | none => simp [hfa] at hn
        | some m2 =>
          cases m2 with
          | none => simp [hfa] at hn
          | some g =>
            obtain ⟨m', h1, h2⟩ := base f g hfa
            exact ⟨m', h1, fun k => by rw [h2, fin _ _ hfa]⟩
    cases m with
    | some f => exact some_case f
    | none =>
      obtain ⟨m', h1, h2⟩ := some_case (fun _ => none)
      refine ⟨m', ?_, fun k => ?_⟩
      · rw [← h1]; rfl
      · rw [h2]; rfl
  | remove k v all =>
    obtain ⟨a, b⟩ := k
    have nochange : ∀ m : GoMap K1 (GoMap K2 (List V)), get2 m (a, b) = none →
        ∀ k, (get2 m k).getD [] = if (a, b) = k then (SlcOp.remove (a, b) v all).effect ((get2 m k).getD []) else (get2 m k).getD [] := by
      intro m hm k
      by_cases h : (a, b) = k
      · subst h; simp [hm, effect_nil_remove]
      · simp [h]
    cases m with
    | none => exact ⟨none, rfl, nochange none rfl⟩
    | some f =>
      cases hf : f a with
      | none => exact ⟨some f, by simp [runSlc2, map2SliceRemove, GoMap.isNil, GoMap.get, hf], nochange _ (by simp [get2, GoMap.get, hf])⟩
      | some m2 =>
        cases hg : m2.get b with
        | none =>
          refine ⟨some f, ?_, nochange _ (by simp [get2, GoMap.get, hf]; exact hg)⟩
          simp [runSlc2, map2SliceRemove, GoMap.isNil, GoMap.get, hf]
          unfold GoMap.get at hg
          cases m2 <;> simp_all
        | some l =>
          cases m2 with
          | none => simp [GoMap.get] at hg
          | some g =>
            simp only [GoMap.get] at hg
            refine ⟨some (Function.update f a (some (some (Function.update g b (some (sliceRemove l v [all])))))), ?_, fun k => ?_⟩
            · simp [runSlc2, map2SliceRemove, GoMap.isNil, GoMap.get, hf, hg, GoMap.write]
            · obtain ⟨c, d⟩ := k
              simp only [get2, GoMap.get, SlcOp.key, Function.update_apply, Prod.mk.injEq]
              by_cases h1 : c = a
              · subst h1; by_cases h2 : d = b
                · subst h2; simp [hf, hg, sliceRemove_effect (c, d)]
                · simp [h2, Ne.symm h2, hf]
              · simp [h1, Ne.symm h1]

/-- C74. No history of MapSliceAdd and MapSliceRemove on the nil map panics, and it leaves at every key the values added,
in order, less those removed. -/
theorem c74_slice [DecidableEq K] [DecidableEq V] (ops : List (SlcOp K V)) :
    ∃ m, ops.foldlM runSlc (none : GoMap K (List V)) = some m ∧ ∀ k, (m.get k).getD [] = valuesAt ops k := by
  induction ops using List.reverseRecOn with
  | nil => exact ⟨none, rfl, fun k => rfl⟩
  | append_singleton ops op ih =>
    obtain ⟨m, h1, h2⟩ := ih
    obtain ⟨m', h3, h4⟩ := runSlc_spec m op
    refine ⟨m', ?_, fun k => ?_⟩
    · rw [List.foldlM_append, h1]; simpa using h3
    · rw [h4, valuesAt_append, h2]

/-- C74. The same for two level maps of slices. -/
theorem c74_slice2 [DecidableEq K1] [DecidableEq K2] [DecidableEq V] (ops : List (SlcOp (K1 × K2) V)) :
    ∃ m, ops.foldlM runSlc2 (none : GoMap K1 (GoMap K2 (List V))) = some m ∧
      ∀ a b, ((m.get a).bind (fun m2 => m2.get b)).getD [] = valuesAt ops (a, b) := by
  have key : ∃ m, ops.foldlM runSlc2 (none : GoMap K1 (GoMap K2 (List V))) = some m ∧ ∀ k, (get2 m k).getD [] = valuesAt ops k := by
    induction ops using List.reverseRecOn with
    | nil => exact ⟨none, rfl, fun k => rfl⟩
    | append_singleton ops op ih =>
      obtain ⟨m, h1, h2⟩ := ih
      obtain ⟨m', h3, h4⟩ := runSlc2_spec m op
      refine ⟨m', ?_, fun k => ?_⟩
      · rw [List.foldlM_append, h1]; simpa using h3
      · rw [h4, valuesAt_append, h2]
  obtain ⟨m, h1, h2⟩ := key
  exact ⟨m, h1, fun a b => h2 (a, b)⟩

/-- Concrete histories: the last write wins, removal takes the first occurrence. -/
example : lastAt [MapOp.set 1 'a', .set 2 'b', .unset 1, .set 2 'c'] 2 = some 'c' ∧
    lastAt [MapOp.set 1 'a', .set 2 'b', .unset 1, .set 2 'c'] 1 = none ∧
    valuesAt [SlcOp.add 1 'x', .add 1 'y', .add 1 'x', .remove 1 'x' false] 1 = ['y', 'x'] := by decide

/-! ### C75: collecting and sorting -/

theorem foldlM_write [DecidableEq K] (fn : α → K) (x : V) (slc : List α) (f : K → Option V) :
    ∃ g, slc.foldlM (fun (m : GoMap K V) v => m.write (fn v) x) (some f) = some (some g) ∧
      ∀ k, g k = if k ∈ slc.map fn then some x else f k := by
  induction slc generalizing f with
  | nil => exact ⟨f, rfl, fun k => by simp⟩
  | cons v vs ih =>
    obtain ⟨g, h1, h2⟩ := ih (Function.update f (fn v) (some x))
    refine ⟨g, by simpa [GoMap.write] using h1, fun k => ?_⟩
    rw [h2]
    by_cases hm : k ∈ vs.map fn
    · rw [if_pos hm, if_pos (by simp only [List.map_cons, List.mem_cons]; exact Or.inr hm)]
    · rw [if_neg hm]
      by_cases hk : k = fn v
      · subst hk; simp
      · rw [Function.update_of_ne hk, if_neg]
        simp only [List.map_cons, List.mem_cons]
        exact not_or.mpr ⟨hk, hm⟩

/-- C75. SliceToMap maps exactly the elements of the slice to true. -/
theorem c75_sliceToMap [DecidableEq α] (slc : List α) :
    ∃ m, sliceToMap slc = some m ∧ ∀ k, m.get k = if k ∈ slc then some true else none := by
  obtain ⟨g, h1, h2⟩ := foldlM_write (fun v : α => v) true slc (fun _ => none)
  exact ⟨some g, h1, fun k => by simpa [GoMap.get] using h2 k⟩

/-- C75. SliceToMapBy maps exactly the images of the elements to true. -/
theorem c75_sliceToMapBy [DecidableEq K] (fn : α → K) (slc : List α) :
    ∃ m, sliceToMapBy fn slc = some m ∧ ∀ k, m.get k = if ∃ x ∈ slc, fn x = k then some true else none := by
  obtain ⟨g, h1, h2⟩ := foldlM_write fn true slc (fun _ => none)
  exact ⟨some g, h1, fun k => by simpa [GoMap.get] using h2 k⟩

theorem mapKeysToSlice_eq (l : List (K × V)) : mapKeysToSlice l = l.map Prod.fst := by
  have key : ∀ (l : List (K × V)) acc, l.foldl (fun slc kv => slc ++ [kv.1]) acc = acc ++ l.map Prod.fst := by
    intro l
    induction l with
    | nil => intro acc; simp
    | cons x xs ih => intro acc; simp [ih]
  have h := key l []
  rw [List.nil_append] at h
  exact h

/-- C75. MapKeysToSlice gives every key of the map once, whatever the order in which the map is visited. -/
theorem c75_keys (m : GoMap K V) (l : List (K × V)) (h : m.Ranges l) :
    (mapKeysToSlice l).Nodup ∧ ∀ k, k ∈ mapKeysToSlice l ↔ (m.get k).isSome = true := by
  rw [mapKeysToSlice_eq]
  refine ⟨h.1, fun k => ?_⟩
  rw [Option.isSome_iff_exists]
  constructor
  · intro hk
    obtain ⟨⟨k', v⟩, h1, rfl⟩ := List.mem_map.mp hk
    exact ⟨v, (h.2 k' v).mp h1⟩
  · rintro ⟨v, hv⟩
    exact List.mem_map.mpr ⟨(k, v), (h.2 k v).mpr hv, rfl⟩

/-- C75. SliceUniqueValues gives each element of the slice exactly once, whatever the order in which the map it uses is
visited. -/
theorem c75_unique [DecidableEq α] (slc : List α) :
    ∃ m, uniqMap slc = some m ∧ ∀ l, m.Ranges l → (mapKeysToSlice l).Nodup ∧ ∀ x, x ∈ mapKeysToSlice l ↔ x ∈ slc := by
  obtain ⟨g, h1, h2⟩ := foldlM_write (fun v : α => v) (0 : Int) slc (fun _ => none)
  refine ⟨some g, h1, fun l hl => ?_⟩
  obtain ⟨h3, h4⟩ := c75_keys _ l hl
  refine ⟨h3, fun x => ?_⟩
  rw [h4]
  have := h2 x
  simp only [List.map_id'] at this
  simp only [GoMap.get, this]
  by_cases hx : x ∈ slc <;> simp [hx]

theorem mapSort_eq (sort : List (K × V) → List (K × V)) (l : List (K × V)) : mapSort sort l = sort l := by
  have key : ∀ (l : List (K × V)) acc, l.foldl (fun slc kv => slc ++ [(kv.1, kv.2)]) acc = acc ++ l := by
    intro l
    induction l with
    | nil => intro acc; simp
    | cons x xs ih => intro acc; simp [ih]
  unfold mapSort
  rw [key]
  simp

/-- C75. MapSortOrdered (and MapSortCmp, MapSortBy with a linear order) gives exactly the pairs of the map in strictly
increasing order of keys; the result depends neither on the order in which the map is visited nor on how sort.Slice
arranges its work. The sort is any function whose result is a permutation in which no key is less than an earlier one. -/
theorem c75_sort [LinearOrder K] (m : GoMap K V) :
    (∀ sort l, (∀ l : List (K × V), (sort l).Perm l ∧ (sort l).Pairwise (fun a b => ¬ b.1 < a.1)) → m.Ranges l →
      (mapSort sort l).Pairwise (fun a b => a.1 < b.1) ∧ ∀ k v, (k, v) ∈ mapSort sort l ↔ m.get k = some v) ∧
    (∀ sort1 sort2 l1 l2, (∀ l : List (K × V), (sort1 l).Perm l ∧ (sort1 l).Pairwise (fun a b => ¬ b.1 < a.1)) →
      (∀ l : List (K × V), (sort2 l).Perm l ∧ (sort2 l).Pairwise (fun a b => ¬ b.1 < a.1)) → m.Ranges l1 → m.Ranges l2 →
      mapSort sort1 l1 = mapSort sort2 l2) := by
  have part1 : ∀ sort l, (∀ l : List (K × V), (sort l).Perm l ∧ (sort l).Pairwise (fun a b => ¬ b.1 < a.1)) → m.Ranges l →
      (mapSort sort l).Pairwise (fun a b => a.1 < b.1) ∧ ∀ k v, (k, v) ∈ mapSort sort l ↔ m.get k = some v := by
    intro sort l hs hl
    rw [mapSort_eq]
    obtain ⟨h1, h2⟩ := hs l
    refine ⟨?_, fun k v => by rw [h1.mem_iff]; exact hl.2 k v⟩
    have h3 : ((sort l).map Prod.fst).Nodup := (h1.map Prod.fst).nodup_iff.mpr hl.1
    have h4 : (sort l).Pairwise (fun a b => a.1 ≠ b.1) := List.pairwise_map.mp h3
    exact (h2.and h4).imp (fun ⟨h5, h6⟩ => lt_of_le_of_ne (not_lt.mp h5) h6)
  refine ⟨part1, fun sort1 sort2 l1 l2 hs1 hs2 hl1 hl2 => ?_⟩
  obtain ⟨a1, a2⟩ := part1 sort1 l1 hs1 hl1
  obtain ⟨b1, b2⟩ := part1 sort2 l2 hs2 hl2
  have hnd : ∀ l : List (K × V), l.Pairwise (fun a b => a.1 < b.1) → l.Nodup := by
    intro l h
    exact h.imp (fun h e => by subst e; exact lt_irrefl _ h)
  have hp : (mapSort sort1 l1).Perm (mapSort sort2 l2) := by
    rw [List.perm_ext_iff_of_nodup (hnd _ a1) (hnd _ b1)]
    rintro ⟨k, v⟩
    rw [a2, b2]
  exact hp.eq_of_pairwise (fun a b _ _ h1 h2 => absurd (lt_trans h1 h2) (lt_irrefl _)) a1 b1

/-- The hypothesis on the sort is met by insertion sort. -/
theorem insertionSort_ok [LinearOrder K] (l : List (K × V)) :
    (l.insertionSort (fun a b => a.1 ≤ b.1)).Perm l ∧ (l.insertionSort (fun a b => a.1 ≤ b.1)).Pairwise (fun a b => ¬ b.1 < a.1) := by
  refine ⟨List.perm_insertionSort _ l, ?_⟩
  haveI : IsTrans (K × V) (fun a b => a.1 ≤ b.1) := ⟨fun _ _ _ h1 h2 => le_trans h1 h2⟩
  haveI : Std.Total (fun a b : K × V => a.1 ≤ b.1) := ⟨fun a b => le_total a.1 b.1⟩
  exact (List.pairwise_insertionSort (fun a b : K × V => a.1 ≤ b.1) l).imp (fun h => not_lt.mpr h)

/-- A map visited in two orders. -/
example : mapSort (List.insertionSort (fun a b : Nat × Char => a.1 ≤ b.1)) [(2, 'b'), (3, 'c'), (1, 'a')] = [(1, 'a'), (2, 'b'), (3, 'c')] ∧
    mapSort (List.insertionSort (fun a b : Nat × Char => a.1 ≤ b.1)) [(3, 'c'), (1, 'a'), (2, 'b')] = [(1, 'a'), (2, 'b'), (3, 'c')] := by
  decide

/-- MapSortComplex orders by absolute value only (here the square of it, on Gaussian integers): for a map with two keys of
equal absolute value the result depends on the order in which the map is visited, even if the sort is stable. -/
theorem c75_complex_refuted :
    ∃ (m : GoMap (Int × Int) Nat) (l1 l2 : List ((Int × Int) × Nat)), m.Ranges l1 ∧ m.Ranges l2 ∧
      let sort := List.insertionSort (fun a b : (Int × Int) × Nat => a.1.1 * a.1.1 + a.1.2 * a.1.2 ≤ b.1.1 * b.1.1 + b.1.2 * b.1.2)
      mapSort sort l1 ≠ mapSort sort l2 := by
  refine ⟨some (fun k => if k = (1, 0) then some 7 else if k = (0, 1) then some 8 else none), [((1, 0), 7), ((0, 1), 8)],
    [((0, 1), 8), ((1, 0), 7)], ⟨by decide, ?_⟩, ⟨by decide, ?_⟩, by decide⟩
  · intro k v
    simp only [GoMap.get, List.mem_cons, Prod.mk.injEq, List.not_mem_nil, or_false]
    by_cases h1 : k = (1, 0)
    · subst h1; simp [eq_comm]
    · by_cases h2 : k = (0, 1)
      · subst h2; simp [eq_comm]
      · simp [h1, h2]
  · intro k v
    simp only [GoMap.get, List.mem_cons, Prod.mk.injEq, List.not_mem_nil, or_false]
    by_cases h1 : k = (1, 0)
    · subst h1; simp [eq_comm]
    · by_cases h2 : k = (0, 1)
      · subst h2; simp [eq_comm]
      · simp [h1, h2]

/-! ### C76: conversions -/

/-- The elements before position i convert, the one at i does not. -/
def FirstBad (asT : α → Option β) (slc : List α) (i : Nat) : Prop :=
  ∃ pre x post, slc = pre ++ x :: post ∧ pre.length = i ∧ (∀ y ∈ pre, asT y ≠ none) ∧ asT x = none

theorem convSliceLoop_spec (asT : α → Option β) (slc : List α) : ∀ (i : Nat) (tgt : List β),
    (∃ r, convSliceLoop asT i tgt slc = .ok (tgt ++ r) ∧ slc.map asT = r.map some) ∨
    (∃ j, convSliceLoop asT i tgt slc = .error (i + j) ∧ FirstBad asT slc j) := by
  induction slc with
  | nil => intro i tgt; exact Or.inl ⟨[], by simp [convSliceLoop], rfl⟩
  | cons x xs ih =>
    intro i tgt
    cases hx : asT x with
    | none => exact Or.inr ⟨0, by simp [convSliceLoop, hx], [], x, xs, rfl, rfl, by simp, hx⟩
    | some t =>
      rcases ih (i + 1) (tgt ++ [t]) with ⟨r, h1, h2⟩ | ⟨j, h1, pre, y, post, h2, h3, h4, h5⟩
      · refine Or.inl ⟨t :: r, ?_, by simp [hx, h2]⟩
        simp only [convSliceLoop, hx, h1]
        simp
      · refine Or.inr ⟨j + 1, ?_, x :: pre, y, post, by simp [h2], by simp [h3], ?_, h5⟩
        · simp only [convSliceLoop, hx, h1]
          congr 1; omega
        · intro z hz
          rcases List.mem_cons.mp hz with rfl | hz
          · simp [hx]
          · exact h4 z hz

theorem firstBad_not_all (asT : α → Option β) (slc : List α) (r : List β) (i : Nat) (h : FirstBad asT slc i) : slc.map asT ≠ r.map some := by
  obtain ⟨pre, x, post, rfl, _, _, h4⟩ := h
  intro e
  have : none ∈ r.map some := by rw [← e]; simp [h4]
  simp at this

theorem firstBad_unique (asT : α → Option β) (slc : List α) (i j : Nat) (hi : FirstBad asT slc i) (hj : FirstBad asT slc j) : i = j := by
  obtain ⟨p1, x1, q1, e1, l1, a1, b1⟩ := hi
  obtain ⟨p2, x2, q2, e2, l2, a2, b2⟩ := hj
  rw [e1] at e2
  rcases Nat.lt_trichotomy i j with h | h | h
  · exfalso
    have : x1 ∈ p2 := by
      have h1 : (p1 ++ x1 :: q1)[i]? = some x1 := by simp [← l1]
      rw [e2, List.getElem?_append_left (by omega)] at h1
      exact List.mem_of_getElem? h1
    exact a2 _ this b1
  · exact h
  · exfalso
    have : x2 ∈ p1 := by
      have h1 : (p2 ++ x2 :: q2)[j]? = some x2 := by simp [← l2]
      rw [← e2, List.getElem?_append_left (by omega)] at h1
      exact List.mem_of_getElem? h1
    exact a1 _ this b2

/-- C76. ConvertToSlice succeeds exactly when the value is a []any all of whose elements have type T, and then returns those
elements in order; otherwise the error says that it is not a slice, or names the first element of another type. -/
theorem c76_slice (asSlice : α → Option (List α)) (asT : α → Option β) (v : α) :
    (∀ r, convertToSlice asSlice asT v = .ok r ↔ ∃ slc, asSlice v = some slc ∧ slc.map asT = r.map some) ∧
    (convertToSlice asSlice asT v = .error .notContainer ↔ asSlice v = none) ∧
    (∀ i, convertToSlice asSlice asT v = .error (.elem i) ↔ ∃ slc, asSlice v = some slc ∧ FirstBad asT slc i) := by
  cases hs : asSlice v with
  | none => simp [convertToSlice, hs]
  | some slc =>
    rcases convSliceLoop_spec asT slc 0 [] with ⟨r, h1, h2⟩ | ⟨j, h1, h2⟩
    · simp only [List.nil_append] at h1
      have e : convertToSlice asSlice asT v = .ok r := by simp [convertToSlice, hs, h1]
      rw [e]
      refine ⟨fun r' => ?_, by simp, fun i => ?_⟩
      · constructor
        · intro h; cases h; exact ⟨slc, rfl, h2⟩
        · rintro ⟨s, h3, h4⟩
          cases h3
          rw [h2] at h4
          rw [List.map_injective_iff.mpr (Option.some_injective _) h4]
      · constructor
        · intro h; cases h
        · rintro ⟨s, h3, h4⟩
          cases h3
          exact absurd h2 (firstBad_not_all asT slc r i h4)
    · rw [Nat.zero_add] at h1
      have e : convertToSlice asSlice asT v = .error (.elem j) := by simp [convertToSlice, hs, h1]
      rw [e]
      refine ⟨fun r' => ?_, by simp, fun i => ?_⟩
      · constructor
        · intro h; cases h
        · rintro ⟨s, h3, h4⟩
          cases h3
          exact absurd h4 (firstBad_not_all asT slc r' j h2)
      · constructor
        · intro h; cases h; exact ⟨slc, rfl, h2⟩
        · rintro ⟨s, h3, h4⟩
          cases h3
          rw [firstBad_unique asT slc i j h4 h2]

theorem convSlice2Loop_spec (asSlice : α → Option (List α)) (asT : α → Option β) (outer : List α) : ∀ (i : Nat) (tgt : List (List β)),
    (∃ r, convSlice2Loop asSlice asT i tgt outer = .ok (tgt ++ r) ∧
      List.Forall₂ (fun x y => ∃ slc, asSlice x = some slc ∧ slc.map asT = y.map some) outer r) ∨
    (∃ e, convSlice2Loop asSlice asT i tgt outer = .error e ∧
      ∃ pre x post, outer = pre ++ x :: post ∧ (∀ y ∈ pre, ∃ slc, asSlice y = some slc ∧ ∀ z ∈ slc, asT z ≠ none) ∧
        ((asSlice x = none ∧ e = .notContainer2 (i + pre.length)) ∨
         ∃ slc j, asSlice x = some slc ∧ FirstBad asT slc j ∧ e = .elem2 (i + pre.length) j)) := by
  induction outer with
  | nil => intro i tgt; exact Or.inl ⟨[], by simp [convSlice2Loop], .nil⟩
  | cons x xs ih =>
    intro i tgt
    cases hx : asSlice x with
    | none => exact Or.inr ⟨.notContainer2 i, by simp [convSlice2Loop, hx], [], x, xs, rfl, by simp, Or.inl ⟨hx, by simp⟩⟩
    | some slc =>
      rcases convSliceLoop_spec asT slc 0 [] with ⟨r, h1, h2⟩ | ⟨j, h1, h2⟩
      · simp only [List.nil_append] at h1
        rcases ih (i + 1) (tgt ++ [r]) with ⟨r', h3, h4⟩ | ⟨e, h3, pre, y, post, h4, h5, h6⟩
        · refine Or.inl ⟨r :: r', ?_, .cons ⟨slc, hx, h2⟩ h4⟩
          simp only [convSlice2Loop, hx, h1, h3]
          simp
        · refine Or.inr ⟨e, by simp only [convSlice2Loop, hx, h1, h3], x :: pre, y, post, by simp [h4], ?_, ?_⟩
          · intro z hz
            rcases List.mem_cons.mp hz with rfl | hz
            · refine ⟨slc, hx, fun w hw hn => ?_⟩
              have : none ∈ r.map some := by rw [← h2]; exact List.mem_map.mpr ⟨w, hw, hn⟩
              simp at this
            · exact h5 z hz
          · have e1 : i + (x :: pre).length = i + 1 + pre.length := by simp only [List.length_cons]; omega
            rw [e1]; exact h6
      · rw [Nat.zero_add] at h1
        exact Or.inr ⟨.elem2 i j, by simp only [convSlice2Loop, hx, h1], [], x, xs, rfl, by simp, Or.inr ⟨slc, j, hx, h2, by simp⟩⟩

/-- C76. ConvertToSlice2 succeeds exactly when the value is a []any of []any of T, and then returns the elements in order. -/
theorem c76_slice2 (asSlice : α → Option (List α)) (asT : α → Option β) (v : α) (r : List (List β)) :
    convertToSlice2 asSlice asT v = .ok r ↔
      ∃ outer, asSlice v = some outer ∧ List.Forall₂ (fun x y => ∃ slc, asSlice x = some slc ∧ slc.map asT = y.map some) outer r := by
  have uniq : ∀ outer (r1 r2 : List (List β)), List.Forall₂ (fun x y => ∃ slc, asSlice x = some slc ∧ slc.map asT = y.map some) outer r1 →
      List.Forall₂ (fun x y => ∃ slc, asSlice x = some slc ∧ slc.map asT = y.map some) outer r2 → r1 = r2 := by
    intro outer r1 r2 h1
    induction h1 generalizing r2 with
    | nil => intro h2; cases h2; rfl
    | cons h _ ih =>
      intro h2
      cases h2 with
      | cons h' h2 =>
        obtain ⟨s1, a1, b1⟩ := h
        obtain ⟨s2, a2, b2⟩ := h'
        rw [a1] at a2; cases a2
        rw [b1] at b2
        rw [List.map_injective_iff.mpr (Option.some_injective _) b2, ih _ h2]
  cases hs : asSlice v with
  | none => simp [convertToSlice2, hs]
  | some outer =>
    rcases convSlice2Loop_spec asSlice asT outer 0 [] with ⟨r', h1, h2⟩ | ⟨e, h1, pre, x, post, rfl, h5, h6⟩
    · simp only [convertToSlice2, hs, h1, List.nil_append]
      constructor
      · intro h; cases h; exact ⟨outer, rfl, h2⟩
      · rintro ⟨o, h3, h4⟩; cases h3; rw [uniq _ _ _ h2 h4]
    · simp only [convertToSlice2, hs, h1]
      constructor
      · intro h; cases h
      · rintro ⟨o, h3, h4⟩; cases h3
        exfalso
        have hx : ∃ y, ∃ slc, asSlice x = some slc ∧ slc.map asT = List.map some (y : List β) := by
          clear h1 h6 h5 hs
          induction pre generalizing r with
          | nil => cases h4 with | cons h _ => exact ⟨_, h⟩
          | cons p pre ih => cases h4 with | cons h h4 => exact ih _ h4
        obtain ⟨y, slc, a, b⟩ := hx
        rcases h6 with ⟨h6, _⟩ | ⟨s, j, h6, h7, _⟩
        · rw [a] at h6; cases h6
        · rw [a] at h6; cases h6
          exact firstBad_not_all asT slc y j h7 b

/-- C76. ConvertToMap succeeds exactly when the value is a map[K]any all of whose values have type V, and then returns the map
with the same keys and those values; otherwise the error names a key whose value has another type (which one depends on the
order in which the map is visited), or says that it is not such a map. -/
theorem c76_map [DecidableEq K] (m : GoMap K α) (asV : α → Option V) (l : List (K × α)) (hl : m.Ranges l) :
    ((∀ k v, m.get k = some v → asV v ≠ none) →
      ∃ r, convertToMap (some l) asV = .ok r ∧ ∀ k, r.get k = (m.get k).bind asV) ∧
    ((∃ k v, m.get k = some v ∧ asV v = none) →
      ∃ k v, m.get k = some v ∧ asV v = none ∧ convertToMap (some l) asV = .error (.value k)) ∧
    convertToMap (none : Option (List (K × α))) asV = .error .notContainer := by
  have loop : ∀ (l : List (K × α)) (tgt : K → Option V), (l.map Prod.fst).Nodup →
      (∃ g, convMapLoop asV tgt l = .ok g ∧ (∀ k v, (k, v) ∈ l → asV v ≠ none ∧ g k = asV v) ∧ ∀ k, k ∉ l.map Prod.fst → g k = tgt k) ∨
      (∃ k v, (k, v) ∈ l ∧ asV v = none ∧ convMapLoop asV tgt l = .error (.value k)) := by
    intro l
    induction l with
    | nil => intro tgt _; exact Or.inl ⟨tgt, rfl, by simp, by simp⟩
    | cons kv kvs ih =>
      intro tgt hnd
      obtain ⟨k, v⟩ := kv
      simp only [List.map_cons, List.nodup_cons] at hnd
      cases hv : asV v with
      | none => exact Or.inr ⟨k, v, by simp, hv, by simp [convMapLoop, hv]⟩
      | some t =>
        rcases ih (Function.update tgt k (some t)) hnd.2 with ⟨g, h1, h2, h3⟩ | ⟨k', v', h1, h2, h3⟩
        · refine Or.inl ⟨g, by simp only [convMapLoop, hv, h1], ?_, ?_⟩
          · intro k' v' hm
            rcases List.mem_cons.mp hm with hm | hm
            · cases hm
              rw [h3 _ hnd.1]
              simp [hv]
            · exact h2 k' v' hm
          · intro k' hk'
            simp only [List.map_cons, List.mem_cons, not_or] at hk'
            rw [h3 _ hk'.2, Function.update_of_ne hk'.1]
        · exact Or.inr ⟨k', v', by simp [h1], h2, by simp only [convMapLoop, hv, h3]⟩
  rcases loop l (fun _ => none) hl.1 with ⟨g, h1, h2, h3⟩ | ⟨k, v, h1, h2, h3⟩
  · refine ⟨fun _ => ⟨some g, by simp [convertToMap, h1], fun k => ?_⟩, ?_, rfl⟩
    · cases hk : m.get k with
      | some v => simpa [GoMap.get] using (h2 k v ((hl.2 k v).mpr hk)).2
      | none =>
        have : k ∉ l.map Prod.fst := by
          intro hm
          obtain ⟨⟨k', v⟩, h4, rfl⟩ := List.mem_map.mp hm
          rw [(hl.2 k' v).mp h4] at hk; cases hk
        simpa [GoMap.get] using h3 k this
    · rintro ⟨k, v, h4, h5⟩
      exact absurd h5 (h2 k v ((hl.2 k v).mpr h4)).1
  · refine ⟨fun h => absurd h2 (h k v ((hl.2 k v).mp h1)), fun _ => ⟨k, v, (hl.2 k v).mp h1, h2, ?_⟩, rfl⟩
    simp [convertToMap, h3]

/-- A slice whose third element has another type; a slice of slices. -/
example : convertToSlice (α := Nat ⊕ List Nat) (β := Nat) (fun v => match v with | .inr l => some (l.map .inl) | _ => none)
      (fun v => match v with | .inl n => if n < 10 then some n else none | _ => none) (.inr [1, 2, 30, 40]) = .error (.elem 2) ∧
    convertToSlice (α := Nat ⊕ List Nat) (β := Nat) (fun v => match v with | .inr l => some (l.map .inl) | _ => none)
      (fun v => match v with | .inl n => if n < 10 then some n else none | _ => none) (.inr [1, 2]) = .ok [1, 2] := ⟨rfl, rfl⟩

/-! ### C77: filters and composition -/

/-- C77. In accepts exactly the values listed. -/
theorem c77_in [DecidableEq α] (val : List α) (t : α) : in_ val t = true ↔ t ∈ val := by
  induction val with
  | nil => simp [in_]
  | cons v vs ih =>
    unfold in_
    by_cases h : t = v
    · simp [h]
    · simp [h, ih]

/-- C77. Compose applies its functions from first to last: composing the composition of one list with another is the
composition of the concatenation, and one function composes to itself. -/
theorem c77_compose (f g : α → α) (fs gs : List (α → α)) (t : α) :
    compose f [] t = f t ∧ compose f (fs ++ [g]) t = g (compose f fs t) ∧
    compose f (fs ++ g :: gs) t = compose g gs (compose f fs t) := by
  simp [compose]

example : compose (· + 1) [(· * 2), (fun n => n - 3)] 5 = 9 := rfl

end Micro.Funcs
