import Verif.Funcs.FlattenModel
set_option linter.unusedSimpArgs false
/-
C51: SliceFlatten and the types of its argument.
-/
namespace Micro.Funcs
open Micro
variable {α : Type}
open Classical

theorem dims_noSlice (t : FTy) : t.dims.1.NoSlice := by
  induction t with
  | slice n e ih => exact ih
  | iface i => intro n e h; cases h
  | other i => intro n e h; cases h

theorem dims_over (t : FTy) : Over t.dims.2 t t.dims.1 := by
  induction t with
  | slice n e ih => exact .succ _ _ _ _ ih
  | iface i => exact .zero _
  | other i => exact .zero _

theorem over_dims {k : Nat} {t u : FTy} (h : Over k t u) (hu : u.NoSlice) : t.dims = (u, k) := by
  induction h with
  | zero t => cases t with
    | slice n e => exact absurd rfl (hu n e)
    | iface i => rfl
    | other i => rfl
  | succ k n e t _ ih => simp [FTy.dims, ih hu]

mutual
theorem flatElem_eq (rslc : List α) : ∀ v : FVal α, flatElem rslc v = if none ∈ v.leaves then none else some (rslc ++ v.leaves.filterMap id)
  | .leaf none => by simp [flatElem, FVal.leaves]
  | .leaf (some x) => by simp [flatElem, FVal.leaves]
  | .node vs => by rw [flatElem, FVal.leaves]; exact flatSlice_eq rslc vs
theorem flatSlice_eq (rslc : List α) : ∀ vs : List (FVal α), flatSlice rslc vs =
    if none ∈ leavesL vs then none else some (rslc ++ (leavesL vs).filterMap id)
  | [] => by simp [flatSlice, leavesL]
  | v :: vs => by
    rw [flatSlice, flatElem_eq rslc v, leavesL]
    by_cases h : none ∈ v.leaves
    · simp [h]
    · rw [if_neg h]
      simp only [flatSlice_eq _ vs, List.mem_append, h, false_or, List.filterMap_append, List.append_assoc]
end

theorem map_some_filterMap {l : List (Option α)} (h : none ∉ l) : (l.filterMap id).map some = l := by
  induction l with
  | nil => rfl
  | cons x l ih =>
    cases x with
    | none => simp at h
    | some x => simp at h; simp [ih h]

theorem elems_one {v : FVal α} {n : Option Nat} {t : FTy} (h : HasTy v (.slice n t)) (ht : t.NoSlice) : v.elems = v.leaves := by
  cases h with
  | slice vs _ _ hv =>
    simp only [FVal.elems, FVal.leaves]
    induction vs with
    | nil => rfl
    | cons v vs ih =>
      have h1 := hv v (by simp)
      rw [List.map_cons, leavesL, ih fun w hw => hv w (by simp [hw])]
      cases h1 with
      | other x i => simp [FVal.leaves]
      | iface x i => simp [FVal.leaves]
      | slice vs n e _ => exact absurd rfl (ht n e)

/-- C51. SliceFlatten[T] of a value of any type: nil gives the empty slice. Otherwise it panics with the documented messages exactly if the value is no slice, or
if the type under all its slice dimensions is not T; a further panic, of a type assertion, comes exactly if the value is a one dimensional slice of a defined type, or has more
dimensions and a nil interface among its elements. In all other cases it returns the elements in order. -/
theorem c51_types (t : FTy) (ty : FTy) (v : FVal α) (hv : HasTy v ty) :
    sliceFlattenT (α := α) t none = .ok [] ∧
    (sliceFlattenT t (some (ty, v)) = .error .notSlice ↔ ty.NoSlice) ∧
    (sliceFlattenT t (some (ty, v)) = .error .notT ↔ ∃ k u, Over (k + 1) ty u ∧ u.NoSlice ∧ u ≠ t) ∧
    (sliceFlattenT t (some (ty, v)) = .error .assertion ↔ t.NoSlice ∧
      ((∃ n, ty = .slice (some n) t) ∨ ∃ k, Over (k + 2) ty t ∧ none ∈ v.leaves)) ∧
    (∀ r, sliceFlattenT t (some (ty, v)) = .ok r ↔ t.NoSlice ∧ r = v.leaves ∧
      (ty = .slice none t ∨ ∃ k, Over (k + 2) ty t ∧ none ∉ v.leaves)) := by
  refine ⟨rfl, ?_⟩
  cases ty with
  | iface i =>
    have hno : ∀ k (u : FTy), ¬ Over (k + 1) (FTy.iface i) u := by intro k u h; cases h
    refine ⟨⟨fun _ n e h => (by cases h), fun _ => rfl⟩, ⟨fun h => (by cases h), ?_⟩, ⟨fun h => (by cases h), ?_⟩, fun r => ⟨fun h => (by cases h), ?_⟩⟩
    · rintro ⟨k, u, h, -⟩; exact absurd h (hno _ _)
    · rintro ⟨-, ⟨n, h⟩ | ⟨k, h, -⟩⟩
      · cases h
      · exact absurd h (hno _ _)
    · rintro ⟨-, -, h | ⟨k, h, -⟩⟩
      · cases h
      · exact absurd h (hno _ _)
  | other i =>
    have hno : ∀ k (u : FTy), ¬ Over (k + 1) (FTy.other i) u := by intro k u h; cases h
    refine ⟨⟨fun _ n e h => (by cases h), fun _ => rfl⟩, ⟨fun h => (by cases h), ?_⟩, ⟨fun h => (by cases h), ?_⟩, fun r => ⟨fun h => (by cases h), ?_⟩⟩
    · rintro ⟨k, u, h, -⟩; exact absurd h (hno _ _)
    · rintro ⟨-, ⟨n, h⟩ | ⟨k, h, -⟩⟩
      · cases h
      · exact absurd h (hno _ _)
    · rintro ⟨-, -, h | ⟨k, h, -⟩⟩
      · cases h
      · exact absurd h (hno _ _)
  | slice n e =>
    have hns : ¬ (FTy.slice n e).NoSlice := fun h => h n e rfl
    have hov : ∀ k u, Over (k + 1) (.slice n e) u → Over k e u := by intro k u h; cases h; assumption
    by_cases ht : t = e.dims.1
    · have htn : t.NoSlice := by rw [ht]; exact dims_noSlice e
      have hnotT : ¬ ∃ k u, Over (k + 1) (FTy.slice n e) u ∧ u.NoSlice ∧ u ≠ t := by
        rintro ⟨k, u, h1, h2, h3⟩
        have := over_dims (hov _ _ h1) h2
        rw [ht, this] at h3; exact h3 rfl
      by_cases hd : e.dims.2 = 0
      · have he : e = t := by
          have := dims_over e
          rw [hd, ← ht] at this
          cases this; rfl
        subst he
        have hk : ∀ k, ¬ Over (k + 2) (FTy.slice n e) e := by
          intro k h
          have := over_dims (hov _ _ h) htn
          rw [this] at hd; simp at hd
        have hel := elems_one hv htn
        have hval : sliceFlattenT e (some (FTy.slice n e, v)) = if n = none then .ok v.elems else .error .assertion := by
          simp only [sliceFlattenT]
          rw [if_neg (by rw [← ht]; simp), if_pos (by omega)]
          simp
        rw [hval]
        cases n with
        | none =>
          simp only [if_true]
          refine ⟨⟨fun h => (by cases h), fun h => absurd h hns⟩, ⟨fun h => (by cases h), fun h => absurd h hnotT⟩, ⟨fun h => (by cases h), ?_⟩, fun r => ⟨?_, ?_⟩⟩
          · rintro ⟨-, ⟨m, h⟩ | ⟨k, h, -⟩⟩
            · cases h
            · exact absurd h (hk k)
          · intro h; cases h; exact ⟨htn, hel, Or.inl trivial⟩
          · rintro ⟨-, rfl, -⟩; rw [hel]
        | some m =>
          simp only [reduceCtorEq, if_false]
          refine ⟨⟨fun h => (by cases h), fun h => absurd h hns⟩, ⟨fun h => (by cases h), fun h => absurd h hnotT⟩, ⟨fun _ => ⟨htn, Or.inl ⟨m, rfl⟩⟩, fun _ => trivial⟩, fun r => ⟨fun h => (by cases h), ?_⟩⟩
          rintro ⟨-, -, h | ⟨k, h, -⟩⟩
          · cases h
          · exact absurd h (hk k)
      · obtain ⟨k, hk⟩ : ∃ k, e.dims.2 = k + 1 := ⟨e.dims.2 - 1, by omega⟩
        have hover : Over (k + 2) (FTy.slice n e) t := by
          have := dims_over e
          rw [hk, ← ht] at this
          exact .succ _ _ _ _ this
        have hne : ∀ m, FTy.slice n e ≠ FTy.slice m t := by
          intro m h
          have h2 : e = t := by injection h
          have h3 : e.dims.2 = 0 := by
            cases t with
            | slice n e => exact absurd rfl (htn n e)
            | iface i => rw [h2]; rfl
            | other i => rw [h2]; rfl
          omega
        cases hv with
        | slice vs _ _ hvs =>
          have hval : sliceFlattenT t (some (FTy.slice n e, .node vs)) =
              if none ∈ (FVal.node vs).leaves then .error .assertion else .ok (FVal.node vs).leaves := by
            simp only [sliceFlattenT]
            rw [if_neg (by simp [ht]), if_neg (by omega), flatSlice_eq]
            have hl : (FVal.node vs).leaves = leavesL vs := by rw [FVal.leaves]
            rw [hl]
            by_cases hn : none ∈ leavesL vs
            · simp [hn]
            · rw [if_neg hn, if_neg hn]
              simp only [List.nil_append]
              rw [map_some_filterMap hn]
          rw [hval]
          by_cases hn : none ∈ (FVal.node vs).leaves
          · rw [if_pos hn]
            refine ⟨⟨fun h => (by cases h), fun h => absurd h hns⟩, ⟨fun h => (by cases h), fun h => absurd h hnotT⟩, ⟨fun _ => ⟨htn, Or.inr ⟨k, hover, hn⟩⟩, fun _ => rfl⟩, fun r => ⟨fun h => (by cases h), ?_⟩⟩
            rintro ⟨-, -, h | ⟨j, -, h⟩⟩
            · exact absurd h (hne none)
            · exact absurd hn h
          · rw [if_neg hn]
            refine ⟨⟨fun h => (by cases h), fun h => absurd h hns⟩, ⟨fun h => (by cases h), fun h => absurd h hnotT⟩, ⟨fun h => (by cases h), ?_⟩, fun r => ⟨?_, ?_⟩⟩
            · rintro ⟨-, ⟨m, h⟩ | ⟨j, -, h⟩⟩
              · exact absurd h (hne (some m))
              · exact absurd h hn
            · intro h; cases h; exact ⟨htn, rfl, Or.inr ⟨k, hover, hn⟩⟩
            · rintro ⟨-, rfl, -⟩; rfl
    · have hval : sliceFlattenT t (some (FTy.slice n e, v)) = .error .notT := by
        simp only [sliceFlattenT]
        rw [if_pos ht]
      have hno : ∀ k, t.NoSlice → ¬ Over (k + 1) (FTy.slice n e) t := by
        intro k htn h
        have := over_dims (hov _ _ h) htn
        exact ht (by rw [this])
      rw [hval]
      refine ⟨⟨fun h => (by cases h), fun h => absurd h hns⟩, ⟨fun _ => ⟨_, e.dims.1, .succ _ _ _ _ (dims_over e), dims_noSlice e, fun h => ht h.symm⟩, fun _ => rfl⟩,
        ⟨fun h => (by cases h), ?_⟩, fun r => ⟨fun h => (by cases h), ?_⟩⟩
      · rintro ⟨htn, ⟨m, h⟩ | ⟨k, h, -⟩⟩
        · have : Over (0 + 1) (FTy.slice n e) t := by rw [h]; exact .succ _ _ _ _ (.zero _)
          exact absurd this (hno 0 htn)
        · exact absurd h (hno (k + 1) htn)
      · rintro ⟨htn, -, h | ⟨k, h, -⟩⟩
        · have : Over (0 + 1) (FTy.slice n e) t := by rw [h]; exact .succ _ _ _ _ (.zero _)
          exact absurd this (hno 0 htn)
        · exact absurd h (hno (k + 1) htn)

/-- [][]int{{1, 2}, {3}} -/
example : sliceFlattenT (α := Nat) (.other 0) (some (.slice none (.slice none (.other 0)), .node [.node [.leaf (some 1), .leaf (some 2)], .node [.leaf (some 3)]])) =
    .ok [some 1, some 2, some 3] := by rfl
example : HasTy (α := Nat) (.node [.node [.leaf (some 1), .leaf (some 2)], .node [.leaf (some 3)]]) (.slice none (.slice none (.other 0))) := by
  refine .slice _ _ _ ?_
  intro v hv
  simp at hv
  rcases hv with rfl | rfl <;> refine .slice _ _ _ ?_ <;> intro v hv <;> simp at hv
  · rcases hv with rfl | rfl <;> exact .other _ _
  · rcases hv with rfl; exact .other _ _

/-- C51. If T is itself a slice type, SliceFlatten[T] panics for every value but nil: it cannot stop at the elements of type T. -/
theorem c51_slice_of_slices (n : Option Nat) (e ty : FTy) (v : FVal α) (hv : HasTy v ty) :
    ∃ err, sliceFlattenT (.slice n e) (some (ty, v)) = .error err := by
  cases h : sliceFlattenT (.slice n e) (some (ty, v)) with
  | error err => exact ⟨err, rfl⟩
  | ok r =>
    have := ((c51_types (.slice n e) ty v hv).2.2.2.2 r).1 h
    exact absurd rfl (this.1 n e)

/-- SliceFlatten[[]int]([][][]int{...}) -/
example : sliceFlattenT (α := Nat) (.slice none (.other 0)) (some (.slice none (.slice none (.slice none (.other 0))), .node [.node [.node [.leaf (some 1)]]])) =
    .error .notT := by rfl

end Micro.Funcs
