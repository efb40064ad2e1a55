import Verif.Strukt.Model
/-
C93: MapToStruct populates the struct.
-/
namespace Micro.Strukt

/-- What the documentation demands of a call that returns nil, for the keys whose value is no sub map and whose field has the same type:
the target is a struct, and every key (that has a field) reached the field whose name is the key in CamelCase. -/
def Populated (mp : List (List Nat × Val)) (before after : Pointee) : Prop :=
  ∃ f g, before = .struct f ∧ after = .struct g ∧
    ∀ k n, (k, Val.int n) ∈ mp → ∀ name, Funcs.snakeToCamel k = some name → (∃ m, f name = some (.int m)) → g name = some (.int n)

/-- What the documentation demands: nil pointers and non-struct types are errors, a key without a field is an error unless it is ignored,
and a call that returns nil populated the struct. -/
structure Documented (f : List (List Nat × Val) → Pointee → List IgnoreMode → Result) : Prop where
  nilPtr : ∀ mp ig, ∃ e p, f mp .nil ig = .ret (some e) p
  notStruct : ∀ mp v ig, ∃ e p, f mp (.notStruct v) ig = .ret (some e) p
  unmapped : ∀ mp flds k v name, (k, v) ∈ mp → Funcs.snakeToCamel k = some name → flds name = none →
    ∃ e p, f mp (.struct flds) [] = .ret (some e) p
  populates : ∀ mp p ig p', f mp p ig = .ret none p' → Populated mp p p'

/-- C93 fails: every one of the four demands does. A nil pointer and a pointer to a non-struct are accepted, a key without a field is
accepted although it is not to be ignored, and `{"a": 1}` does not reach the field `A`. -/
theorem c93_refuted :
    ¬ (∀ mp ig, ∃ e p, mapToStruct mp .nil ig = .ret (some e) p) ∧
    ¬ (∀ mp v ig, ∃ e p, mapToStruct mp (.notStruct v) ig = .ret (some e) p) ∧
    ¬ (∀ mp flds k v name, (k, v) ∈ mp → Funcs.snakeToCamel k = some name → flds name = none →
      ∃ e p, mapToStruct mp (.struct flds) [] = .ret (some e) p) ∧
    ¬ (∀ mp p ig p', mapToStruct mp p ig = .ret none p' → Populated mp p p') := by
  refine ⟨?_, ?_, ?_, ?_⟩
  · intro h
    obtain ⟨e, p, h⟩ := h [] []
    cases h
  · intro h
    obtain ⟨e, p, h⟩ := h [] .other []
    cases h
  · intro h
    obtain ⟨e, p, h⟩ := h [([97], .int 1)] (fun _ => none) [97] (.int 1) [65] (by simp) (by decide) rfl
    cases h
  · intro h
    obtain ⟨f, g, h1, h2, h3⟩ := h [([97], .int 1)] (.struct fun n => if n = [65] then some (.int 0) else none) [] _ rfl
    cases h1
    cases h2
    have := h3 [97] 1 (by simp) [65] (by decide) ⟨0, by simp⟩
    simp at this

theorem c93_not_documented : ¬ Documented mapToStruct := fun h => c93_refuted.1 h.nilPtr

/-- C93, partial (what the code does guarantee, for every map, target and ignore flag): it never panics, returns nil, and leaves
whatever the pointer points to unchanged. The populating half of the property is false. -/
theorem c93_unchanged_partial (mp : List (List Nat × Val)) (p : Pointee) (ig : List IgnoreMode) : mapToStruct mp p ig = .ret none p := by
  unfold mapToStruct Funcs.sliceIndex
  cases ig with
  | nil => rfl
  | cons i r =>
    simp only [List.cons_ne_nil, if_false]
    rw [if_pos (by simp)]
    rfl

example : mapToStruct [([97], .int 1)] (.struct fun _ => none) [true, false] = .ret none (.struct fun _ => none) :=
  c93_unchanged_partial _ _ _

end Micro.Strukt
