import Verif.Reflect.Lemmas
import Mathlib.Tactic.IntervalCases
import Mathlib.Data.List.Nodup
/-
C85-C92: dereferencing, classification, base types, assertions, Maybe by reflection.
-/
namespace Micro.Reflect

variable {T : Type} [DecidableEq T] (u : Univ T (Content T))

/-! ### The example universe has the facts assumed of Go types -/

theorem goUniv_maybe {t o : GoTy} : IsMaybe goUniv t o ↔ t = .maybe o := by
  constructor
  · rintro ⟨_, _, h⟩
    cases t <;> simp [goUniv] at h
    rw [h]
  · rintro rfl
    exact ⟨rfl, ⟨"x]".toList, by show "Maybe[x]".toList = _; decide⟩, rfl⟩

theorem goUniv_lawful : goUniv.Lawful where
  predeclared_kind k hk := by simp [Primitive] at hk; rcases hk with rfl | rfl | rfl | rfl | rfl | rfl | rfl | rfl | rfl | rfl | rfl | rfl | rfl | rfl | rfl | rfl <;> rfl
  predeclared_str k hk := by simp [Primitive] at hk; rcases hk with rfl | rfl | rfl | rfl | rfl | rfl | rfl | rfl | rfl | rfl | rfl | rfl | rfl | rfl | rfl | rfl <;> rfl
  str_predeclared t hk hs := by
    cases t with
    | prim k =>
      simp only [goUniv, GoTy.kind] at *
      by_cases h : hasBaseType k
      · simp [h]
      · simp [h, Primitive] at hk
    | named n k =>
      exfalso
      have h1 : (goUniv.str (.named n k)).toList.head? = some 'm' := by
        simp only [goUniv, String.toList_append]; rfl
      rw [hs] at h1
      revert h1 hk
      generalize goUniv.kind (.named n k) = kk
      intro hk
      cases kk <;> first | decide | (exfalso; revert hk; simp [Primitive])
    | _ => simp [goUniv, GoTy.kind, Primitive] at hk
  ptr_kind t := rfl
  ptr_elem t := rfl
  ptr_name t := rfl
  big_kind t h := by rcases h with rfl | rfl | rfl <;> rfl
  maybe_kind t o h := by obtain rfl := goUniv_maybe.1 h; rfl
  assign_self t c := by simp [goUniv]
  convert_self t c := by simp [goUniv]

/-! ### C85: types -/

/-- C85: DerefType returns the type its argument is pointers to. -/
theorem c85_derefType (t r : T) : derefType u t = some r ↔ ∃ n, Stars u t n r ∧ u.kind r ≠ .pointer :=
  ⟨derefType_sound u, fun ⟨_, h1, h2⟩ => derefType_stars u h1 h2⟩

/-- C85: NumPointers counts them. -/
theorem c85_numPointers (t : T) (n : Nat) : numPointers u t = some n ↔ ∃ r, Stars u t n r ∧ u.kind r ≠ .pointer := by
  constructor
  · intro h
    obtain ⟨j, r, rfl, h1, h2⟩ := numPointersFrom_sound u h
    rw [Nat.zero_add]
    exact ⟨r, h1, h2⟩
  · rintro ⟨r, h1, h2⟩
    have := numPointersFrom_stars u h1 h2 0
    simpa [numPointers] using this

/-- C85: DerefTypeMaxOnePtr returns its argument if that is no pointer, otherwise the single pointer at the end of the chain. -/
theorem c85_maxOne (t r : T) : derefTypeMaxOnePtr u t = some r ↔
    (u.kind t ≠ .pointer ∧ r = t) ∨ ∃ n, Stars u t n r ∧ u.kind r = .pointer ∧ u.kind (u.elem r) ≠ .pointer := by
  constructor
  · exact maxOne_sound u
  · rintro (⟨h, rfl⟩ | ⟨n, h1, h2, h3⟩)
    · rw [derefTypeMaxOnePtr.eq_def]; simp [h]
    · exact maxOne_stars u h1 h2 h3

/-- C85: ValueMaxOnePtrType is the type at the end of a chain of at most one pointer, and nil (`none`) otherwise. -/
theorem c85_valueMaxOne (v : Value T) (r : T) : valueMaxOnePtrType u v = some r ↔
    ∃ t c l n, v = .val t c l ∧ n ≤ 1 ∧ Stars u t n r ∧ u.kind r ≠ .pointer := by
  constructor
  · intro h
    cases v with
    | invalid => simp [valueMaxOnePtrType] at h
    | val t c l =>
      simp only [valueMaxOnePtrType] at h
      split at h
      · rename_i hp
        split at h
        · simp at h
        · rename_i hq
          cases h
          exact ⟨t, c, l, 1, rfl, le_refl _, Stars.succ u hp (Stars.zero u), hq⟩
      · rename_i hp
        obtain rfl := Option.some.inj h
        exact ⟨_, c, l, 0, rfl, by omega, Stars.zero u, hp⟩
  · rintro ⟨t, c, l, n, rfl, hn, hs, hr⟩
    simp only [valueMaxOnePtrType]
    rcases Nat.le_one_iff_eq_zero_or_eq_one.mp hn with rfl | rfl
    · obtain ⟨rfl, -⟩ := hs
      exact if_neg hr
    · obtain ⟨h1, h2⟩ := Stars.pred u hs
      obtain ⟨rfl, -⟩ := h2
      rw [if_pos h1]
      exact if_neg hr

/-- Non-vacuity: a *int and a **int. -/
example : valueMaxOnePtrType goUniv (.val (.ptr (.prim .int)) .nil none) = some (.prim .int) ∧ valueMaxOnePtrType goUniv (.val (.ptr (.ptr (.prim .int))) .nil none) = none := by
  decide

/-- C85 fails for `type P *P`: none of the three functions returns. -/
theorem c85_returns_refuted : derefType goUniv .endless = none ∧ derefTypeMaxOnePtr goUniv .endless = none ∧
    numPointers goUniv .endless = none := by
  have hi : ∀ n, goUniv.elem^[n] .endless = .endless := by
    intro n; induction n with
    | zero => rfl
    | succ n ih => rw [Function.iterate_succ_apply]; exact ih
  refine ⟨?_, ?_, ?_⟩
  · cases h : derefType goUniv .endless with
    | none => rfl
    | some r =>
      obtain ⟨n, h1, h2⟩ := (c85_derefType _ _ _).1 h
      rw [← h1.1, hi] at h2; exact absurd rfl h2
  · cases h : derefTypeMaxOnePtr goUniv .endless with
    | none => rfl
    | some r =>
      rcases (c85_maxOne _ _ _).1 h with ⟨h1, _⟩ | ⟨n, h1, _, h2⟩
      · exact absurd rfl h1
      · rw [← h1.1, hi] at h2; exact absurd rfl h2
  · cases h : numPointers goUniv .endless with
    | none => rfl
    | some r =>
      obtain ⟨s, h1, h2⟩ := (c85_numPointers _ _ _).1 h
      rw [← h1.1, hi] at h2; exact absurd rfl h2

/-- C85, partial: for every type that is not endlessly many pointers all three return, and DerefTypeMaxOnePtr gives at most one
pointer to the type DerefType gives. -/
theorem c85_returns_partial (t : T) (h : ¬ Endless u t) : ∃ r n s, derefType u t = some r ∧ numPointers u t = some n ∧
    derefTypeMaxOnePtr u t = some s ∧ derefType u s = some r ∧ numPointers u s = some (min n 1) := by
  obtain h' | ⟨n, r, h1, h2⟩ := stars_or_endless u t
  · exact absurd h' h
  · refine ⟨r, n, ?_⟩
    cases n with
    | zero =>
      have h1' := h1
      obtain ⟨rfl, _⟩ := h1
      exact ⟨t, (c85_derefType _ _ _).2 ⟨0, h1', h2⟩, (c85_numPointers _ _ _).2 ⟨_, h1', h2⟩,
        (c85_maxOne _ _ _).2 (Or.inl ⟨h2, rfl⟩), (c85_derefType _ _ _).2 ⟨0, h1', h2⟩,
        (c85_numPointers _ _ _).2 ⟨_, h1', h2⟩⟩
    | succ n =>
      have hp : u.kind (u.elem^[n] t) = .pointer := h1.2 n (by omega)
      have he : u.elem (u.elem^[n] t) = r := by rw [← Function.iterate_succ_apply' u.elem]; exact h1.1
      have hs : Stars u t n (u.elem^[n] t) := ⟨rfl, fun i hi => h1.2 i (by omega)⟩
      have h11 : Stars u (u.elem^[n] t) 1 r := Stars.succ u hp (he ▸ Stars.zero u)
      refine ⟨u.elem^[n] t, (c85_derefType _ _ _).2 ⟨_, h1, h2⟩, (c85_numPointers _ _ _).2 ⟨_, h1, h2⟩,
        (c85_maxOne _ _ _).2 (Or.inr ⟨n, hs, hp, by rw [he]; exact h2⟩), (c85_derefType _ _ _).2 ⟨1, h11, h2⟩, ?_⟩
      rw [show min (n + 1) 1 = 1 by omega]
      exact (c85_numPointers _ _ _).2 ⟨_, h11, h2⟩

example : ¬ Endless goUniv (.ptr (.ptr (.named "S" .struct))) ∧ numPointers goUniv (.ptr (.ptr (.named "S" .struct))) = some 2 :=
  ⟨fun h => absurd (h 2) (by decide), (c85_numPointers _ _ _).2 ⟨.named "S" .struct, ⟨rfl, by
    intro i hi; interval_cases i <;> rfl⟩, by decide⟩⟩

/-! ### C86: values -/

/-- C86: DerefValue returns the variable at the end of the chain of pointers, or the invalid Value if there is a nil pointer on
the way. -/
theorem c86_derefValue (ty : Nat → T) (m : Mem T) (hm : TypedMem u ty m) (v w : Value T) (hv : TypedVal u ty m v) :
    derefValue u m v = some w ↔
      (Reaches u m v w ∧ ¬ IsPtr u w) ∨ (w = .invalid ∧ ∃ x t, Reaches u m v x ∧ NilPtrTo u x t) := by
  constructor
  · exact derefValue_sound hm hv
  · rintro (⟨h1, h2⟩ | ⟨rfl, x, t, h1, h2⟩)
    · rw [derefValue_reaches h1, derefValue_end h2]
    · rw [derefValue_reaches h1, derefValue_nil h2]

/-- C86: DerefValueMaxOnePtr returns a value that is no pointer as it is, otherwise the last pointer of the chain (nil or not), or
the invalid Value if there is a nil pointer to a pointer on the way. -/
theorem c86_maxOne (ty : Nat → T) (m : Mem T) (hm : TypedMem u ty m) (v w : Value T) (hv : TypedVal u ty m v) :
    derefValueMaxOnePtr u m v = some w ↔
      (¬ IsPtr u v ∧ w = v) ∨
      (Reaches u m v w ∧ ∃ t c l, w = .val t c l ∧ u.kind t = .pointer ∧ u.kind (u.elem t) ≠ .pointer) ∨
      (w = .invalid ∧ ∃ x t, Reaches u m v x ∧ NilPtrTo u x t ∧ u.kind t = .pointer) := by
  constructor
  · exact maxOneV_sound hm hv
  · rintro (⟨h1, rfl⟩ | ⟨h1, t, c, l, rfl, h2, h3⟩ | ⟨rfl, x, t, h1, h2, h3⟩)
    · exact maxOneV_end h1
    · rw [maxOneV_reaches h1 h2, maxOneV_last h2 h3]
    · rw [maxOneV_reaches h1 (by obtain ⟨s, l, rfl, hs, _⟩ := h2; exact hs), maxOneV_nil h2 h3]

/-- Memory in which location 0 holds a pointer of type P (`type P *P`) to itself. -/
def selfMem : Mem GoTy := fun _ => .ptr 0

theorem selfMem_typed : TypedMem goUniv (fun _ => .endless) selfMem := by
  intro a
  refine ⟨fun _ => Or.inr ⟨0, rfl, rfl⟩, fun h => by simp [goUniv, GoTy.kind] at h, fun o h => ?_⟩
  cases goUniv_maybe.1 h

/-- C86 fails for a pointer to itself (`type P *P; var p P; p = &p`): DerefValue and DerefValueMaxOnePtr do not return. -/
theorem c86_returns_refuted : derefValue goUniv selfMem (.val .endless (.ptr 0) (some 0)) = none ∧
    derefValueMaxOnePtr goUniv selfMem (.val .endless (.ptr 0) (some 0)) = none := by
  have hv : TypedVal goUniv (fun _ => .endless) selfMem (.val .endless (.ptr 0) (some 0)) :=
    ⟨selfMem_typed 0, by rintro a ⟨⟩; exact ⟨rfl, rfl⟩⟩
  have hr : ∀ w, Reaches goUniv selfMem (.val .endless (.ptr 0) (some 0)) w → w = .val .endless (.ptr 0) (some 0) := by
    intro w h
    induction h with
    | refl => rfl
    | tail _ h ih => subst ih; cases h; rfl
  constructor
  · cases h : derefValue goUniv selfMem (.val .endless (.ptr 0) (some 0)) with
    | none => rfl
    | some w =>
      rcases (c86_derefValue _ _ _ selfMem_typed _ _ hv).1 h with ⟨h1, h2⟩ | ⟨_, x, t, h1, s, l, h2, _⟩
      · rw [hr _ h1] at h2; exact absurd rfl h2
      · rw [hr _ h1] at h2; cases h2
  · cases h : derefValueMaxOnePtr goUniv selfMem (.val .endless (.ptr 0) (some 0)) with
    | none => rfl
    | some w =>
      rcases (c86_maxOne _ _ _ selfMem_typed _ _ hv).1 h with ⟨h1, _⟩ | ⟨h1, t, c, l, h2, _, h3⟩ | ⟨_, x, t, h1, ⟨s, l, h2, _⟩, _⟩
      · exact absurd rfl h1
      · rw [hr _ h1] at h2; cases h2; exact absurd rfl h3
      · rw [hr _ h1] at h2; cases h2

/-- C86, partial: for values whose type is not endlessly many pointers both functions return; DerefValue gives the invalid Value
or an (addressable, if there was a pointer) value of the type DerefType gives. -/
theorem c86_returns_partial (ty : Nat → T) (m : Mem T) (hm : TypedMem u ty m) (t : T) (c : Content T) (l : Option Nat)
    (hv : TypedVal u ty m (.val t c l)) (h : ¬ Endless u t) :
    ∃ w x r, derefValue u m (.val t c l) = some w ∧ derefValueMaxOnePtr u m (.val t c l) = some x ∧ derefType u t = some r ∧
      (w = .invalid ∨ ∃ c' l', w = .val r c' l' ∧ (u.kind t = .pointer → ∃ a, l' = some a ∧ m a = c' ∧ ty a = r)) := by
  obtain h' | ⟨n, r, h1, h2⟩ := stars_or_endless u t
  · exact absurd h' h
  have hdt := derefType_stars u h1 h2
  have hmax : ∃ x, derefValueMaxOnePtr u m (.val t c l) = some x := by
    clear hdt h
    induction n generalizing t c l with
    | zero => obtain ⟨rfl, _⟩ := h1; exact ⟨_, maxOneV_end h2⟩
    | succ n ih =>
      obtain ⟨h3, h4⟩ := Stars.pred u h1
      by_cases he : u.kind (u.elem t) = .pointer
      · rcases hv.1.1 h3 with rfl | ⟨a, rfl, _⟩
        · exact ⟨_, maxOneV_nil ⟨t, l, rfl, h3, rfl⟩ he⟩
        · have hp : Points u m (.val t (.ptr a) l) (.val (u.elem t) (m a) (some a)) := .mk t a l h3
          rw [maxOneV_step hp he]
          exact ih _ _ _ (typed_step hm hv hp) h4
      · exact ⟨_, maxOneV_last h3 he⟩
  obtain ⟨x, hx⟩ := hmax
  rcases reaches_end hm hv h1 h2 with ⟨c', l', hr⟩ | ⟨y, s, hr, hn⟩
  · refine ⟨_, x, r, (c86_derefValue u ty m hm _ _ hv).2 (Or.inl ⟨hr, h2⟩), hx, hdt, Or.inr ⟨c', l', rfl, ?_⟩⟩
    intro hk
    rcases Relation.ReflTransGen.cases_tail hr with h | ⟨y, _, hy⟩
    · cases h; exact absurd hk h2
    · cases hy
      exact ⟨_, rfl, rfl, ((typed_reaches hm hv hr).2 _ rfl).1⟩
  · exact ⟨_, x, r, (c86_derefValue u ty m hm _ _ hv).2 (Or.inr ⟨rfl, y, s, hr, hn⟩), hx, hdt, Or.inl rfl⟩

/-- Memory with a chain: 2 → 1 → 0, where 0 holds the int 7. -/
def chainMem : Mem GoTy := fun a => if a = 0 then .data 7 else .ptr (a - 1)

theorem chainMem_typed : TypedMem goUniv (fun a => Nat.rec (.prim .int) (fun _ t => GoTy.ptr t) a) chainMem := by
  intro a
  refine ⟨fun h => ?_, fun h => ?_, fun o h => ?_⟩
  · cases a with
    | zero => simp [goUniv, GoTy.kind, hasBaseType] at h
    | succ n => exact Or.inr ⟨n, rfl, rfl⟩
  · cases a <;> simp [goUniv, GoTy.kind, hasBaseType] at h
  · have := goUniv_maybe.1 h; cases a <;> cases this

example : derefValue goUniv chainMem (.val (.ptr (.ptr (.prim .int))) (.ptr 1) none) = some (.val (.prim .int) (.data 7) (some 0)) := by
  have hm := chainMem_typed
  have hv : TypedVal goUniv (fun a => Nat.rec (.prim .int) (fun _ t => GoTy.ptr t) a) chainMem
      (.val (.ptr (.ptr (.prim .int))) (.ptr 1) none) :=
    ⟨⟨fun _ => Or.inr ⟨1, rfl, rfl⟩, by simp [goUniv, GoTy.kind], fun o h => by cases goUniv_maybe.1 h⟩, by simp⟩
  refine (c86_derefValue goUniv _ _ hm _ _ hv).2
    (Or.inl ⟨?_, by simp [IsPtr, Value.kind, goUniv, GoTy.kind, hasBaseType]⟩)
  · exact Reaches.head (.mk _ 1 _ rfl) (Reaches.head (.mk _ 0 _ rfl) (Reaches.refl _))

/-- DerefValueMaxOnePtr of the same pointer stops at the last pointer of the chain. -/
example : derefValueMaxOnePtr goUniv chainMem (.val (.ptr (.ptr (.prim .int))) (.ptr 1) none) = some (.val (.ptr (.prim .int)) (.ptr 0) (some 1)) :=
  (c86_maxOne goUniv _ _ chainMem_typed (.val (.ptr (.ptr (.prim .int))) (.ptr 1) none) _
    ⟨⟨fun _ => Or.inr ⟨1, rfl, rfl⟩, by simp [goUniv, GoTy.kind], fun o h => by cases goUniv_maybe.1 h⟩, by simp⟩).2
    (.inr (.inl ⟨Reaches.head (.mk _ 1 _ rfl) (Reaches.refl _), _, _, _, rfl, rfl, by decide⟩))

/-! ### C87: classification -/

/-- C87: IsSignedInteger, IsUnsignedInteger and IsNumeric hold exactly of the types satisfying constraint.SignedInteger,
UnsignedInteger and Numeric (the kinds for `~`, the three big pointer types themselves); IsPrimitive exactly of the
primitive kinds. -/
theorem c87_kinds (hu : u.Lawful) (t : T) :
    (isSignedInteger u t = true ↔ u.kind t ∈ ([.int, .int8, .int16, .int32, .int64] : List RKind)) ∧
    (isUnsignedInteger u t = true ↔ u.kind t ∈ ([.uint, .uint8, .uint16, .uint32, .uint64] : List RKind)) ∧
    (isNumeric u t = true ↔
      (u.kind t ∈ ([.int, .int8, .int16, .int32, .int64, .uint, .uint8, .uint16, .uint32, .uint64, .float32, .float64] : List RKind)
        ∨ t ∈ [u.bigInt, u.bigFloat, u.bigRat])) ∧
    (isBigPtr u t = true ↔ t ∈ [u.bigInt, u.bigFloat, u.bigRat]) ∧
    (isPrimitive (u.kind t) = true ↔ Primitive (u.kind t)) := by
  have hb : isBigPtr u t = true ↔ t ∈ [u.bigInt, u.bigFloat, u.bigRat] := by simp [isBigPtr]
  refine ⟨?_, ?_, ?_, hb, ?_⟩
  · unfold isSignedInteger; cases u.kind t <;> decide
  · unfold isUnsignedInteger; cases u.kind t <;> decide
  · unfold isNumeric
    rw [decide_eq_true_iff, hb]
    apply or_congr_left
    cases u.kind t <;> decide
  · unfold isPrimitive Primitive; cases u.kind t <;> decide

example : isNumeric goUniv (.named "Celsius" .float64) = true ∧ isNumeric goUniv (.ptr (.big 1)) = true ∧
    isNumeric goUniv (.big 1) = false := by decide

/-- C87: the nillable kinds are Chan, Func, Interface, Map, Pointer and Slice (and Invalid). -/
theorem c87_nillable (k : RKind) : isNillable k = true ↔
    k ∈ ([.invalid, .chan, .func, .interface, .map, .pointer, .slice] : List RKind) := by
  cases k <;> decide

/-- C87: IsNil holds exactly of the invalid Value and of the nil values of these kinds, and panics for none. -/
theorem c87_isNil (v : Value T) : isNil u v = true ↔ v = .invalid ∨
    ∃ t l, v = .val t .nil l ∧ u.kind t ∈ ([.invalid, .chan, .func, .interface, .map, .pointer, .slice] : List RKind) := by
  cases v with
  | invalid => simp [isNil]
  | val t c l =>
    simp only [isNil, Bool.and_eq_true, c87_nillable]
    constructor
    · rintro ⟨h1, h2⟩
      cases c <;> simp [Content.isNil] at h2
      exact Or.inr ⟨t, l, rfl, h1⟩
    · rintro (h | ⟨t', l', h, h2⟩)
      · cases h
      · cases h; exact ⟨h2, rfl⟩

/-! ### C88: base types -/

/-- C88: TypeToBaseType gives the predeclared type for a user defined primitive type, and nil for any other type. -/
theorem c88_typeToBaseType (hu : u.Lawful) (t r : T) : typeToBaseType u t = some r ↔
    Primitive (u.kind t) ∧ t ≠ u.predeclared (u.kind t) ∧ r = u.predeclared (u.kind t) := by
  have hp : hasBaseType (u.kind t) = true ↔ Primitive (u.kind t) := by
    unfold Primitive; cases u.kind t <;> decide
  have hs : Primitive (u.kind t) → ((u.kind t).str ≠ u.str t ↔ t ≠ u.predeclared (u.kind t)) := by
    intro h
    refine not_congr ⟨fun e => hu.str_predeclared t h e.symm, fun e => ?_⟩
    have := hu.predeclared_str _ h
    rw [← e] at this; exact this.symm
  unfold typeToBaseType
  split
  · rename_i h
    rw [hp] at h
    simp only [Option.some.injEq]
    exact ⟨fun e => ⟨h.1, (hs h.1).1 h.2, e.symm⟩, fun e => e.2.2.symm⟩
  · rename_i h
    rw [hp] at h
    simp only [false_iff, reduceCtorEq]
    rintro ⟨h1, h2, _⟩
    exact h ⟨h1, (hs h1).2 h2⟩

example : typeToBaseType goUniv (.named "Celsius" .float64) = some (.prim .float64) ∧
    typeToBaseType goUniv (.prim .float64) = none ∧ typeToBaseType goUniv (.named "S" .struct) = none := by
  refine ⟨(c88_typeToBaseType _ goUniv_lawful _ _).2 ⟨?_, ?_, rfl⟩, ?_, ?_⟩
  · simp [Primitive, goUniv, GoTy.kind]
  · intro h; cases h
  · cases h : typeToBaseType goUniv (.prim .float64) with
    | none => rfl
    | some r => exact absurd rfl ((c88_typeToBaseType _ goUniv_lawful _ _).1 h).2.1
  · cases h : typeToBaseType goUniv (.named "S" .struct) with
    | none => rfl
    | some r => simpa [Primitive, goUniv, GoTy.kind] using ((c88_typeToBaseType _ goUniv_lawful _ _).1 h).1

/-- C88: ValueToBaseType of a value of a user defined primitive type has the predeclared type and the same contents; of a non-nil
pointer to one (of a pointer type without a name) it is the same pointer, typed as pointer to the predeclared type; values of
predeclared types and everything else stay as they are. Missing: pointer types with a name (`c88_defined_pointer_refuted`) and nil
pointers (`c88_nil_refuted`). -/
theorem c88_value_partial (hu : u.Lawful) (m : Mem T) (t : T) (c : Content T) (l : Option Nat) :
    (Primitive (u.kind t) → t ≠ u.predeclared (u.kind t) →
      valueToBaseType u m (.val t c l) = .ok (.val (u.predeclared (u.kind t)) c none)) ∧
    (∀ a, u.kind t = .pointer → u.name t = "" → c = .ptr a → Primitive (u.kind (u.elem t)) → u.elem t ≠ u.predeclared (u.kind (u.elem t)) →
      valueToBaseType u m (.val t c l) = .ok (.val (u.ptrTo (u.predeclared (u.kind (u.elem t)))) c none)) ∧
    ((¬ Primitive (u.kind t) ∨ t = u.predeclared (u.kind t)) →
      (u.kind t = .pointer → ¬ Primitive (u.kind (u.elem t)) ∨ u.elem t = u.predeclared (u.kind (u.elem t))) →
      valueToBaseType u m (.val t c l) = .ok (.val t c l)) := by
  have hp : ∀ t, hasBaseType (u.kind t) = true ↔ Primitive (u.kind t) := by
    intro t; unfold Primitive; cases u.kind t <;> decide
  have hs : ∀ t, Primitive (u.kind t) → ((u.kind t).str ≠ u.str t ↔ t ≠ u.predeclared (u.kind t)) := by
    intro t h
    refine not_congr ⟨fun e => hu.str_predeclared t h e.symm, fun e => ?_⟩
    have := hu.predeclared_str _ h
    rw [← e] at this; exact this.symm
  have hptr : ∀ t, u.kind t = .pointer → ¬ Primitive (u.kind t) := by intro t h; rw [h]; simp [Primitive]
  have hc : ∀ t, (hasBaseType (u.kind t) = true ∧ (u.kind t).str ≠ u.str t) ↔
      (Primitive (u.kind t) ∧ t ≠ u.predeclared (u.kind t)) := by
    intro t; rw [hp]; exact ⟨fun h => ⟨h.1, (hs t h.1).1 h.2⟩, fun h => ⟨h.1, (hs t h.1).2 h.2⟩⟩
  refine ⟨?_, ?_, ?_⟩
  · intro h1 h2
    simp only [valueToBaseType]
    rw [if_pos ((hc t).2 ⟨h1, h2⟩)]
  · rintro a h1 hnm rfl h3 h4
    simp only [valueToBaseType]
    rw [if_neg (fun h => hptr t h1 ((hc t).1 h).1), if_pos h1]
    simp only [Value.elem]
    rw [if_pos ((hc _).2 ⟨h3, h4⟩), if_neg (by simp [hnm])]
  · intro h1 h2
    simp only [valueToBaseType]
    rw [if_neg (fun h => by
      obtain ⟨a, b⟩ := (hc t).1 h
      rcases h1 with h1 | h1
      · exact h1 a
      · exact b h1)]
    split
    · rename_i hk
      cases c with
      | ptr a =>
        simp only [Value.elem]
        rw [if_neg (fun h => by
          obtain ⟨a, b⟩ := (hc _).1 h
          rcases h2 hk with h1 | h1
          · exact h1 a
          · exact b h1)]
      | _ => rfl
    · rfl

example : valueToBaseType goUniv chainMem (.val (.ptr (.named "Age" .int)) (.ptr 0) none) =
    .ok (.val (.ptr (.prim .int)) (.ptr 0) none) :=
  (c88_value_partial goUniv goUniv_lawful chainMem _ _ _).2.1 0 rfl rfl rfl (by simp [Primitive, goUniv, GoTy.kind]) (by intro h; cases h)

/-- C88 fails for nil pointers: a nil *Age (`type Age int`) stays a *Age. -/
theorem c88_nil_refuted (m : Mem GoTy) : valueToBaseType goUniv m (.val (.ptr (.named "Age" .int)) .nil none) =
    .ok (.val (.ptr (.named "Age" .int)) .nil none) := by
  simp [valueToBaseType, goUniv, GoTy.kind, hasBaseType, Value.elem]

/-- C88: ValueToBaseType panics exactly for the non-nil pointers to a user defined primitive type whose own type has a name
(`type P *Age`). -/
theorem c88_panics_iff (hu : u.Lawful) (ty : Nat → T) (m : Mem T) (t : T) (c : Content T) (l : Option Nat) (hv : TypedVal u ty m (.val t c l)) :
    valueToBaseType u m (.val t c l) = .panic ↔
      u.kind t = .pointer ∧ u.name t ≠ "" ∧ c ≠ .nil ∧ Primitive (u.kind (u.elem t)) ∧ u.elem t ≠ u.predeclared (u.kind (u.elem t)) := by
  have hp : ∀ t, hasBaseType (u.kind t) = true ↔ Primitive (u.kind t) := by
    intro t; unfold Primitive; cases u.kind t <;> decide
  have hs : ∀ t, Primitive (u.kind t) → ((u.kind t).str ≠ u.str t ↔ t ≠ u.predeclared (u.kind t)) := by
    intro t h
    refine not_congr ⟨fun e => hu.str_predeclared t h e.symm, fun e => ?_⟩
    have := hu.predeclared_str _ h
    rw [← e] at this; exact this.symm
  have hc : ∀ t, (hasBaseType (u.kind t) = true ∧ (u.kind t).str ≠ u.str t) ↔
      (Primitive (u.kind t) ∧ t ≠ u.predeclared (u.kind t)) := by
    intro t; rw [hp]; exact ⟨fun h => ⟨h.1, (hs t h.1).1 h.2⟩, fun h => ⟨h.1, (hs t h.1).2 h.2⟩⟩
  have hptr : ∀ t, u.kind t = .pointer → ¬ Primitive (u.kind t) := by intro t h; rw [h]; simp [Primitive]
  simp only [valueToBaseType]
  by_cases hk : u.kind t = .pointer
  · rw [if_neg (fun h => hptr t hk ((hc t).1 h).1), if_pos hk]
    rcases hv.1.1 hk with rfl | ⟨a, rfl, _⟩
    · simp [Value.elem]
    · simp only [Value.elem]
      by_cases h1 : hasBaseType (u.kind (u.elem t)) = true ∧ (u.kind (u.elem t)).str ≠ u.str (u.elem t)
      · rw [if_pos h1]
        have := (hc _).1 h1
        by_cases hn : u.name t = ""
        · simp [hn]
        · simp [hn, hk, this]
      · rw [if_neg h1]
        have : ¬ _ := fun h => h1 ((hc (u.elem t)).2 h)
        simp only [reduceCtorEq, false_iff]
        rintro ⟨_, _, _, h⟩
        exact this h
  · simp only [hk, if_false, false_and, iff_false]
    split <;> simp

/-- `type P *Age` with `type Age int`, not nil. -/
example : valueToBaseType goUniv chainMem (.val (.namedPtr "P" (.named "Age" .int)) (.ptr 0) none) = .panic :=
  (c88_panics_iff goUniv goUniv_lawful (fun _ => .named "Age" .int) chainMem _ _ _
    ⟨⟨fun _ => Or.inr ⟨0, rfl, rfl⟩, by simp [goUniv, GoTy.kind], fun o h => by cases goUniv_maybe.1 h⟩, by simp⟩).2
    ⟨rfl, by decide, by simp, by simp [Primitive, goUniv, GoTy.kind], by intro h; cases h⟩

/-- C88 fails for pointers of a defined pointer type: for `type P *Age`, `type Age int`, ValueToBaseType of a non-nil P panics. -/
theorem c88_defined_pointer_refuted (m : Mem GoTy) (a : Nat) (l : Option Nat) :
    valueToBaseType goUniv m (.val (.namedPtr "P" (.named "Age" .int)) (.ptr a) l) = .panic := by
  simp [valueToBaseType, goUniv, GoTy.kind, hasBaseType, Value.elem, RKind.str]

/-! ### C89: type assertions -/

/-- C89 fails for the invalid Value and for a nil interface: TypeAssert panics. -/
theorem c89_nil_refuted (t : GoTy) : typeAssert goUniv .invalid t = .panic ∧
    typeAssert goUniv (.val .any .nil none) t = .panic := by
  simp [typeAssert, resolveValueType, goUniv, GoTy.kind]

/-- C89, partial: for a value that is no interface TypeAssert compares its type; for a non-nil interface it compares the type of the
value inside. It never panics for these, and ResolveValueType keeps the contents. -/
theorem c89_typeAssert_partial (ty : Nat → T) (m : Mem T) (t typ : T) (c : Content T) (l : Option Nat)
    (hv : TypedVal u ty m (.val t c l)) :
    (u.kind t ≠ .interface → (typeAssert u (.val t c l) typ = if t = typ then .ok () else .err ()) ∧
      resolveValueType u (.val t c l) = .val t c l) ∧
    (u.kind t = .interface → c ≠ .nil → ∃ d c', c = .iface d c' ∧
      (typeAssert u (.val t c l) typ = if d = typ then .ok () else .err ()) ∧
      resolveValueType u (.val t c l) = .val d c' none) := by
  constructor
  · intro h
    have hr : resolveValueType u (.val t c l) = .val t c l := by simp [resolveValueType, h]
    refine ⟨?_, hr⟩
    unfold typeAssert; rw [hr]
    by_cases ht : t = typ <;> simp [ht]
  · intro h hn
    rcases hv.1.2.1 h with rfl | ⟨d, c', rfl⟩
    · exact absurd rfl hn
    · have hr : resolveValueType u (.val t (.iface d c') l) = .val d c' none := by simp [resolveValueType, h]
      refine ⟨d, c', rfl, ?_, hr⟩
      unfold typeAssert; rw [hr]
      by_cases ht : d = typ <;> simp [ht]

example : typeAssert goUniv (.val .any (.iface (.prim .int) (.data 3)) none) (.prim .int) = .ok () := by decide

/-! ### C91: SetPointerValue -/

/-- C91: if pointers lead from `dst` to a variable and `val` can be converted to its type, SetPointerValue stores the converted
value there and nowhere else. -/
theorem c91_set (m : Mem T) (dst : Value T) (t s : T) (c c' d : Content T) (a : Nat) (l : Option Nat)
    (hd : Reaches u m dst (.val t d (some a))) (ht : u.kind t ≠ .pointer) (hc : u.convert s t c = some c') :
    ∃ m', setPointerValue u m dst (.val s c l) = some (.ok m') ∧ m' a = c' ∧ ∀ b, b ≠ a → m' b = m b := by
  refine ⟨m.set a c', ?_, by simp [Mem.set], fun b hb => by simp [Mem.set, hb]⟩
  unfold setPointerValue
  rw [derefValue_reaches hd, derefValue_end (show ¬ IsPtr u (.val t d (some a)) from ht)]
  simp [hc]

example : ∃ m', setPointerValue goUniv chainMem (.val (.ptr (.ptr (.prim .int))) (.ptr 1) none) (.val (.named "Age" .int) (.data 9) none)
    = some (.ok m') ∧ m' 0 = .data 9 ∧ ∀ b, b ≠ 0 → m' b = chainMem b :=
  c91_set goUniv chainMem _ (.prim .int) _ _ _ (.data 7) 0 _
    (Reaches.head (.mk _ 1 _ rfl) (Reaches.head (.mk _ 0 _ rfl) (Reaches.refl _)))
    (by simp [goUniv, GoTy.kind, hasBaseType]) rfl

/-- C91: in every other case in which it returns at all it panics: a nil pointer on the way, a destination that is neither a
pointer nor addressable, or a value that is not convertible. -/
theorem c91_panics (ty : Nat → T) (m : Mem T) (hm : TypedMem u ty m) (dst val : Value T) (hv : TypedVal u ty m dst)
    (h : (∃ x t, Reaches u m dst x ∧ NilPtrTo u x t) ∨
      (∃ t d, dst = .val t d none ∧ u.kind t ≠ .pointer) ∨
      (∃ t d l s c l', Reaches u m dst (.val t d l) ∧ u.kind t ≠ .pointer ∧ val = .val s c l' ∧ u.convert s t c = none)) :
    setPointerValue u m dst val = some .panic := by
  unfold setPointerValue
  rcases h with ⟨x, t, h1, h2⟩ | ⟨t, d, rfl, ht⟩ | ⟨t, d, l, s, c, l', h1, ht, rfl, hc⟩
  · rw [derefValue_reaches h1, derefValue_nil h2]
  · rw [derefValue_end (show ¬ IsPtr u (.val t d none) from ht)]
    cases val with
    | invalid => rfl
    | val s c l => cases h : u.convert s t c <;> simp [h]
  · rw [derefValue_reaches h1, derefValue_end (show ¬ IsPtr u (.val t d l) from ht)]
    simp [hc]

/-- An int that is neither a pointer nor addressable. -/
example : setPointerValue goUniv chainMem (.val (.prim .int) (.data 3) none) (.val (.prim .int) (.data 9) none) = some .panic :=
  c91_panics goUniv (fun a => Nat.rec (.prim .int) (fun _ t => GoTy.ptr t) a) chainMem chainMem_typed _ _
    ⟨⟨by simp [goUniv, GoTy.kind, hasBaseType], by simp [goUniv, GoTy.kind, hasBaseType], fun o h => by cases goUniv_maybe.1 h⟩, by simp⟩
    (.inr (.inl ⟨_, _, rfl, by simp [goUniv, GoTy.kind, hasBaseType]⟩))

/-! ### C92: FieldsByName -/

/-- C92: FieldsByName is nil for types that are no struct or have no fields; otherwise it maps each name to the last field of that
name, so for distinct names to the field itself, and other names to nothing. -/
theorem c92_fields (t : T) :
    (fieldsByName u t = none ↔ (u.kind t ≠ .struct ∨ u.fields t = [])) ∧
    (∀ mp, fieldsByName u t = some mp → ∀ n, mp n = ((u.fields t).reverse.find? (fun f => f.1 = n)).map (·.2)) := by
  constructor
  · unfold fieldsByName
    by_cases h : u.kind t = .struct <;> cases hf : u.fields t <;> simp [h]
  · intro mp h n
    unfold fieldsByName at h
    split at h
    · cases h
      suffices ∀ (fs : List (String × T)) (mp0 : String → Option T),
          (fs.foldl (fun mp f => fun n => if n = f.1 then some f.2 else mp n) mp0) n =
            ((fs.reverse.find? (fun f => f.1 = n)).map (·.2)).or (mp0 n) by
        have h := this (u.fields t) (fun _ => none)
        simpa using h
      intro fs
      induction fs with
      | nil => intro mp0; simp
      | cons f fs ih =>
        intro mp0
        rw [List.foldl_cons, ih, List.reverse_cons, List.find?_append]
        cases hx : fs.reverse.find? (fun f => f.1 = n) with
        | some x => simp
        | none =>
          by_cases hn : f.1 = n
          · simp [hn]
          · have hn' : ¬ n = f.1 := fun e => hn e.symm
            simp [hn, hn']
    · cases h

/-- C92: with distinct field names the map has exactly the fields. -/
theorem c92_distinct (t : T) (mp : String → Option T) (h : fieldsByName u t = some mp)
    (hd : ((u.fields t).map (·.1)).Nodup) (n : String) (f : T) : mp n = some f ↔ (n, f) ∈ u.fields t := by
  rw [(c92_fields u t).2 mp h n]
  have hd' : ((u.fields t).reverse.map (·.1)).Nodup := by rw [List.map_reverse]; exact List.nodup_reverse.2 hd
  rw [← List.mem_reverse]
  generalize (u.fields t).reverse = fs at hd'
  induction fs with
  | nil => simp
  | cons g fs ih =>
    obtain ⟨gn, gf⟩ := g
    simp only [List.map_cons, List.nodup_cons] at hd'
    by_cases hg : gn = n
    · subst hg
      simp only [List.find?_cons, decide_true, Option.map_some, Option.some.injEq, List.mem_cons, Prod.mk.injEq, true_and]
      constructor
      · intro e; exact Or.inl e.symm
      · rintro (e | e)
        · exact e.symm
        · exact absurd (List.mem_map.2 ⟨_, e, rfl⟩) hd'.1
    · have hg' : ¬ n = gn := fun e => hg e.symm
      simp only [List.find?_cons, hg, decide_false, List.mem_cons, Prod.mk.injEq, hg', false_and, false_or]
      exact ih hd'.2

/-- C92: GetFieldByName of a struct with distinct field names returns every field FieldsByName has. Of other names it returns what embedded fields
promote, so it panics for them if there are no embedded fields; and it panics for a type that is no struct. -/
theorem c92_get (promoted : T → String → Option T) (t : T) (n : String) :
    (u.kind t ≠ .struct → getFieldByName u promoted t n = none) ∧
    (∀ mp, fieldsByName u t = some mp → ((u.fields t).map (·.1)).Nodup →
      (∀ f, mp n = some f → getFieldByName u promoted t n = some f) ∧ (mp n = none → getFieldByName u promoted t n = promoted t n)) ∧
    (fieldsByName u t = none → u.kind t = .struct → getFieldByName u promoted t n = promoted t n) := by
  refine ⟨fun h => by simp [getFieldByName, h], ?_, ?_⟩
  · intro mp hmp hd
    have hk : u.kind t = .struct := by
      by_contra h
      have := ((c92_fields u t).1).2 (.inl h)
      rw [this] at hmp; cases hmp
    have key : ∀ f, mp n = some f ↔ (n, f) ∈ u.fields t := fun f => c92_distinct u t mp hmp hd n f
    have first : ((u.fields t).find? (fun f => f.1 = n)).map (·.2) = mp n := by
      cases hx : (u.fields t).find? (fun f => f.1 = n) with
      | some x =>
        have h1 := List.find?_some hx
        have h2 := List.mem_of_find?_eq_some hx
        simp only [decide_eq_true_eq] at h1
        have : mp n = some x.2 := (key x.2).2 (by rw [← h1]; exact h2)
        simp [this]
      | none =>
        cases hm : mp n with
        | none => rfl
        | some f =>
          have := (key f).1 hm
          have hn := List.find?_eq_none.1 hx _ this
          simp at hn
    constructor
    · intro f hf
      rw [hf] at first
      cases hx : (u.fields t).find? (fun f => f.1 = n) with
      | none => rw [hx] at first; cases first
      | some x => rw [hx] at first; simp only [Option.map_some, Option.some.injEq] at first; simp [getFieldByName, hk, hx, first]
    · intro hf
      rw [hf] at first
      cases hx : (u.fields t).find? (fun f => f.1 = n) with
      | none => simp [getFieldByName, hk, hx]
      | some x => rw [hx] at first; cases first
  · intro hnil hk
    rcases ((c92_fields u t).1).1 hnil with h | h
    · exact absurd hk h
    · simp [getFieldByName, hk, h]

/-- C92 for two fields with the same name, which only the blank name `_` can be: FieldsByName has the last one, GetFieldByName returns the first. -/
theorem c92_blank : ∃ (v : Univ GoTy (Content GoTy)) (t : GoTy) (mp : String → Option GoTy),
    fieldsByName v t = some mp ∧ mp "_" = some (.prim .string) ∧ getFieldByName v (fun _ _ => none) t "_" = some (.prim .int) :=
  ⟨{ goUniv with fields := fun _ => [("_", .prim .int), ("_", .prim .string)] }, .named "S" .struct, _, rfl, by decide, by decide⟩

example : getFieldByName goUniv (fun _ _ => none) (.named "S" .struct) "B" = some (.prim .string) ∧
    getFieldByName goUniv (fun _ _ => none) (.named "S" .struct) "C" = none ∧ ((goUniv.fields (.named "S" .struct)).map (·.1)).Nodup := by decide

example : ∃ mp, fieldsByName goUniv (.named "S" .struct) = some mp ∧ mp "B" = some (.prim .string) := by
  refine ⟨_, rfl, ?_⟩
  decide

end Micro.Reflect
