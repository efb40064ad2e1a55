import Verif.Reflect.Spec
import Mathlib.Order.Nat
import Mathlib.Data.Nat.Find
/-
Lemmas about pointer chains for C85-C91.
-/
namespace Micro.Reflect

variable {T : Type} [DecidableEq T] (u : Univ T (Content T))

theorem derefType_ptr {t : T} (h : u.kind t = .pointer) : derefType u t = derefType u (u.elem t) := by
  rw [derefType.eq_def]; simp [h]

theorem derefType_base {t : T} (h : u.kind t ≠ .pointer) : derefType u t = some t := by
  rw [derefType.eq_def]; simp [h]

theorem Stars.zero {t : T} : Stars u t 0 t := ⟨rfl, by simp⟩

theorem Stars.succ {t r : T} {n : Nat} (h : u.kind t = .pointer) (hs : Stars u (u.elem t) n r) : Stars u t (n + 1) r := by
  refine ⟨by rw [Function.iterate_succ_apply]; exact hs.1, ?_⟩
  intro i hi
  cases i with
  | zero => exact h
  | succ i => rw [Function.iterate_succ_apply]; exact hs.2 i (by omega)

theorem Stars.pred {t r : T} {n : Nat} (hs : Stars u t (n + 1) r) : u.kind t = .pointer ∧ Stars u (u.elem t) n r := by
  refine ⟨hs.2 0 (by omega), by rw [← Function.iterate_succ_apply]; exact hs.1, ?_⟩
  intro i hi
  rw [← Function.iterate_succ_apply]; exact hs.2 (i + 1) (by omega)

/-- The chain of a type that is not endless. -/
theorem stars_or_endless (t : T) : Endless u t ∨ ∃ n r, Stars u t n r ∧ u.kind r ≠ .pointer := by
  by_cases h : Endless u t
  · exact Or.inl h
  · right
    unfold Endless at h
    have hex : ∃ n, u.kind (u.elem^[n] t) ≠ .pointer := by
      by_contra hc; exact h fun n => by by_contra hn; exact hc ⟨n, hn⟩
    classical
    refine ⟨Nat.find hex, _, ⟨rfl, ?_⟩, Nat.find_spec hex⟩
    intro i hi
    by_contra hn
    exact Nat.find_min hex hi hn

theorem Endless.elem {t : T} (h : Endless u t) : u.kind t = .pointer ∧ Endless u (u.elem t) :=
  ⟨h 0, fun n => by rw [← Function.iterate_succ_apply]; exact h (n + 1)⟩

theorem derefType_stars {t r : T} {n : Nat} (h : Stars u t n r) (hr : u.kind r ≠ .pointer) : derefType u t = some r := by
  induction n generalizing t with
  | zero => obtain ⟨rfl, _⟩ := h; exact derefType_base u hr
  | succ n ih =>
    obtain ⟨h1, h2⟩ := Stars.pred u h
    rw [derefType_ptr u h1]; exact ih h2

/-- Whatever holds of every type DerefType could return by ending at a base type holds of its result. -/
theorem derefType_sound {t r : T} (h : derefType u t = some r) : ∃ n, Stars u t n r ∧ u.kind r ≠ .pointer := by
  refine derefType.partial_correctness u (fun t r => ∃ n, Stars u t n r ∧ u.kind r ≠ .pointer) ?_ t r h
  intro f ih t r h
  split at h
  · rename_i hk
    obtain ⟨n, h1, h2⟩ := ih _ _ h
    exact ⟨n + 1, Stars.succ u hk h1, h2⟩
  · rename_i hk
    cases h
    exact ⟨0, Stars.zero u, hk⟩

theorem numPointersFrom_stars {t r : T} {n : Nat} (h : Stars u t n r) (hr : u.kind r ≠ .pointer) (k : Nat) :
    numPointersFrom u t k = some (k + n) := by
  induction n generalizing t k with
  | zero => obtain ⟨rfl, _⟩ := h; rw [numPointersFrom.eq_def]; simp_all
  | succ n ih =>
    obtain ⟨h1, h2⟩ := Stars.pred u h
    rw [numPointersFrom.eq_def, if_pos h1, ih h2]
    congr 1; omega

theorem numPointersFrom_sound {t : T} {k n : Nat} (h : numPointersFrom u t k = some n) :
    ∃ j r, n = k + j ∧ Stars u t j r ∧ u.kind r ≠ .pointer := by
  refine numPointersFrom.partial_correctness u (fun t k n => ∃ j r, n = k + j ∧ Stars u t j r ∧ u.kind r ≠ .pointer) ?_ t k n h
  intro f ih t k n h
  split at h
  · rename_i hk
    obtain ⟨j, r, h0, h1, h2⟩ := ih _ _ _ h
    exact ⟨j + 1, r, by omega, Stars.succ u hk h1, h2⟩
  · rename_i hk
    cases h
    exact ⟨0, t, rfl, Stars.zero u, hk⟩

theorem maxOne_stars {t r : T} {n : Nat} (h : Stars u t n r) (hr : u.kind r = .pointer) (he : u.kind (u.elem r) ≠ .pointer) :
    derefTypeMaxOnePtr u t = some r := by
  induction n generalizing t with
  | zero => obtain ⟨rfl, _⟩ := h; simp only [Function.iterate_zero, id_eq] at hr he ⊢; rw [derefTypeMaxOnePtr.eq_def]; simp [hr, he]
  | succ n ih =>
    obtain ⟨h1, h2⟩ := Stars.pred u h
    have h3 : u.kind (u.elem t) = .pointer := by
      cases n with
      | zero => rw [show u.elem t = r from h2.1]; exact hr
      | succ n => exact (Stars.pred u h2).1
    rw [derefTypeMaxOnePtr.eq_def, if_pos h1]
    simp only [h3, ne_eq, not_true, if_false]
    exact ih h2

theorem maxOne_sound {t r : T} (h : derefTypeMaxOnePtr u t = some r) :
    (u.kind t ≠ .pointer ∧ r = t) ∨ ∃ n, Stars u t n r ∧ u.kind r = .pointer ∧ u.kind (u.elem r) ≠ .pointer := by
  refine derefTypeMaxOnePtr.partial_correctness u (fun t r => (u.kind t ≠ .pointer ∧ r = t) ∨
    ∃ n, Stars u t n r ∧ u.kind r = .pointer ∧ u.kind (u.elem r) ≠ .pointer) ?_ t r h
  intro f ih t r h
  split at h
  · rename_i hk
    simp only at h
    split at h
    · rename_i hd
      cases h
      exact Or.inr ⟨0, Stars.zero u, hk, hd⟩
    · rename_i hd
      rcases ih _ _ h with ⟨h1, _⟩ | ⟨n, h1, h2⟩
      · exact absurd h1 hd
      · exact Or.inr ⟨n + 1, Stars.succ u hk h1, h2⟩
  · rename_i hk
    cases h
    exact Or.inl ⟨hk, rfl⟩

/-! ### Values -/

variable {u}

theorem Reaches.refl {m : Mem T} (v : Value T) : Reaches u m v v := Relation.ReflTransGen.refl

theorem Reaches.head {m : Mem T} {v w x : Value T} (h : Points u m v w) (h' : Reaches u m w x) : Reaches u m v x :=
  Relation.ReflTransGen.head h h'

theorem Points.unique {m : Mem T} {v w x : Value T} (h : Points u m v w) (h' : Points u m v x) : w = x := by
  cases h; cases h'; rfl

theorem Points.ptr {m : Mem T} {v w : Value T} (h : Points u m v w) : IsPtr u v := by
  cases h; assumption

/-- A value that is no pointer reaches itself only. -/
theorem Reaches.of_not_ptr {m : Mem T} {v w : Value T} (h : ¬ IsPtr u v) (hr : Reaches u m v w) : w = v := by
  rcases Relation.ReflTransGen.cases_head hr with rfl | ⟨x, hx, _⟩
  · rfl
  · exact absurd hx.ptr h

theorem typed_step {ty : Nat → T} {m : Mem T} {v w : Value T} (hm : TypedMem u ty m) (hv : TypedVal u ty m v)
    (h : Points u m v w) : TypedVal u ty m w := by
  obtain ⟨t, a, l, ht⟩ := h
  obtain ⟨h1, h2⟩ := hv
  rcases h1.1 ht with h | ⟨b, hb, hty⟩
  · cases h
  · cases hb
    refine ⟨hty ▸ hm a, ?_⟩
    intro b hb; cases hb; exact ⟨hty, rfl⟩

theorem typed_reaches {ty : Nat → T} {m : Mem T} {v w : Value T} (hm : TypedMem u ty m) (hv : TypedVal u ty m v)
    (h : Reaches u m v w) : TypedVal u ty m w := by
  induction h with
  | refl => exact hv
  | tail _ h ih => exact typed_step hm ih h

/-- A well typed pointer is nil or points to a well typed variable. -/
theorem ptr_cases {ty : Nat → T} {m : Mem T} {v : Value T} (hv : TypedVal u ty m v) (hp : IsPtr u v) :
    (∃ t l, v = .val t .nil l ∧ u.kind t = .pointer) ∨
    (∃ t a l, v = .val t (.ptr a) l ∧ u.kind t = .pointer) := by
  cases v with
  | invalid => simp [IsPtr, Value.kind] at hp
  | val t c l =>
    rcases hv.1.1 hp with rfl | ⟨a, rfl, _⟩
    · exact Or.inl ⟨t, l, rfl, hp⟩
    · exact Or.inr ⟨t, a, l, rfl, hp⟩

theorem derefValue_step {m : Mem T} {v w : Value T} (h : Points u m v w) : derefValue u m v = derefValue u m w := by
  obtain ⟨t, a, l, ht⟩ := h
  rw [derefValue.eq_def]
  simp [Value.kind, ht, Value.elem]

theorem derefValue_end {m : Mem T} {v : Value T} (h : ¬ IsPtr u v) : derefValue u m v = some v := by
  have h' : ¬ v.kind u = .pointer := h
  rw [derefValue.eq_def, if_neg h']

theorem derefValue_nil {m : Mem T} {v : Value T} {t : T} (h : NilPtrTo u v t) : derefValue u m v = some .invalid := by
  obtain ⟨s, l, rfl, hs, _⟩ := h
  rw [derefValue.eq_def]; simp [Value.kind, hs]

theorem derefValue_reaches {m : Mem T} {v w : Value T} (h : Reaches u m v w) : derefValue u m v = derefValue u m w := by
  induction h with
  | refl => rfl
  | tail _ h ih => rw [ih, derefValue_step h]

theorem derefValue_sound {ty : Nat → T} {m : Mem T} {v w : Value T} (hm : TypedMem u ty m) (hv : TypedVal u ty m v)
    (h : derefValue u m v = some w) :
    (Reaches u m v w ∧ ¬ IsPtr u w) ∨ (w = .invalid ∧ ∃ x t, Reaches u m v x ∧ NilPtrTo u x t) := by
  revert hv
  refine derefValue.partial_correctness u m (fun v w => TypedVal u ty m v → (Reaches u m v w ∧ ¬ IsPtr u w) ∨
    (w = .invalid ∧ ∃ x t, Reaches u m v x ∧ NilPtrTo u x t)) ?_ v w h
  intro f ih v w h hv
  by_cases hk : v.kind u = .pointer
  · rw [if_pos hk] at h
    rcases ptr_cases hv hk with ⟨t, l, rfl, ht⟩ | ⟨t, a, l, rfl, ht⟩
    · simp only [Option.some.injEq] at h
      exact Or.inr ⟨h.symm, _, _, Reaches.refl _, t, l, rfl, ht, rfl⟩
    · have hp : Points u m (.val t (.ptr a) l) (.val (u.elem t) (m a) (some a)) := .mk t a l ht
      rcases ih _ _ h (typed_step hm hv hp) with ⟨h1, h2⟩ | ⟨h1, x, s, h2, h3⟩
      · exact Or.inl ⟨Reaches.head hp h1, h2⟩
      · exact Or.inr ⟨h1, x, s, Reaches.head hp h2, h3⟩
  · rw [if_neg hk] at h
    cases h
    exact Or.inl ⟨Reaches.refl _, hk⟩

theorem maxOneV_end {m : Mem T} {v : Value T} (h : ¬ IsPtr u v) : derefValueMaxOnePtr u m v = some v := by
  have h' : ¬ v.kind u = .pointer := h
  rw [derefValueMaxOnePtr.eq_def, if_neg h']

theorem maxOneV_step {m : Mem T} {v w : Value T} (h : Points u m v w) (hw : IsPtr u w) :
    derefValueMaxOnePtr u m v = derefValueMaxOnePtr u m w := by
  obtain ⟨t, a, l, ht⟩ := h
  rw [derefValueMaxOnePtr.eq_def]
  simp only [IsPtr, Value.kind] at hw
  simp [Value.kind, ht, Value.elem, hw, Content.isNil]

theorem maxOneV_last {m : Mem T} {t : T} {c : Content T} {l : Option Nat} (h : u.kind t = .pointer)
    (he : u.kind (u.elem t) ≠ .pointer) : derefValueMaxOnePtr u m (.val t c l) = some (.val t c l) := by
  rw [derefValueMaxOnePtr.eq_def]
  cases c <;> simp [Value.kind, h, he, Value.elem]

theorem maxOneV_nil {m : Mem T} {v : Value T} {t : T} (h : NilPtrTo u v t) (ht : u.kind t = .pointer) :
    derefValueMaxOnePtr u m v = some .invalid := by
  obtain ⟨s, l, rfl, hs, rfl⟩ := h
  rw [derefValueMaxOnePtr.eq_def]; simp [Value.kind, hs, ht, Content.isNil]

theorem maxOneV_reaches {m : Mem T} {v w : Value T} (h : Reaches u m v w) (hw : IsPtr u w) :
    derefValueMaxOnePtr u m v = derefValueMaxOnePtr u m w := by
  induction h with
  | refl => rfl
  | tail _ h ih => rw [ih h.ptr, maxOneV_step h hw]

theorem maxOneV_sound {ty : Nat → T} {m : Mem T} {v w : Value T} (hm : TypedMem u ty m) (hv : TypedVal u ty m v)
    (h : derefValueMaxOnePtr u m v = some w) :
    (¬ IsPtr u v ∧ w = v) ∨
    (Reaches u m v w ∧ ∃ t c l, w = .val t c l ∧ u.kind t = .pointer ∧ u.kind (u.elem t) ≠ .pointer) ∨
    (w = .invalid ∧ ∃ x t, Reaches u m v x ∧ NilPtrTo u x t ∧ u.kind t = .pointer) := by
  revert hv
  refine derefValueMaxOnePtr.partial_correctness u m (fun v w => TypedVal u ty m v →
    (¬ IsPtr u v ∧ w = v) ∨
    (Reaches u m v w ∧ ∃ t c l, w = .val t c l ∧ u.kind t = .pointer ∧ u.kind (u.elem t) ≠ .pointer) ∨
    (w = .invalid ∧ ∃ x t, Reaches u m v x ∧ NilPtrTo u x t ∧ u.kind t = .pointer)) ?_ v w h
  intro f ih v w h hv
  by_cases hk : v.kind u = .pointer
  · rw [if_pos hk] at h
    right
    by_cases he : ∃ t c l, v = .val t c l ∧ u.kind (u.elem t) ≠ .pointer
    · obtain ⟨t, c, l, rfl, he⟩ := he
      left
      simp only [he, and_false, if_false] at h
      rw [if_pos (by cases c <;> simp [Value.elem, Value.kind, he])] at h
      cases h
      exact ⟨Reaches.refl _, t, c, l, rfl, hk, he⟩
    · rcases ptr_cases hv hk with ⟨t, l, rfl, ht⟩ | ⟨t, a, l, rfl, ht⟩
      · have he' : u.kind (u.elem t) = .pointer := by by_contra hc; exact he ⟨_, _, _, rfl, hc⟩
        right
        simp only [he', Content.isNil, and_true, if_true] at h
        exact ⟨(Option.some.inj h).symm, _, _, Reaches.refl _, ⟨t, l, rfl, ht, rfl⟩, he'⟩
      · have he' : u.kind (u.elem t) = .pointer := by by_contra hc; exact he ⟨_, _, _, rfl, hc⟩
        have hp : Points u m (.val t (.ptr a) l) (.val (u.elem t) (m a) (some a)) := .mk t a l ht
        simp only [Content.isNil, Bool.false_eq_true, false_and, if_false, Value.elem, Value.kind, he', ne_eq, not_true] at h
        rcases ih _ _ h (typed_step hm hv hp) with ⟨h1, _⟩ | ⟨h1, h2⟩ | ⟨h1, x, s, h2, h3⟩
        · exact absurd he' h1
        · exact Or.inl ⟨Reaches.head hp h1, h2⟩
        · exact Or.inr ⟨h1, x, s, Reaches.head hp h2, h3⟩
  · rw [if_neg hk] at h
    cases h
    exact Or.inl ⟨hk, rfl⟩

/-- From a value whose type is `n` pointers to `r`, following pointers ends at an `r` or at a nil pointer. -/
theorem reaches_end {ty : Nat → T} {m : Mem T} (hm : TypedMem u ty m) {n : Nat} {t r : T} {c : Content T} {l : Option Nat}
    (hv : TypedVal u ty m (.val t c l)) (hs : Stars u t n r) (hr : u.kind r ≠ .pointer) :
    (∃ c' l', Reaches u m (.val t c l) (.val r c' l')) ∨ ∃ x s, Reaches u m (.val t c l) x ∧ NilPtrTo u x s := by
  induction n generalizing t c l with
  | zero => obtain ⟨rfl, _⟩ := hs; exact Or.inl ⟨c, l, Reaches.refl _⟩
  | succ n ih =>
    obtain ⟨h1, h2⟩ := Stars.pred u hs
    rcases hv.1.1 h1 with rfl | ⟨a, rfl, _⟩
    · exact Or.inr ⟨_, _, Reaches.refl _, t, l, rfl, h1, rfl⟩
    · have hp : Points u m (.val t (.ptr a) l) (.val (u.elem t) (m a) (some a)) := .mk t a l h1
      rcases ih (typed_step hm hv hp) h2 with ⟨c', l', h⟩ | ⟨x, s, h, h'⟩
      · exact Or.inl ⟨c', l', Reaches.head hp h⟩
      · exact Or.inr ⟨x, s, Reaches.head hp h, h'⟩

/-- The type of a reached value is some number of pointers below. -/
theorem reaches_stars {m : Mem T} {v w : Value T} (h : Reaches u m v w) {t s : T} {c d : Content T} {l l' : Option Nat}
    (hv : v = .val t c l) (hw : w = .val s d l') : ∃ n, Stars u t n s := by
  induction h using Relation.ReflTransGen.head_induction_on generalizing t c l with
  | refl => rw [hv] at hw; cases hw; exact ⟨0, Stars.zero u⟩
  | head h _ ih =>
    obtain ⟨t', a, l'', ht⟩ := h
    cases hv
    obtain ⟨n, hn⟩ := ih rfl
    exact ⟨n + 1, Stars.succ u ht hn⟩

theorem derefType_reaches {m : Mem T} {t s : T} {c d : Content T} {l l' : Option Nat}
    (h : Reaches u m (.val t c l) (.val s d l')) : derefType u t = derefType u s := by
  obtain ⟨n, hn⟩ := reaches_stars h rfl rfl
  clear h
  induction n generalizing t with
  | zero => obtain ⟨rfl, _⟩ := hn; rfl
  | succ n ih =>
    obtain ⟨h1, h2⟩ := Stars.pred u hn
    rw [derefType_ptr u h1]; exact ih h2

end Micro.Reflect
