import Verif.Reflect.Props
/-
C90: access to a union.Maybe by reflection.
-/
namespace Micro.Reflect

variable {T : Type} [DecidableEq T] {u : Univ T (Content T)}

theorem getMaybeType_some {s t o : T} (h : derefType u s = some t) (hm : IsMaybe u t o) :
    getMaybeType u s = some (some o) := by
  obtain ⟨h1, ⟨rest, h2⟩, h3⟩ := hm
  unfold getMaybeType
  rw [h]
  simp only [h1, unionPkgPath, h2, h3, true_and]
  rw [if_pos (by simp)]

theorem getMaybeType_none {s t : T} (h : derefType u s = some t) (hm : ∀ o, ¬ IsMaybe u t o) :
    getMaybeType u s = some none := by
  unfold getMaybeType
  rw [h]
  simp only
  split
  · rename_i hc
    cases hg : u.getOut t with
    | none => rfl
    | some o =>
      obtain ⟨rest, hr⟩ := List.isPrefixOf_iff_prefix.1 hc.2
      exact absurd ⟨hc.1, ⟨rest, hr.symm⟩, hg⟩ (hm o)
  · rfl

/-- What the four functions find when pointers lead from `v` to a Maybe. -/
theorem maybe_access (hu : u.Lawful) {m : Mem T} {v : Value T} {t o : T} {c : Content T} {p : Bool} {l : Option Nat}
    (hr : Reaches u m v (.val t (.maybe c p) l)) (ht : IsMaybe u t o) :
    (∃ s d l0, v = .val s d l0 ∧ getMaybeType u s = some (some o)) ∧ safeMaybeAccess u v = some true ∧
    (∃ w, derefValueMaxOnePtr u m v = some w ∧ maybeReceiver u m w = some (c, p)) ∧
    derefValue u m v = some (.val t (.maybe c p) l) := by
  have hk : u.kind t ≠ .pointer := by rw [hu.maybe_kind t o ht]; decide
  have hv : ∃ s d l0, v = .val s d l0 := by
    rcases Relation.ReflTransGen.cases_head hr with rfl | ⟨y, hy, _⟩
    · exact ⟨_, _, _, rfl⟩
    · cases hy; exact ⟨_, _, _, rfl⟩
  obtain ⟨s, d, l0, rfl⟩ := hv
  have hdt : derefType u s = some t := by rw [derefType_reaches hr, derefType_base u hk]
  have hg := getMaybeType_some hdt ht
  refine ⟨⟨s, d, l0, rfl, hg⟩, ?_, ?_, ?_⟩
  · simp only [safeMaybeAccess, hg]
    rcases Relation.ReflTransGen.cases_head hr with h | ⟨y, hy, _⟩
    · cases h; simp [hk]
    · cases hy; simp [Content.isNil]
  · rcases Relation.ReflTransGen.cases_tail hr with h | ⟨y, hy, hy'⟩
    · cases h
      exact ⟨_, maxOneV_end hk, rfl⟩
    · generalize hw : (Value.val t (.maybe c p) l) = w at hy'
      obtain ⟨t', a, l', ht'⟩ := hy'
      simp only [Value.val.injEq] at hw
      obtain ⟨h1, h2, h3⟩ := hw
      refine ⟨.val t' (.ptr a) l', ?_, ?_⟩
      · rw [maxOneV_reaches hy ht', maxOneV_last ht' (by rw [← h1]; exact hk)]
      · simp [maybeReceiver, ht', ← h2]
  · rw [derefValue_reaches hr, derefValue_end (show ¬ IsPtr u (.val t (.maybe c p) l) from hk)]

/-- C90, partial: if any number of non-nil pointers lead from a value to a Maybe, MaybeValueIsPresent and GetMaybeValue tell what
its Present and Get methods do. -/
theorem c90_get_partial (hu : u.Lawful) (m : Mem T) (v : Value T) (t o : T) (c : Content T) (p : Bool) (l : Option Nat)
    (hr : Reaches u m v (.val t (.maybe c p) l)) (ht : IsMaybe u t o) :
    maybeValueIsPresent u m v = some (.ok p) ∧
    getMaybeValue u m v = some (.ok (if p then .val o c none else .invalid)) := by
  obtain ⟨⟨s, d, l0, rfl, hg⟩, hs, ⟨w, hw, hrec⟩, _⟩ := maybe_access hu hr ht
  have hp : maybeValueIsPresent u m (.val s d l0) = some (.ok p) := by
    simp [maybeValueIsPresent, hs, hw, hrec]
  refine ⟨hp, ?_⟩
  unfold getMaybeValue
  rw [hp]
  cases p <;> simp [hw, hrec, hg]

/-- The kinds whose values can be nil for Maybe: channel, function, map, pointer and slice. -/
def NilKind (k : RKind) : Prop := k = .chan ∨ k = .func ∨ k = .map ∨ k = .pointer ∨ k = .slice

/-- C90: when a value of type t counts as nil: it is a nil channel, function, map, pointer or slice, or an interface that is nil or holds one. -/
theorem c90_nil (t : T) (c : Content T) : isNilValue u t c = true ↔
    (NilKind (u.kind t) ∧ c = .nil) ∨ (u.kind t = .interface ∧ ∀ dyn c', c = .iface dyn c' → NilKind (u.kind dyn) ∧ c' = .nil) := by
  have hk : ∀ k, nillable k = true ↔ NilKind k := by intro k; cases k <;> simp [nillable, NilKind]
  have hc : ∀ c : Content T, c.isNil = true ↔ c = .nil := by intro c; cases c <;> simp [Content.isNil]
  unfold isNilValue
  split
  · rename_i h
    have : ¬ NilKind (u.kind t) := by rw [h]; simp [NilKind]
    cases c <;> simp [this, h, hk, hc]
  · rename_i h
    simp [h, hk, hc]

/-- C90, partial: if pointers lead from `dst` to a Maybe in a variable, SetMaybeValue stores an assignable value in it (present
unless it is nil) and SetMaybeValueEmpty empties it; no other variable changes. -/
theorem c90_set_partial (hu : u.Lawful) (m : Mem T) (dst : Value T) (t o s : T) (c d d' : Content T) (p : Bool) (a : Nat)
    (l : Option Nat) (hr : Reaches u m dst (.val t (.maybe c p) (some a))) (ht : IsMaybe u t o) :
    (u.assign s o d = some d' → ∃ m', setMaybeValue u m dst (.val s d l) = some (.ok m') ∧
      m' a = .maybe d' (!isNilValue u o d') ∧ ∀ b, b ≠ a → m' b = m b) ∧
    (∃ m', setMaybeValueEmpty u m dst = some (.ok m') ∧ m' a = .maybe (u.zero o) false ∧ ∀ b, b ≠ a → m' b = m b) := by
  obtain ⟨⟨s', e, l0, rfl, hg⟩, hs, -, hd⟩ := maybe_access hu hr ht
  have htgt : maybeTarget u m (.val s' e l0) = some (.ok (a, o)) := by
    simp only [maybeTarget, hs]
    rw [if_neg]
    · simp [hd, hg]
    · rintro ⟨h1, h2⟩
      rcases Relation.ReflTransGen.cases_head hr with h | ⟨y, hy, _⟩
      · cases h; cases h2
      · exact h1 hy.ptr
  constructor
  · intro ha
    refine ⟨m.set a (.maybe d' (!isNilValue u o d')), ?_, by simp [Mem.set], fun b hb => by simp [Mem.set, hb]⟩
    simp [setMaybeValue, htgt, ha]
  · refine ⟨m.set a (.maybe (u.zero o) false), ?_, by simp [Mem.set], fun b hb => by simp [Mem.set, hb]⟩
    simp [setMaybeValueEmpty, htgt]

/-- Overwriting a Maybe does not change the pointers that lead to it. -/
theorem reaches_set {m : Mem T} {v : Value T} {t : T} {c x : Content T} {p : Bool} {a : Nat} (ha : m a = .maybe c p)
    (hr : Reaches u m v (.val t (.maybe c p) (some a))) (hp : IsPtr u v) (hk : u.kind t ≠ .pointer)
    (hl : ∀ s d b, v = .val s d (some b) → m b = d) :
    Reaches u (m.set a x) v (.val t x (some a)) := by
  suffices h : ∀ s d l, v = .val s d l → Reaches u (m.set a x) (.val s (if l = some a then x else d) l) (.val t x (some a)) by
    cases v with
    | invalid => simp [IsPtr, Value.kind] at hp
    | val s d l =>
      have := h s d l rfl
      by_cases hla : l = some a
      · subst hla
        have hd := hl s d a rfl
        rw [ha] at hd
        rcases Relation.ReflTransGen.cases_head hr with h' | ⟨y, hy, _⟩
        · cases h'; exact absurd hp hk
        · rw [← hd] at hy; cases hy
      · simpa [hla] using this
  clear hp
  induction hr using Relation.ReflTransGen.head_induction_on with
  | refl => rintro s d l ⟨⟩; simp; exact Reaches.refl _
  | head h hr' ih =>
    rintro s d l hv
    obtain ⟨t', b, l', ht'⟩ := h
    cases hv
    have hla : l ≠ some a := by
      rintro rfl
      have := hl _ _ _ rfl
      rw [ha] at this; cases this
    simp only [hla, if_false]
    have := ih (by rintro s d b' ⟨⟩; rfl) _ _ _ rfl
    refine Reaches.head (.mk _ b l ht') ?_
    convert this using 2
    simp [Mem.set]

/-- C90, partial: after SetMaybeValue with a value that is not nil, GetMaybeValue through the same pointer gives that value; after
SetMaybeValueEmpty (or setting nil) it gives none. -/
theorem c90_set_get_partial (hu : u.Lawful) (m m' : Mem T) (dst : Value T) (t o s : T) (c d d' : Content T) (p : Bool) (a : Nat)
    (l : Option Nat) (hr : Reaches u m dst (.val t (.maybe c p) (some a))) (ht : IsMaybe u t o) (hp : IsPtr u dst)
    (hl : ∀ s d b, dst = .val s d (some b) → m b = d) (ha : m a = .maybe c p) (hd : u.assign s o d = some d')
    (h : setMaybeValue u m dst (.val s d l) = some (.ok m')) :
    getMaybeValue u m' dst = some (.ok (if isNilValue u o d' then .invalid else .val o d' none)) := by
  have hk : u.kind t ≠ .pointer := by rw [hu.maybe_kind t o ht]; decide
  obtain ⟨m'', h1, h2, h3⟩ := (c90_set_partial hu m dst t o s c d d' p a l hr ht).1 hd
  rw [h1] at h
  cases h
  have hm : m' = m.set a (.maybe d' (!isNilValue u o d')) := by
    funext b
    by_cases hb : b = a
    · subst hb; simp [Mem.set, h2]
    · simp [Mem.set, hb, h3 b hb]
  have := (c90_get_partial hu m' dst t o d' _ (some a) (hm ▸ reaches_set ha hr hp hk hl) ht).2
  rw [this]
  cases isNilValue u o d' <;> rfl

/-- C90: for the invalid Value, a value whose type is not pointers to a Maybe, and a nil pointer, MaybeValueIsPresent is false,
GetMaybeValue gives the invalid Value and the setters return an error. -/
theorem c90_not_maybe (m : Mem T) (v x : Value T)
    (h : v = .invalid ∨ (∃ s d l r, v = .val s d l ∧ derefType u s = some r ∧ ∀ o, ¬ IsMaybe u r o) ∨
      (∃ s l r, v = .val s .nil l ∧ u.kind s = .pointer ∧ derefType u s = some r)) :
    maybeValueIsPresent u m v = some (.ok false) ∧ getMaybeValue u m v = some (.ok .invalid) ∧
    setMaybeValue u m v x = some (.err ()) ∧ setMaybeValueEmpty u m v = some (.err ()) := by
  have hs : safeMaybeAccess u v = some false := by
    rcases h with rfl | ⟨s, d, l, r, rfl, h1, h2⟩ | ⟨s, l, r, rfl, h1, h2⟩
    · rfl
    · simp [safeMaybeAccess, getMaybeType_none h1 h2]
    · by_cases hm : ∃ o, IsMaybe u r o
      · obtain ⟨o, ho⟩ := hm
        simp [safeMaybeAccess, getMaybeType_some h2 ho, h1, Content.isNil]
      · simp [safeMaybeAccess, getMaybeType_none h2 (fun o ho => hm ⟨o, ho⟩)]
  simp [maybeValueIsPresent, getMaybeValue, setMaybeValue, setMaybeValueEmpty, maybeTarget, hs]

/-- An int, and a nil *Maybe[int]. -/
example (m : Mem GoTy) (x : Value GoTy) : setMaybeValue goUniv m (.val (.ptr (.maybe (.prim .int))) .nil none) x = some (.err ()) :=
  (c90_not_maybe m _ x (.inr (.inr ⟨_, _, .maybe (.prim .int), rfl, rfl, by rw [derefType_ptr goUniv rfl]; exact derefType_base goUniv (by decide)⟩))).2.2.1

/-- C90: a Maybe that is neither behind a pointer nor addressable cannot be set: an error. -/
theorem c90_unaddressable (hu : u.Lawful) (m : Mem T) (t o : T) (c : Content T) (p : Bool) (x : Value T) (ht : IsMaybe u t o) :
    setMaybeValue u m (.val t (.maybe c p) none) x = some (.err ()) ∧
    setMaybeValueEmpty u m (.val t (.maybe c p) none) = some (.err ()) := by
  have hk : u.kind t ≠ .pointer := by rw [hu.maybe_kind t o ht]; decide
  have hg := getMaybeType_some (derefType_base u hk) ht
  simp [setMaybeValue, setMaybeValueEmpty, maybeTarget, safeMaybeAccess, hg, hk]

/-! ### Examples and refutations -/

/-- Location 0 holds a Maybe[int] with the value 7, location 1 a pointer to it, location 2 a nil *Maybe[int]. -/
def maybeMem : Mem GoTy := fun a => if a = 0 then .maybe (.data 7) true else if a = 1 then .ptr 0 else .nil

example : getMaybeValue goUniv maybeMem (.val (.ptr (.ptr (.maybe (.prim .int)))) (.ptr 1) none) =
    some (.ok (.val (.prim .int) (.data 7) none)) :=
  (c90_get_partial goUniv_lawful maybeMem _ (.maybe (.prim .int)) (.prim .int) (.data 7) true (some 0)
    (Reaches.head (.mk _ 1 _ rfl) (Reaches.head (.mk _ 0 _ rfl) (Reaches.refl _))) (goUniv_maybe.2 rfl)).2

example : ∃ m', setMaybeValue goUniv maybeMem (.val (.ptr (.maybe (.prim .int))) (.ptr 0) none) (.val (.prim .int) (.data 9) none)
    = some (.ok m') ∧ m' 0 = .maybe (.data 9) true ∧ ∀ b, b ≠ 0 → m' b = maybeMem b :=
  (c90_set_partial goUniv_lawful maybeMem _ (.maybe (.prim .int)) (.prim .int) (.prim .int) (.data 7) (.data 9) (.data 9) true 0
    none (Reaches.head (.mk _ 0 _ rfl) (Reaches.refl _)) (goUniv_maybe.2 rfl)).1 rfl

/-- C90 fails for a non-nil **Maybe[int] whose target is nil: all four functions panic. -/
theorem c90_nil_refuted (x : Value GoTy) :
    maybeValueIsPresent goUniv maybeMem (.val (.ptr (.ptr (.maybe (.prim .int)))) (.ptr 2) none) = some .panic ∧
    getMaybeValue goUniv maybeMem (.val (.ptr (.ptr (.maybe (.prim .int)))) (.ptr 2) none) = some .panic ∧
    setMaybeValue goUniv maybeMem (.val (.ptr (.ptr (.maybe (.prim .int)))) (.ptr 2) none) x = some .panic ∧
    setMaybeValueEmpty goUniv maybeMem (.val (.ptr (.ptr (.maybe (.prim .int)))) (.ptr 2) none) = some .panic := by
  have hk : ∀ t, goUniv.kind (.ptr t) = .pointer := fun _ => rfl
  have hd : derefType goUniv (.ptr (.ptr (.maybe (.prim .int)))) = some (.maybe (.prim .int)) := by
    rw [derefType_ptr _ (hk _)]
    show derefType goUniv (.ptr (.maybe (.prim .int))) = _
    rw [derefType_ptr _ (hk _)]
    exact derefType_base _ (by simp [goUniv, GoTy.kind])
  have hg := getMaybeType_some hd (goUniv_maybe.2 rfl)
  have hp : Points goUniv maybeMem (.val (.ptr (.ptr (.maybe (.prim .int)))) (.ptr 2) none)
      (.val (.ptr (.maybe (.prim .int))) .nil (some 2)) := .mk _ 2 _ rfl
  have h1 : derefValue goUniv maybeMem (.val (.ptr (.ptr (.maybe (.prim .int)))) (.ptr 2) none) = some .invalid := by
    rw [derefValue_step hp]; exact derefValue_nil ⟨_, _, rfl, rfl, rfl⟩
  have h2 : derefValueMaxOnePtr goUniv maybeMem (.val (.ptr (.ptr (.maybe (.prim .int)))) (.ptr 2) none) =
      some (.val (.ptr (.maybe (.prim .int))) .nil (some 2)) := by
    rw [maxOneV_step hp rfl]; exact maxOneV_last rfl (by simp [goUniv, GoTy.kind])
  have hs : safeMaybeAccess goUniv (.val (.ptr (.ptr (.maybe (.prim .int)))) (.ptr 2) none) = some true := by
    simp [safeMaybeAccess, hg, Content.isNil]
  have hpr : maybeValueIsPresent goUniv maybeMem (.val (.ptr (.ptr (.maybe (.prim .int)))) (.ptr 2) none) = some .panic := by
    simp [maybeValueIsPresent, hs, h2, maybeReceiver]
  refine ⟨hpr, by simp [getMaybeValue, hpr], ?_, ?_⟩ <;>
    simp [setMaybeValue, setMaybeValueEmpty, maybeTarget, hs, h1, hk]

/-- C90 fails for a value of another type: SetMaybeValue panics where its documentation promises an error. -/
theorem c90_type_refuted :
    setMaybeValue goUniv maybeMem (.val (.ptr (.maybe (.prim .int))) (.ptr 0) none) (.val (.prim .string) (.data 1) none) =
      some .panic := by
  have hr : Reaches goUniv maybeMem (.val (.ptr (.maybe (.prim .int))) (.ptr 0) none)
      (.val (.maybe (.prim .int)) (.maybe (.data 7) true) (some 0)) := Reaches.head (.mk _ 0 _ rfl) (Reaches.refl _)
  obtain ⟨⟨s, d, l, he, hg⟩, hs, -, hd⟩ := maybe_access goUniv_lawful hr (goUniv_maybe.2 rfl)
  cases he
  have hk : ∀ t, goUniv.kind (.ptr t) = .pointer := fun _ => rfl
  simp [setMaybeValue, maybeTarget, hs, hd, hg, hk]
  simp [goUniv]

end Micro.Reflect
