import Verif.Conv.DispatchModel
import Mathlib.Data.List.Basic
/-
C94: the conversion functions find the conversion for their types.
-/
namespace Micro.Conv.Dispatch

/-- The underlying type, for the types conversions are for (a type declared with a pointer as its underlying type is none of them). -/
def Under : Ty → Base → Prop
  | .base b, c => b = c
  | .defined _ b, c => b = c ∧ b ∉ [Base.bigInt, .bigFloat, .bigRat]
  | _, _ => False

/-- The name under which a conversion to a variable of the type is looked up: that of the underlying type, for the types of a primitive kind. -/
def SeenAs : Ty → List Char → Prop
  | .base b, n => n = b.str
  | .defined nm b, n => (b ∈ [Base.bigInt, .bigFloat, .bigRat] ∧ n = nm) ∨ (b ∉ [Base.bigInt, .bigFloat, .bigRat] ∧ n = b.str)
  | .otherPrim _ u, n => n = u
  | .definedPtr nm _, n => n = nm
  | .other nm, n => n = nm

/-- The name of a type declared by a program: it starts with a letter or underscore and contains a dot. -/
def DefinedName (n : List Char) : Prop := ∃ p t, n = p ++ '.' :: t ∧ p ≠ [] ∧ ∀ c ∈ p, c.isAlphanum = true ∨ c = '_'

/-! ### The keys -/

theorem str_digit (a a' : Base) (h : a.str <+: a'.str) : a = a' ∨ ∃ c r, a'.str = a.str ++ c :: r ∧ c ∈ ['1', '3', '6', '8'] := by
  have : ∀ a a' : Base, a.str <+: a'.str → a = a' ∨ (a'.str.drop a.str.length).head? ∈ [some '1', some '3', some '6', some '8'] := by
    intro a a'; cases a <;> cases a' <;> decide
  rcases this a a' h with e | e
  · exact Or.inl e
  · obtain ⟨r, hr⟩ := h
    right
    rw [← hr, List.drop_left] at e
    cases r with
    | nil => simp at e
    | cons c r => exact ⟨c, r, hr.symm, by simpa using e⟩

theorem str_start (a : Base) : ∃ c r, a.str = c :: r ∧ c ∉ ['1', '3', '6', '8'] := by
  cases a <;> exact ⟨_, _, rfl, by decide⟩

theorem str_injective {a a' : Base} (h : a.str = a'.str) : a = a' := by
  revert h; cases a <;> cases a' <;> decide

theorem key_injective {a b a' b' : Base} (h : a.str ++ b.str = a'.str ++ b'.str) : a = a' ∧ b = b' := by
  have aux : ∀ a b a' b' : Base, a.str ++ b.str = a'.str ++ b'.str → a.str.length ≤ a'.str.length → a = a' := by
    intro a b a' b' h hl
    have hp : a.str <+: a'.str := List.prefix_of_prefix_length_le ⟨b.str, h⟩ (List.prefix_append _ _) hl
    rcases str_digit a a' hp with e | ⟨c, r, e, hc⟩
    · exact e
    · rw [e, List.append_assoc, List.append_cancel_left_eq] at h
      obtain ⟨d, s, hd, hd'⟩ := str_start b
      rw [hd] at h
      simp only [List.cons_append, List.cons.injEq] at h
      rw [h.1] at hd'
      exact absurd hc hd'
  have ha : a = a' := by
    rcases Nat.le_total a.str.length a'.str.length with hl | hl
    · exact aux _ _ _ _ h hl
    · exact (aux _ _ _ _ h.symm hl).symm
  subst ha
  exact ⟨rfl, str_injective (List.append_cancel_left h)⟩

theorem lookup_pair {a b : Base} (h : a ≠ b) : convertFromTo (a.str ++ b.str) = some (a, b) := by
  have hm : (a, b) ∈ (Base.all.flatMap fun a => Base.all.map fun b => (a, b)).filter fun p => p.1 ≠ p.2 := by
    have : ∀ a : Base, a ∈ Base.all := by intro a; cases a <;> decide
    simp [this, h]
  unfold convertFromTo
  cases hf : ((Base.all.flatMap fun a => Base.all.map fun b => (a, b)).filter fun p => p.1 ≠ p.2).find?
      (fun p => p.1.str ++ p.2.str = a.str ++ b.str) with
  | none =>
    rw [List.find?_eq_none] at hf
    exact absurd (decide_eq_true rfl) (hf _ hm)
  | some p =>
    have := List.find?_some hf
    simp only [decide_eq_true_eq] at this
    obtain ⟨h1, h2⟩ := key_injective this
    rw [← h1, ← h2]

theorem lookup_some {key : List Char} {a b : Base} (h : convertFromTo key = some (a, b)) : a ≠ b ∧ key = a.str ++ b.str := by
  unfold convertFromTo at h
  have h1 := List.mem_of_find?_eq_some h
  have h2 := List.find?_some h
  simp only [decide_eq_true_eq] at h2
  rw [List.mem_filter] at h1
  exact ⟨by simpa using h1.2, h2.symm⟩

/-- No key starts with the name of a user defined type: a key either has no dot, or has a star before it. -/
theorem defined_no_key {n : List Char} (hn : DefinedName n) (b : Base) : convertFromTo (n ++ b.str) = none := by
  cases h : convertFromTo (n ++ b.str) with
  | none => rfl
  | some p =>
    obtain ⟨a, c⟩ := p
    obtain ⟨_, h2⟩ := lookup_some h
    obtain ⟨p, t, rfl, hne, hp⟩ := hn
    have hsuf : ∀ a c : Base, ∃ q s, a.str ++ c.str = q ++ s ∧ (∀ x ∈ q, x ≠ '.') ∧ (s = [] ∨ (s.head? = some '.' ∧ '*' ∈ q)) := by
      intro a c
      refine ⟨(a.str ++ c.str).takeWhile (· ≠ '.'), (a.str ++ c.str).dropWhile (· ≠ '.'), (List.takeWhile_append_dropWhile).symm, ?_, ?_⟩
      · intro x hx
        have := List.all_eq_true.mp (List.all_takeWhile (l := a.str ++ c.str) (p := fun x => decide (x ≠ '.'))) x hx
        simpa using this
      · cases a <;> cases c <;> decide
    obtain ⟨q, s, h3, h4, h5⟩ := hsuf a c
    have hpd : ∀ x ∈ p, x ≠ '.' := by
      intro x hx e
      subst e
      exact absurd (hp _ hx) (by decide)
    have key : ∀ (p q t s : List Char), (∀ x ∈ p, x ≠ '.') → (∀ x ∈ q, x ≠ '.') → p ++ '.' :: t = q ++ s →
        (s = [] ∨ s.head? = some '.') → p = q := by
      intro p
      induction p with
      | nil =>
        intro q t s _ hq h _
        cases q with
        | nil => rfl
        | cons x q => simp at h; exact absurd h.1.symm (hq x (by simp))
      | cons x p ih =>
        intro q t s hp hq h hs
        cases q with
        | nil =>
          simp at h
          rcases hs with rfl | hs
          · simp at h
          · rw [← h] at hs; simp at hs; exact absurd hs (hp x (by simp))
        | cons y q =>
          simp at h
          rw [h.1, ih q t s (fun z hz => hp z (by simp [hz])) (fun z hz => hq z (by simp [hz])) h.2 hs]
    have hpq : p = q := key p q (t ++ b.str) s hpd h4 (by rw [← h3, ← h2]; simp) (h5.imp id And.left)
    rcases h5 with rfl | ⟨_, h6⟩
    · have : '.' ∈ q ++ ([] : List Char) := by rw [← h3, ← h2]; simp
      simp at this
      exact absurd rfl (h4 _ this)
    · rw [← hpq] at h6
      exact absurd (hp _ h6) (by decide)

/-! ### C94 -/

attribute [local irreducible] convertFromTo

theorem toBase_under {i : Ty} {a : Base} (hi : Under i a) : i.toBase = .base a := by
  cases i with
  | base b => cases hi; rfl
  | defined n b =>
    obtain ⟨rfl, hb⟩ := hi
    have : b.big = false := by revert hb; cases b <;> decide
    simp [Ty.toBase, this]
  | _ => cases hi

/-- C94: To runs the conversion between the underlying types of its arguments, or copies if these are the same; it never panics. -/
theorem c94_to (i o : Ty) (a b : Base) (hi : Under i a) (ho : Under o b) :
    convTo i o = if a = b then .copy else .convert a b := by
  have h1 : i.toBase.str = a.str := by rw [toBase_under hi]; rfl
  have h2 : o.toBase.str = b.str := by rw [toBase_under ho]; rfl
  unfold convTo
  rw [h1, h2]
  by_cases h : a = b
  · simp [h]
  · have : a.str ≠ b.str := fun e => h (str_injective e)
    simp [h, this, lookup_pair h]

example : convTo (.defined "main.Celsius".toList .float64) (.base .bigRat) = .convert .float64 .bigRat :=
  c94_to _ _ .float64 .bigRat ⟨rfl, by decide⟩ rfl

/-- A user defined type of a primitive kind (a predeclared bool, integer, float, complex or string type). -/
def UserPrimitive : Ty → Prop
  | .defined _ b => b ∉ [Base.bigInt, .bigFloat, .bigRat]
  | .otherPrim n u => n ≠ u
  | _ => False

theorem userPrim_iff (t : Ty) : t.userPrim = true ↔ UserPrimitive t := by
  cases t with
  | defined n b =>
    show (!b.big) = true ↔ b ∉ [Base.bigInt, .bigFloat, .bigRat]
    cases b <;> decide
  | otherPrim n u => exact decide_eq_true_iff.trans ne_comm
  | _ => simp [Ty.userPrim, UserPrimitive]

/-- C94 fails for AnyTo(nil, ...), and for a non-nil P where `type P *Age`, `type Age int`: it panics instead of returning an error. -/
theorem c94_anyTo_refuted (o : Ty) : anyTo none false o = .panic ∧
    anyTo (some (.definedPtr "main.P".toList (.defined "main.Age".toList .int))) true o = .panic := ⟨rfl, rfl⟩

/-- C94: AnyTo panics exactly for the nil interface and for non-nil pointers of a user defined pointer type to a user defined type of a
primitive kind. -/
theorem c94_anyTo_panics_iff (i : Option Ty) (nonNil : Bool) (o : Ty) (b : Base) (ho : Under o b) :
    anyTo i nonNil o = .panic ↔ i = none ∨ (nonNil = true ∧ ∃ n e, i = some (.definedPtr n e) ∧ UserPrimitive e) := by
  have hto : ∀ c, convTo (.base c) o ≠ .panic := by
    intro c
    rw [c94_to (.base c) o c b rfl ho]
    split <;> simp
  cases i with
  | none => simp [anyTo]
  | some i =>
    cases i with
    | base c => simp [anyTo, hto]
    | defined n c => cases hc : c.big <;> simp [anyTo, hto, hc]
    | otherPrim n u => simp [anyTo]
    | other n => simp [anyTo]
    | definedPtr n e =>
      simp only [anyTo, reduceCtorEq, Option.some.injEq, Ty.definedPtr.injEq, false_or]
      cases nonNil with
      | false => simp
      | true =>
        simp only [Bool.true_and, true_and]
        by_cases he : e.userPrim = true
        · rw [if_pos he]; simp only [true_iff]; exact ⟨n, e, ⟨rfl, rfl⟩, (userPrim_iff e).1 he⟩
        · rw [if_neg he]; simp only [reduceCtorEq, false_iff]
          rintro ⟨_, _, ⟨rfl, rfl⟩, h⟩; exact he ((userPrim_iff _).2 h)

example := c94_anyTo_panics_iff (some (.definedPtr "main.P".toList (.defined "main.I".toList .string))) true (.base .string) .string rfl

/-- C94, partial: for a value in an interface AnyTo does what To does, and returns an error if it is no number or string. Missing: the
values of `c94_anyTo_panics_iff`. -/
theorem c94_anyTo_partial (i o : Ty) (nonNil : Bool) (b : Base) (ho : Under o b) :
    (∀ a, Under i a → anyTo (some i) nonNil o = if a = b then .copy else .convert a b) ∧
    ((∀ a, ¬ Under i a) → (nonNil = true → ∀ n e, i = .definedPtr n e → ¬ UserPrimitive e) → anyTo (some i) nonNil o = .error) := by
  constructor
  · intro a hi
    cases i with
    | base c => cases hi; exact c94_to _ _ _ _ rfl ho
    | defined n c =>
      obtain ⟨rfl, hc⟩ := hi
      have hc' : c.big = false := by revert hc; cases c <;> decide
      simp only [anyTo, hc', Bool.false_eq_true, if_false]
      exact c94_to (.base c) _ _ _ rfl ho
    | _ => cases hi
  · intro h hp
    cases i with
    | base c => exact absurd rfl (h c)
    | defined n c =>
      have hc : c.big = true := by
        by_contra hb
        exact h c ⟨rfl, by revert hb; cases c <;> decide⟩
      simp [anyTo, hc]
    | otherPrim n u => rfl
    | other n => rfl
    | definedPtr n e =>
      simp only [anyTo]
      rw [if_neg]
      intro hb
      rw [Bool.and_eq_true, userPrim_iff] at hb
      exact hp hb.1 n e rfl hb.2

example : anyTo (some (.other "[]int".toList)) true (.base .int) = .error :=
  (c94_anyTo_partial (.other "[]int".toList) (.base .int) true .int rfl).2 (fun _ h => h) (by intro _ _ _ h; cases h)

/-- C94 fails for ToBigOps with a user defined source type (here `main.Celsius`): it panics. -/
theorem c94_bigOps_refuted : toBigOps (.defined "main.Celsius".toList .float64) (.base .bigRat) = .panic := by
  have h : DefinedName "main.Celsius".toList :=
    ⟨['m', 'a', 'i', 'n'], "Celsius".toList, rfl, by simp, by intro c hc; simp at hc; rcases hc with rfl | rfl | rfl | rfl <;> decide⟩
  have := defined_no_key h .bigRat
  unfold toBigOps
  rw [if_neg (by decide)]
  show (match convertFromTo ("main.Celsius".toList ++ Base.bigRat.str) with
    | some (a, b) => Action.convert a b
    | none => .panic) = _
  rw [this]

/-- C94, partial: for the predeclared types and the big types ToBigOps does what To does. -/
theorem c94_bigOps_partial (a b : Base) : toBigOps (.base a) (.base b) = convTo (.base a) (.base b) := rfl

/-- C94 fails for ReflectTo: with source and target of the same type it returns an error instead of copying, a user defined source type
is an error, too, and a pointer of a user defined pointer type (`type P *int`) makes it panic. -/
theorem c94_reflectTo_refuted (b : Base) : reflectTo (some (.base b)) (.ptr (.base b)) = .error ∧
    reflectTo (some (.defined "main.Celsius".toList .float64)) (.ptr (.base .string)) = .error ∧
    reflectTo (some (.base .string)) (.definedPtr (.base .int)) = .panic := by
  refine ⟨?_, ?_, ?_⟩
  · have : convertFromTo (b.str ++ b.str) = none := by
      cases h : convertFromTo (b.str ++ b.str) with
      | none => rfl
      | some p =>
        obtain ⟨h1, h2⟩ := lookup_some (a := p.1) (b := p.2) h
        obtain ⟨h3, h4⟩ := key_injective h2
        exact absurd (h3.symm.trans h4) h1
    simp only [reflectTo, Ty.str, Ty.toBase]
    rw [this]
  · have h : DefinedName "main.Celsius".toList :=
      ⟨['m', 'a', 'i', 'n'], "Celsius".toList, rfl, by simp, by intro c hc; simp at hc; rcases hc with rfl | rfl | rfl | rfl <;> decide⟩
    have := defined_no_key h .string
    simp only [reflectTo, Ty.str, Ty.toBase]
    rw [this]
  · simp only [reflectTo, Ty.str, Ty.userPrim]
    rw [lookup_pair (by decide)]
    rfl

/-- C94, partial: for a source of a predeclared or big type and a non-nil pointer to a variable of another (possibly user defined) type
ReflectTo runs the conversion between them; invalid values, targets that are no pointer, nil pointers and single big pointers
are errors. It never copies. Missing: sources of user defined types and equal types (`c94_reflectTo_refuted`), panics
(`c94_reflectTo_panics_iff`). -/
theorem c94_reflectTo_partial (a b : Base) (o : Ty) (ho : Under o b) (h : a ≠ b) (i : Option Ty) (t : Target) :
    reflectTo (some (.base a)) (.ptr o) = .convert a b ∧
    (i = none ∨ t = .invalid ∨ t = .value ∨ t = .nilPtr ∨ t = .bigPtr → reflectTo i t = .error) ∧
    reflectTo i t ≠ .copy := by
  refine ⟨?_, ?_, ?_⟩
  · simp only [reflectTo, Ty.str, toBase_under ho]
    rw [lookup_pair h]
    simp [Ty.is]
  · intro hh
    rcases hh with e | e | e | e | e <;> subst e
    · cases t <;> rfl
    all_goals cases i <;> rfl
  · cases i with
    | none => simp [reflectTo]
    | some i =>
      cases t with
      | ptr e =>
        simp only [reflectTo]
        split
        · split <;> simp
        · simp
      | definedPtr e =>
        simp only [reflectTo]
        split
        · simp
        · split <;> simp
      | _ => simp [reflectTo]

theorem big_iff (b : Base) : b.big = true ↔ b ∈ [Base.bigInt, .bigFloat, .bigRat] := by cases b <;> decide

theorem toBase_iff (e : Ty) (b : Base) : e.toBase = .base b ↔ Under e b := by
  refine ⟨fun h => ?_, toBase_under⟩
  cases e with
  | base c => cases h; rfl
  | defined n c =>
    simp only [Ty.toBase] at h
    by_cases hb : c.big = true
    · rw [if_pos hb] at h; cases h
    · rw [if_neg hb] at h; cases h
      exact ⟨rfl, fun hc => hb ((big_iff _).2 hc)⟩
  | _ => cases h

theorem seenAs_iff (e : Ty) (n : List Char) : SeenAs e n ↔ n = e.toBase.str := by
  cases e with
  | defined nm c =>
    simp only [SeenAs, Ty.toBase, ← big_iff]
    by_cases hb : c.big = true
    · simp [hb, Ty.str]
    · simp [hb, Ty.str]
  | _ => rfl

/-- C94, exactly: ReflectTo converts if and only if the source is of a predeclared or big type and the target is a non-nil pointer (not of a user
defined pointer type) to a variable of another such type, or of a user defined type of a primitive kind with such an underlying type. -/
theorem c94_reflectTo_iff (i : Ty) (t : Target) (a b : Base) :
    reflectTo (some i) t = .convert a b ↔ i = .base a ∧ a ≠ b ∧ ∃ o, t = .ptr o ∧ Under o b := by
  have his : ∀ (t : Ty) (b : Base), t.is b = true ↔ t = .base b := by
    intro t b; cases t <;> simp [Ty.is]
  constructor
  · intro h
    cases t with
    | ptr e =>
      simp only [reflectTo] at h
      cases hk : convertFromTo (i.str ++ e.toBase.str) with
      | none => rw [hk] at h; cases h
      | some p =>
        obtain ⟨a', b'⟩ := p
        obtain ⟨h1, h2⟩ := lookup_some hk
        rw [hk] at h
        simp only at h
        by_cases hc : (i.is a' && e.toBase.is b') = true
        · rw [if_pos hc] at h
          cases h
          rw [Bool.and_eq_true, his, his] at hc
          exact ⟨hc.1, h1, e, rfl, (toBase_iff e _).1 hc.2⟩
        · rw [if_neg hc] at h; cases h
    | definedPtr e =>
      simp only [reflectTo] at h
      split at h
      · cases h
      · split at h <;> cases h
    | _ => cases h
  · rintro ⟨rfl, hab, o, rfl, ho⟩
    exact (c94_reflectTo_partial a b o ho hab none .value).1

/-- A user defined pointer type `type Money *big.Rat` is no *big.Rat. -/
example (a b : Base) : reflectTo (some (.base .string)) (.ptr (.defined "main.Money".toList .bigRat)) ≠ .convert a b := by
  intro h
  obtain ⟨_, _, o, ho, hu⟩ := (c94_reflectTo_iff _ _ a b).1 h
  cases ho
  exact absurd hu.2 (by decide)

/-- C94: when ReflectTo panics. For a pointer of a user defined pointer type: if it is to a user defined type of a primitive kind, or if the names
of source type and type pointed to are those of two different number or string types. For other pointers: only if the names are such (after
taking the underlying type of the target), but one of the two types only has the name in common with the number type. -/
theorem c94_reflectTo_panics_iff (i : Ty) (t : Target) :
    reflectTo (some i) t = .panic ↔
      (∃ e, t = .definedPtr e ∧ (UserPrimitive e ∨ ∃ a b : Base, a ≠ b ∧ i.str ++ e.str = a.str ++ b.str)) ∨
      (∃ e n, t = .ptr e ∧ SeenAs e n ∧ ∃ a b : Base, a ≠ b ∧ i.str ++ n = a.str ++ b.str ∧ ¬ (i = .base a ∧ Under e b)) := by
  simp only [seenAs_iff, ← toBase_iff]
  have his : ∀ (t : Ty) (b : Base), t.is b = true ↔ t = .base b := by
    intro t b; cases t <;> simp [Ty.is]
  cases t with
  | definedPtr e =>
    simp only [reflectTo, Target.definedPtr.injEq, exists_eq_left', reduceCtorEq, false_and, exists_false, or_false]
    by_cases he : e.userPrim = true
    · rw [if_pos he]; simp only [true_iff]; exact Or.inl ((userPrim_iff e).1 he)
    · rw [if_neg he]
      cases hk : convertFromTo (i.str ++ e.str) with
      | none =>
        simp only [reduceCtorEq, false_iff]
        rintro (h | ⟨a, b, hab, h⟩)
        · exact he ((userPrim_iff e).2 h)
        · rw [h, lookup_pair hab] at hk; cases hk
      | some p =>
        simp only [true_iff]
        obtain ⟨h1, h2⟩ := lookup_some (a := p.1) (b := p.2) hk
        exact Or.inr ⟨p.1, p.2, h1, h2⟩
  | ptr e =>
    simp only [reflectTo, Target.ptr.injEq, exists_and_left, exists_eq_left', reduceCtorEq, false_and, exists_false, false_or]
    cases hk : convertFromTo (i.str ++ e.toBase.str) with
    | none =>
      simp only [reduceCtorEq, false_iff]
      rintro ⟨_, rfl, a, b, hab, h, _⟩
      rw [h, lookup_pair hab] at hk; cases hk
    | some p =>
      obtain ⟨a, b⟩ := p
      obtain ⟨h1, h2⟩ := lookup_some hk
      simp only
      by_cases hc : (i.is a && e.toBase.is b) = true
      · rw [if_pos hc]
        simp only [reduceCtorEq, false_iff]
        rintro ⟨_, rfl, a', b', hab, h, hn⟩
        obtain ⟨rfl, rfl⟩ := key_injective (h2.symm.trans h)
        rw [Bool.and_eq_true, his, his] at hc
        exact hn hc
      · rw [if_neg hc]
        simp only [true_iff]
        refine ⟨_, rfl, a, b, h1, h2, fun hh => hc ?_⟩
        rw [Bool.and_eq_true, his, his]
        exact hh
  | _ => simp [reflectTo]

/-- The second kind of panic: a type Int of another package called big. -/
example : reflectTo (some (.other "*big.Int".toList)) (.ptr (.base .int)) = .panic :=
  (c94_reflectTo_panics_iff _ _).2 (Or.inr ⟨_, _, rfl, rfl, .bigInt, .int, by decide, rfl, by intro h; cases h.1⟩)

example : reflectTo (some (.base .string)) (.ptr (.defined "main.Age".toList .int)) = .convert .string .int :=
  (c94_reflectTo_partial .string .int (.defined "main.Age".toList .int) ⟨rfl, by decide⟩ (by decide) none .value).1

end Micro.Conv.Dispatch
