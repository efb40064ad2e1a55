import Verif.Union.Spec
set_option linter.unusedSimpArgs false
/-
Theorems C52 to C54: package union.
-/
namespace Micro.Union

variable {A B C D α ε : Type}

/-! ### C52 -/

/-- C52. Two: after any history of setters, ending with the one for `x`, exactly `x` is there. -/
theorem c52_two (s : Two A B) (hist : List (Sum2 A B)) (x : Sum2 A B) :
    Holds2 ((hist.foldl Two.put s).put x) x := by
  cases x <;> simp [Holds2, Two.put, Two.setT, Two.setU, Two.getT, Two.getU, check]

/-- C52. Three. -/
theorem c52_three (s : Three A B C) (hist : List (Sum3 A B C)) (x : Sum3 A B C) :
    Holds3 ((hist.foldl Three.put s).put x) x := by
  cases x <;> simp [Holds3, Three.put, Three.setT, Three.setU, Three.setV, Three.getT, Three.getU, Three.getV, check]

example (s : Three Nat String Bool) : Holds3 (([.u "a", .t 3].foldl Three.put s).put (.v true)) (.v true) := c52_three s _ _

/-- C52. Four. -/
theorem c52_four (s : Four A B C D) (hist : List (Sum4 A B C D)) (x : Sum4 A B C D) :
    Holds4 ((hist.foldl Four.put s).put x) x := by
  cases x <;> simp [Holds4, Four.put, Four.setT, Four.setU, Four.setV, Four.setW, Four.getT, Four.getU, Four.getV,
    Four.getW, check]

example (s : Four Nat String Bool Unit) : Holds4 (([.u "a", .w ()].foldl Four.put s).put (.v true)) (.v true) := c52_four s _ _

/-- C52. The constructors hold exactly their argument. -/
theorem c52_constructors (a : A) (b : B) (c : C) (d : D) (za : A) (zb : B) (zc : C) (zd : D) :
    Holds2 (of2T zb a) (.t a) ∧ Holds2 (of2U za b) (.u b) ∧
    Holds3 (of3T zb zc a) (.t a) ∧ Holds3 (of3U za zc b) (.u b) ∧ Holds3 (of3V za zb c) (.v c) ∧
    Holds4 (of4T zb zc zd a) (.t a) ∧ Holds4 (of4U za zc zd b) (.u b) ∧ Holds4 (of4V za zb zd c) (.v c) ∧
    Holds4 (of4W za zb zc d) (.w d) := by
  simp [Holds2, Holds3, Holds4, of2T, of2U, of3T, of3U, of3V, of4T, of4U, of4V, of4W, Two.getT, Two.getU, Three.getT,
    Three.getU, Three.getV, Four.getT, Four.getU, Four.getV, Four.getW, check]

example : Holds2 (((of2T (B := String) "" 1).put (.u "a")).put (.t 2)) (.t 2) := c52_two (of2T "" 1) [.u "a"] (.t 2)

/-- C52. What String prints is the value held, and no other. -/
theorem c52_string (fa : A → String) (fb : B → String) (fc : C → String) (fd : D → String) :
    (∀ (s : Two A B) x, Holds2 s x → s.string fa fb = match x with | .t a => fa a | .u b => fb b) ∧
    (∀ (s : Three A B C) x, Holds3 s x → s.string fa fb fc = match x with | .t a => fa a | .u b => fb b | .v c => fc c) ∧
    (∀ (s : Four A B C D) x, Holds4 s x →
      s.string fa fb fc fd = match x with | .t a => fa a | .u b => fb b | .v c => fc c | .w d => fd d) ∧
    (∀ a b : Which, a.str = b.str → a = b) := by
  refine ⟨fun s x h => ?_, fun s x h => ?_, fun s x h => ?_, ?_⟩
  · obtain ⟨t, u, w⟩ := s
    cases x <;> simp only [Holds2] at h <;> obtain ⟨h1, h2⟩ := h <;> subst h1 <;>
      simp [Two.getT, Two.getU, check] at h2 <;> simp [Two.string, h2]
  · obtain ⟨t, u, v, w⟩ := s
    cases x <;> simp only [Holds3] at h <;> obtain ⟨h1, h2⟩ := h <;> subst h1 <;>
      simp [Three.getT, Three.getU, Three.getV, check] at h2 <;> simp [Three.string, h2]
  · obtain ⟨t, u, v, w, wh⟩ := s
    cases x <;> simp only [Holds4] at h <;> obtain ⟨h1, h2⟩ := h <;> subst h1 <;>
      simp [Four.getT, Four.getU, Four.getV, Four.getW, check] at h2 <;> simp [Four.string, h2]
  · intro a b; cases a <;> cases b <;> decide

example : (((of2T (B := String) "" 1).put (.u "a")).put (.t 2)).string (fun n : Nat => toString n) id = "2" :=
  (c52_string _ _ (fun _ : Unit => "") (fun _ : Unit => "")).1 _ _ (c52_two (of2T "" 1) [.u "a"] (.t 2))

/-! ### C53 -/

theorem isNilValue_iff (ref : α → Option RV) (x : α) : isNilValue (ref x) = true ↔ IsNil ref x := by
  unfold isNilValue IsNil
  cases h : ref x with
  | none => simp
  | some v => cases hk : v.kind <;> simp [nillable, hk]

/-- C53. After any history of Set, SetEmpty and SetOrError, starting from a Maybe that shows an option, the
Maybe shows (through Present, Get, OrElse, OrError) the option of the same history. -/
theorem c53_history (ref : α → Option RV) (zv : α) (ops : List (MbOp α)) (m : Maybe α) (o : Option α)
    (h : Shows zv m o) :
    Shows zv (ops.foldl (Maybe.step ref zv) m) (ops.foldl (specStep (fun x => isNilValue (ref x))) o) := by
  induction ops generalizing m o with
  | nil => exact h
  | cons op ops ih =>
    apply ih
    cases op with
    | set x =>
      by_cases hx : isNilValue (ref x) = true <;>
      simp [Shows, Maybe.step, Maybe.set, specStep, hx, Maybe.get, Maybe.orElse, Maybe.orError]
    | setEmpty => simp [Shows, Maybe.step, Maybe.setEmpty, specStep, Maybe.get, Maybe.orElse, Maybe.orError]
    | setOrError x =>
      cases o with
      | some y =>
        have hp : m.present = true := h.1
        simp only [Maybe.step, Maybe.setOrError, hp, if_true, specStep]
        exact h
      | none =>
        have hp : m.present = false := h.1
        by_cases hx : isNilValue (ref x) = true <;>
        simp [Shows, Maybe.step, Maybe.setOrError, hp, Maybe.set, specStep, hx, Maybe.get, Maybe.orElse, Maybe.orError]

/-- C53. The nil values are: the nil interface and nil chans, funcs, maps, pointers and slices. -/
theorem c53_nil (ref : α → Option RV) (x : α) : isNilValue (ref x) = true ↔ IsNil ref x := isNilValue_iff ref x

/-- C53. The constructors: Of is present iff its argument is not nil; Empty is empty; Present panics iff
its argument is nil; First shows the first element. -/
theorem c53_constructors (ref : α → Option RV) (zv x : α) (l : List α) :
    (¬ IsNil ref x → Shows zv (of ref x) (some x)) ∧ (IsNil ref x → Shows zv (of ref x) none) ∧
    Shows zv (empty zv) none ∧
    (IsNil ref x → present ref x = none) ∧ (¬ IsNil ref x → ∃ m, present ref x = some m ∧ Shows zv m (some x)) ∧
    Shows zv (first ref zv []) none ∧
    (¬ IsNil ref x → Shows zv (first ref zv (x :: l)) (some x)) ∧ (IsNil ref x → Shows zv (first ref zv (x :: l)) none) := by
  rw [← isNilValue_iff]
  refine ⟨?_, ?_, ?_, ?_, ?_, ?_, ?_, ?_⟩
  all_goals
    by_cases hx : isNilValue (ref x) = true <;>
    simp [Shows, of, empty, present, first, Maybe.set, hx, Maybe.get, Maybe.orElse, Maybe.orError]

/-- C53. SetOrError returns an error exactly if a value is present, and then changes nothing. -/
theorem c53_setOrError (ref : α → Option RV) (zv : α) (m : Maybe α) (o : Option α) (x : α) (h : Shows zv m o) :
    ((m.setOrError ref x).1 = true ↔ o ≠ none) ∧ ((m.setOrError ref x).1 = true → (m.setOrError ref x).2 = m) := by
  have := h.1
  cases o <;> simp_all [Maybe.setOrError]

/-- A nillable type: pointers, `none` being nil. -/
def refPtr : Option Nat → Option RV := fun p => some ⟨.pointer, p.isNone, p.isNone⟩

example : ([.set (some 1), .setOrError (some 2), .set none, .setOrError (some 3)].foldl (Maybe.step refPtr none)
    (empty none)).get = some (some 3) := by decide

/-- C53. String prints the value held, or tells that the Maybe is empty, after any history of setters. -/
theorem c53_string (ref : α → Option RV) (zv : α) (f : α → String) (typ : String) (ops : List (MbOp α)) (m : Maybe α)
    (o : Option α) (h : Shows zv m o) :
    (ops.foldl (Maybe.step ref zv) m).string f typ =
      match ops.foldl (specStep (fun x => isNilValue (ref x))) o with
      | some x => f x
      | none => "Empty " ++ typ := by
  have h' := c53_history ref zv ops m o h
  revert h'
  generalize ops.foldl (Maybe.step ref zv) m = m'
  generalize ops.foldl (specStep (fun x => isNilValue (ref x))) o = o'
  intro h'
  obtain ⟨h1, h2, -⟩ := h'
  cases o' <;> simp_all [Maybe.string, Maybe.get]

example : ([.set (some 1), .setEmpty].foldl (Maybe.step refPtr none) (empty none)).string (fun _ => "x") "Maybe[*int]" =
    "Empty Maybe[*int]" :=
  c53_string refPtr none _ _ _ _ none (c53_constructors refPtr none none []).2.2.1

/-! ### C54 -/

/-- C54. Every constructed Result has a result xor an error, and Error is non-nil exactly with HasError. -/
theorem c54_xor (ref : α → Option RV) (zv r : α) (err : Option ε) :
    (∀ res : Result α ε, (res = ofResult r ∨ ofError zv err = some res ∨ ofResultError ref r err = some res) →
      (res.hasResult ≠ res.hasError) ∧ (res.hasError = true ↔ res.error ≠ none)) := by
  intro res _
  cases res with
  | mk r e => cases e <;> simp [Result.hasResult, Result.hasError, Result.error]

/-- C54. OfResult holds its value; OfError panics iff the error is nil, else holds it with the zero value. -/
theorem c54_constructors (zv r : α) (e : ε) :
    (ofResult (ε := ε) r).hasError = false ∧ (ofResult (ε := ε) r).get = r ∧
    ofError zv (none : Option ε) = none ∧
    ∃ res, ofError zv (some e) = some res ∧ res.get = zv ∧ res.error = some e :=
  ⟨rfl, rfl, rfl, _, rfl, rfl, rfl⟩

/-- C54. String prints the error if there is one, else the result. -/
theorem c54_string (ref : α → Option RV) (zv r : α) (f : α → String) (g : ε → String) (e : ε) :
    (ofResult (ε := ε) r).string f g = f r ∧
    (∀ res, ofError zv (some e) = some res → res.string f g = g e) ∧
    (∀ res, ofResultError ref r none = some res → Result.string f g res = f r) ∧
    (∀ res, ofResultError ref r (some e) = some res → res.string f g = g e) := by
  refine ⟨rfl, ?_, ?_, ?_⟩
  · rintro res ⟨⟩; rfl
  · rintro res ⟨⟩; rfl
  · intro res h
    cases hv : ref r with
    | none => simp [ofResultError, hv] at h
    | some v =>
      cases hz : v.isZero <;> simp [ofResultError, hv, hz] at h
      subst h; rfl

example : ∃ res, ofResultError (fun n : Int => some (⟨.other, false, n == 0⟩ : RV)) 0 (some "bad") = some res ∧
    res.string (fun _ => "0") id = "bad" := ⟨_, rfl, rfl⟩

/-- C54 (restricted to types R that are not interface types: reflection sees every value, and IsZero is
true for the zero value only). OfResultError panics iff the error is non-nil and the value is not
the zero value, so Get is the zero value whenever there is an error. Missing: interface types R
(`c54_interface_refuted`). -/
theorem c54_ofResultError_partial (ref : α → Option RV) (zv : α)
    (href : ∀ x, ∃ v, ref x = some v ∧ (v.isZero = true ↔ x = zv)) (r : α) (err : Option ε) :
    (ofResultError ref r err = none ↔ err ≠ none ∧ r ≠ zv) ∧
    (∀ res, ofResultError ref r err = some res → res.error = err ∧ res.get = r ∧ (res.hasError = true → res.get = zv)) := by
  obtain ⟨v, hv, hz⟩ := href r
  cases err with
  | none =>
    simp [ofResultError]
    exact ⟨rfl, rfl, by simp [Result.hasError]⟩
  | some e =>
    by_cases h : r = zv
    · have := hz.mpr h
      subst h
      simp [ofResultError, hv, this, Result.error, Result.get]
    · have hz' : v.isZero = false := by
        cases hb : v.isZero
        · rfl
        · exact absurd (hz.mp hb) h
      simp [ofResultError, hv, hz', h]

example : ofResultError (fun n : Int => some (⟨.other, false, n == 0⟩ : RV)) 5 (some "bad") = none :=
  (c54_ofResultError_partial _ 0 (fun x => ⟨_, rfl, by simp⟩) 5 (some "bad")).1.2 ⟨by simp, by simp⟩

/-- C54. What OfResultError does for an interface type R, whose values are nil or hold a value: with an error it panics exactly if R is nil
or what it holds is not a zero value; otherwise it keeps both, so that Get is not the zero value of R whenever there is an error. -/
theorem c54_interface {β : Type} (isZero : β → Bool) (r : Option β) (err : Option ε) :
    let ref : Option β → Option RV := fun x => x.map fun b => ⟨.other, false, isZero b⟩
    (ofResultError ref r err = none ↔ err ≠ none ∧ ∀ b, r = some b → isZero b = false) ∧
    (∀ res, ofResultError ref r err = some res → res.error = err ∧ res.get = r ∧ (res.hasError = true → res.get ≠ none)) := by
  cases err with
  | none => simp [ofResultError, Result.error, Result.get, Result.hasError]
  | some e =>
    cases r with
    | none => simp [ofResultError]
    | some b =>
      cases hz : isZero b <;> simp [ofResultError, hz, Result.error, Result.get, Result.hasError]

/-- Values of an interface type: the nil interface, or an int held by it. -/
def refAny : Option Int → Option RV
  | none => none
  | some n => some ⟨.other, false, n == 0⟩

/-- C54 fails for interface types R: the nil interface, which is the zero value of R, makes OfResultError
panic; and the int 0 held by the interface, which is not the zero value of R, is accepted together with
an error. -/
theorem c54_interface_refuted :
    ofResultError refAny none (some ()) = none ∧
    ∃ res, ofResultError refAny (some 0) (some ()) = some res ∧ res.hasError = true ∧ res.get ≠ none := by
  exact ⟨rfl, _, rfl, rfl, by simp [Result.get]⟩

/-- The hypothesis of `c54_ofResultError_partial` holds for ints. -/
example : ∀ x : Int, ∃ v, (fun n : Int => some (⟨.other, false, n == 0⟩ : RV)) x = some v ∧ (v.isZero = true ↔ x = 0) :=
  fun x => ⟨_, rfl, by simp⟩

end Micro.Union
