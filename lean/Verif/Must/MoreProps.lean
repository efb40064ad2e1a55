import Verif.Must.MoreModel
import Verif.Must.Props
import Verif.Conv.DispatchProps
import Verif.Funcs.MapProps
set_option linter.unusedSimpArgs false
/-
C114 and C69 for the remaining Must functions and for WriteObject and WriteArray; C76 for AssertType.
-/
namespace Micro.Must
open Micro Micro.Iter

theorem mustOpt_iff {α : Type} (r : Option α) :
    (∀ a, mustOpt r = .returned a ↔ r = some a) ∧ (mustOpt r = .panicked (some ()) ↔ r = none) ∧ mustOpt r ≠ .panicked none := by
  cases r <;> simp [mustOpt, mustValue]

open Conv in
/-- C114: conversions to *big.Int return exactly for whole numbers, and then that number; NaN and infinities panic. -/
theorem c114_toBigInt (q : ℚ) (i : Int) :
    (mustFloatToBigInt (.fin q) = .returned i ↔ q = i) ∧ (mustBigFloatToBigInt (.fin q) = .returned i ↔ q = i) ∧
    (mustBigRatToBigInt q = .returned i ↔ q = i) ∧
    (mustFloatToBigInt (.fin q) = .panicked (some ()) ↔ ¬ ∃ i : Int, q = i) ∧
    (mustBigRatToBigInt q = .panicked (some ()) ↔ ¬ ∃ i : Int, q = i) ∧
    mustFloatToBigInt .nan = .panicked (some ()) ∧ (∀ s, mustFloatToBigInt (.inf s) = .panicked (some ())) ∧
    (∀ s, mustBigFloatToBigInt (.inf s) = .panicked (some ())) := by
  have h := fun i => c78_bigInt q i
  refine ⟨?_, ?_, ?_, ?_, ?_, rfl, fun _ => rfl, fun _ => rfl⟩
  · rw [mustFloatToBigInt, (mustOpt_iff _).1]; exact (h i).1
  · rw [mustBigFloatToBigInt, (mustOpt_iff _).1]; exact (h i).2.1
  · rw [mustBigRatToBigInt, (mustOpt_iff _).1]; exact (h i).2.2
  · rw [mustFloatToBigInt, (mustOpt_iff _).2.1]
    rw [Option.eq_none_iff_forall_ne_some]
    simp only [ne_eq, (h _).1, not_exists]
  · rw [mustBigRatToBigInt, (mustOpt_iff _).2.1]
    rw [Option.eq_none_iff_forall_ne_some]
    simp only [ne_eq, (h _).2.2, not_exists]

open Conv in
example : mustFloatToBigInt (.fin 3) = .returned 3 ∧ mustFloatToBigInt (.fin (1 / 2)) = .panicked (some ()) := by
  refine ⟨(c114_toBigInt 3 3).1.mpr rfl, (c114_toBigInt (1 / 2) 0).2.2.2.1.mpr ?_⟩
  rintro ⟨i, hi⟩
  have : (1 : ℚ) = ((2 * i : Int) : ℚ) := by push_cast; linarith
  have : (1 : Int) = 2 * i := by exact_mod_cast this
  omega

open Conv in
/-- C114: the conversions to *big.Float and *big.Rat panic exactly for NaN, and for NaN and the infinities. -/
theorem c114_toBig (x : Flt) :
    (mustFloatToBigFloat x = .panicked (some ()) ↔ x = .nan) ∧ (∀ y, mustFloatToBigFloat x = .returned y ↔ x ≠ .nan ∧ y = x) ∧
    (mustFloatToBigRat x = .panicked (some ()) ↔ ∀ q, x ≠ .fin q) ∧ (mustBigFloatToBigRat x = .panicked (some ()) ↔ ∀ q, x ≠ .fin q) ∧
    (∀ q, x = .fin q → mustFloatToBigRat x = .returned (roundSig 10 10 q)) ∧
    (∀ r, mustBigFloatToBigRat x = .returned r ↔ bigFloatToBigRat x = some r) := by
  have hr : ∀ r, mustBigFloatToBigRat x = .returned r ↔ bigFloatToBigRat x = some r := by
    intro r
    unfold mustBigFloatToBigRat mustOpt mustValue
    cases bigFloatToBigRat x <;> simp
  have hp : mustBigFloatToBigRat x = .panicked (some ()) ↔ ∀ q, x ≠ .fin q := by
    rw [← (c79_special x x).2.2]
    unfold mustBigFloatToBigRat mustOpt mustValue
    cases bigFloatToBigRat x <;> simp
  refine ⟨?_, ?_, ?_, hp, ?_, hr⟩ <;> cases x <;>
    simp [mustFloatToBigFloat, mustFloatToBigRat, mustOpt, mustValue, floatToBigFloat, floatToBigRat, eq_comm]

open Conv.Dispatch in
/-- C114: MustTo, for numbers and strings of any types: it returns exactly if the types agree or the conversion succeeds, and panics with an
error otherwise. MustToBigOps and MustReflectTo return exactly if ToBigOps and ReflectTo copy the value or a conversion that they choose succeeds; they panic with an error exactly if
there is no conversion or it fails, and panic in another way exactly if ToBigOps or ReflectTo panics. -/
theorem c114_to (fails : Base → Base → Bool) (i o : Ty) (a b : Base) (hi : Under i a) (ho : Under o b) (i? : Option Ty) (t : Target) :
    (mustTo fails i o = .returned () ↔ a = b ∨ fails a b = false) ∧
    (mustTo fails i o = .panicked (some ()) ↔ a ≠ b ∧ fails a b = true) ∧ mustTo fails i o ≠ .panicked none ∧
    (mustReflectTo fails i? t = .panicked none ↔ reflectTo i? t = .panic) ∧
    (mustReflectTo fails i? t = .panicked (some ()) ↔ reflectTo i? t = .error ∨ ∃ x y, reflectTo i? t = .convert x y ∧ fails x y = true) ∧
    (mustReflectTo fails i? t = .returned () ↔ reflectTo i? t = .copy ∨ ∃ x y, reflectTo i? t = .convert x y ∧ fails x y = false) ∧
    (mustToBigOps fails i o = .panicked none ↔ toBigOps i o = .panic) ∧
    (mustToBigOps fails i o = .panicked (some ()) ↔ toBigOps i o = .error ∨ ∃ x y, toBigOps i o = .convert x y ∧ fails x y = true) ∧
    (mustToBigOps fails i o = .returned () ↔ toBigOps i o = .copy ∨ ∃ x y, toBigOps i o = .convert x y ∧ fails x y = false) := by
  have h := c94_to i o a b hi ho
  have gen : ∀ act : Action, (mustValue (finish fails act) = .panicked none ↔ act = .panic) ∧
      (mustValue (finish fails act) = .panicked (some ()) ↔ act = .error ∨ ∃ x y, act = .convert x y ∧ fails x y = true) ∧
      (mustValue (finish fails act) = .returned () ↔ act = .copy ∨ ∃ x y, act = .convert x y ∧ fails x y = false) := by
    intro act
    cases act with
    | convert a b => cases hf : fails a b <;> simp [finish, mustValue, hf]
    | copy => simp [finish, mustValue]
    | error => simp [finish, mustValue]
    | panic => simp [finish, mustValue]
  refine ⟨?_, ?_, ?_, (gen _).1, (gen _).2.1, (gen _).2.2, (gen _).1, (gen _).2.1, (gen _).2.2⟩
  · unfold mustTo; rw [h]
    by_cases hab : a = b
    · simp [hab, finish, mustValue]
    · cases hf : fails a b <;> simp [hab, finish, mustValue, hf]
  · unfold mustTo; rw [h]
    by_cases hab : a = b
    · simp [hab, finish, mustValue]
    · cases hf : fails a b <;> simp [hab, finish, mustValue, hf]
  · unfold mustTo; rw [h]
    by_cases hab : a = b
    · simp [hab, finish, mustValue]
    · cases hf : fails a b <;> simp [hab, finish, mustValue, hf]

open Conv.Dispatch in
example : mustTo (fun _ _ => true) (.base .int) (.base .string) = .panicked (some ()) :=
  (c114_to (fun _ _ => true) (.base .int) (.base .string) .int .string rfl rfl none .invalid).2.1.mpr ⟨by decide, rfl⟩

open Conv.Dispatch in
example : mustReflectTo (fun _ _ => false) none (.ptr (.base .int)) = .panicked (some ()) :=
  (c114_to (fun _ _ => false) (.base .int) (.base .string) .int .string rfl rfl none (.ptr (.base .int))).2.2.2.2.1.mpr (.inl rfl)

/-- C114: MustValue3, MustAssertType, MustConvertToMap and MustTypeAssert. -/
theorem c114_funcs {ε α β γ K V T : Type} [DecidableEq K] [DecidableEq T] (t : α) (u : β) (v : γ) (err : Option ε)
    (asT : α → Option β) (zv : β) (visit : Option (List (K × α))) (asV : α → Option V)
    (un : Reflect.Univ T (Reflect.Content T)) (val : Reflect.Value T) (typ : T) :
    (mustValue3 t u v err = .returned (t, u, v) ↔ err = none) ∧ (∀ e, mustValue3 t u v err = .panicked (some e) ↔ err = some e) ∧
    (∀ b, mustAssertType asT zv t = .returned b ↔ asT t = some b) ∧ (mustAssertType asT zv t = .panicked (some ()) ↔ asT t = none) ∧
    (∀ m, mustConvertToMap visit asV = .returned m ↔ Funcs.convertToMap visit asV = .ok m) ∧
    (∀ e, mustConvertToMap visit asV = .panicked (some e) ↔ Funcs.convertToMap visit asV = .error e) ∧
    Agrees (mustTypeAssert un val typ) (Reflect.typeAssert un val typ) := by
  refine ⟨?_, ?_, ?_, ?_, ?_, ?_, c114_value _⟩
  · cases err <;> simp [mustValue3]
  · cases err <;> simp [mustValue3]
  · intro b; cases h : asT t <;> simp [mustAssertType, assertType, h, mustValue]
  · cases h : asT t <;> simp [mustAssertType, assertType, h, mustValue]
  · intro m; unfold mustConvertToMap; rcases Funcs.convertToMap visit asV with _ | _ <;> simp [mustValue]
  · intro e; unfold mustConvertToMap; rcases Funcs.convertToMap visit asV with _ | _ <;> simp [mustValue]

/-- C114: MustConvertToSlice and MustConvertToSlice2. -/
theorem c114_slices {α β : Type} (asSlice : α → Option (List α)) (asT : α → Option β) (v : α) :
    (∀ r, mustConvertToSlice asSlice asT v = .returned r ↔ Funcs.convertToSlice asSlice asT v = .ok r) ∧
    (∀ e, mustConvertToSlice asSlice asT v = .panicked (some e) ↔ Funcs.convertToSlice asSlice asT v = .error e) ∧
    (∀ r, mustConvertToSlice2 asSlice asT v = .returned r ↔ Funcs.convertToSlice2 asSlice asT v = .ok r) ∧
    (∀ e, mustConvertToSlice2 asSlice asT v = .panicked (some e) ↔ Funcs.convertToSlice2 asSlice asT v = .error e) := by
  unfold mustConvertToSlice mustConvertToSlice2
  rcases Funcs.convertToSlice asSlice asT v with _ | _ <;> rcases Funcs.convertToSlice2 asSlice asT v with _ | _ <;> simp [mustValue]

example : mustConvertToSlice (fun x : List Nat ⊕ Nat => x.getLeft?.map (·.map .inr)) (fun x => x.getRight?) (.inl [1, 2]) = .returned [1, 2] := by decide

/-- C76: AssertType is all or nothing too: the value and no error exactly if it has the type, else the zero value and an error. -/
theorem c76_assertType {α β : Type} (asT : α → Option β) (zv : β) (v : α) :
    (∀ b, asT v = some b → assertType asT zv v = (b, false)) ∧ (asT v = none → assertType asT zv v = (zv, true)) := by
  constructor
  · intro b h; simp [assertType, h]
  · intro h; simp [assertType, h]

example : assertType (fun x : Nat ⊕ String => x.getLeft?) 0 (.inl 3) = (3, false) ∧
    assertType (fun x : Nat ⊕ String => x.getLeft?) 0 (.inr "a") = (0, true) := ⟨rfl, rfl⟩

open Json

/-- C69: WriteObject of an object and WriteArray of an array do what Write does, to any writer. -/
theorem c69_direct {σ : Type} (w : W σ) (s : σ) (kvs : List (List Char × JVal)) (vs : List JVal) :
    writeObject w s (.obj kvs) = (some (writeTo w s (.obj kvs)).1, (writeTo w s (.obj kvs)).2) ∧
    writeArray w s (.arr vs) = (some (writeTo w s (.arr vs)).1, (writeTo w s (.arr vs)).2) := by
  constructor
  · unfold writeObject writeTo
    rcases w s ['{'] with ⟨_ | e, s1⟩
    · simp only
      rcases fieldsTo w s1 0 kvs with ⟨_ | e, s2⟩ <;> rfl
    · rfl
  · unfold writeArray writeTo
    rcases w s ['['] with ⟨_ | e, s1⟩
    · simp only
      rcases elemsTo w s1 0 vs with ⟨_ | e, s2⟩ <;> rfl
    · rfl

/-- C69: of any other value they write the opening bracket, and nothing else, before they panic. -/
theorem c69_direct_other {σ : Type} (w : W σ) (s : σ) (v : JVal) :
    ((∀ kvs, v ≠ .obj kvs) →
      (∀ s', w s ['{'] = (none, s') → writeObject w s v = (none, s')) ∧
      (∀ e s', w s ['{'] = (some e, s') → writeObject w s v = (some (some e), s'))) ∧
    ((∀ vs, v ≠ .arr vs) →
      (∀ s', w s ['['] = (none, s') → writeArray w s v = (none, s')) ∧
      (∀ e s', w s ['['] = (some e, s') → writeArray w s v = (some (some e), s'))) := by
  refine ⟨fun h => ⟨fun s' hw => ?_, fun e s' hw => ?_⟩, fun h => ⟨fun s' hw => ?_, fun e s' hw => ?_⟩⟩
  · unfold writeObject; rw [hw]; cases v <;> first | rfl | exact absurd rfl (h _)
  · unfold writeObject; rw [hw]
  · unfold writeArray; rw [hw]; cases v <;> first | rfl | exact absurd rfl (h _)
  · unfold writeArray; rw [hw]

example : writeObject (fun (s : List Char) c => (none, s ++ c)) [] (.str ['a']) = (none, ['{']) :=
  ((c69_direct_other _ _ _).1 (by intro _ h; cases h)).1 _ rfl

/-- C114: MustWriteObject and MustWriteArray: return, panic with the writer's error, or the panic of the plain function. -/
theorem c114_writeDirect {σ : Type} (r : Option (Option Iter.Err) × σ) :
    (mustWritten r).2 = r.2 ∧ ((mustWritten r).1 = .returned () ↔ r.1 = some none) ∧
    (∀ e, (mustWritten r).1 = .panicked (some e) ↔ r.1 = some (some e)) ∧ ((mustWritten r).1 = .panicked none ↔ r.1 = none) := by
  obtain ⟨_ | _ | _, s⟩ := r <;> simp [mustWritten, must]

end Micro.Must
