import Verif.Code.Model
import Verif.Funcs.MapProps
import Mathlib.Data.List.Infix
/-
Theorems about package code: C66 (operators, types and their constructors) and C67 (BaseGenerator).
-/
set_option linter.unusedSimpArgs false
namespace Micro.Code
open Micro Micro.Funcs

/-! ### C66: classification -/

/-- C66. Every operator number is exactly one of unary, binary, boolean. -/
theorem c66_operators (op : Nat) :
    (isUnary op = true ∧ isBinary op = false ∧ isBoolean op = false) ∨
    (isUnary op = false ∧ isBinary op = true ∧ isBoolean op = false) ∨
    (isUnary op = false ∧ isBinary op = false ∧ isBoolean op = true) := by
  have e1 : isUnary op = true ↔ op < 4 := decide_eq_true_iff
  have e2 : isBinary op = true ↔ (op ≥ 4 ∧ op < 15) := by
    unfold isBinary; rw [Bool.and_eq_true]; exact and_congr decide_eq_true_iff decide_eq_true_iff
  have e3 : isBoolean op = true ↔ op ≥ 15 := decide_eq_true_iff
  simp only [← Bool.not_eq_true, e1, e2, e3]
  omega

/-- C66. The named operators are classified as declared, and their numbers are all different; a number below the last boolean
operator is the number of an operator. -/
theorem c66_named :
    (∀ o : UnaryOp, isUnary o.code = true) ∧ (∀ o : BinaryOp, isBinary o.code = true) ∧ (∀ o : BooleanOp, isBoolean o.code = true) ∧
    (∀ a b : UnaryOp, a.code = b.code → a = b) ∧ (∀ a b : BinaryOp, a.code = b.code → a = b) ∧
    (∀ a b : BooleanOp, a.code = b.code → a = b) := by
  refine ⟨?_, ?_, ?_, ?_, ?_, ?_⟩
  · intro o; cases o <;> rfl
  · intro o; cases o <;> rfl
  · intro o; cases o <;> rfl
  · intro a b; cases a <;> cases b <;> first | (intro _; rfl) | (intro h; exact absurd h (by decide))
  · intro a b; cases a <;> cases b <;> first | (intro _; rfl) | (intro h; exact absurd h (by decide))
  · intro a b; cases a <;> cases b <;> first | (intro _; rfl) | (intro h; exact absurd h (by decide))

/-- C66. Every type number is exactly one of scalar, aggregate; the aggregate types are aggregates with different numbers. -/
theorem c66_types (t : Nat) :
    ((isScalar t = true ∧ isAggregate t = false) ∨ (isScalar t = false ∧ isAggregate t = true)) ∧
    (∀ a : AggType, isAggregate a.code = true) ∧ (∀ a b : AggType, a.code = b.code → a = b) := by
  refine ⟨?_, ?_, ?_⟩
  · have e1 : isScalar t = true ↔ t < 21 := decide_eq_true_iff
    have e2 : isAggregate t = true ↔ t ≥ 21 := decide_eq_true_iff
    simp only [← Bool.not_eq_true, e1, e2]
    omega
  · intro a; cases a <;> rfl
  · intro a b; cases a <;> cases b <;> first | (intro _; rfl) | (intro h; exact absurd h (by decide))

/-- The number of operands an operator takes. -/
def arity (op : Nat) : Nat :=
  if isUnary op then 1 else if isBinary op then 2
  else if op = BooleanOp.not.code then 1 else if op = BooleanOp.ternary.code then 3 else 2

/-- An expression holds exactly the operands its operator takes, and they are the first ones given. -/
def Fills {α : Type} (e : Expr α) (given : List (Ptr α)) : Prop :=
  (match e.val2, e.val3 with
    | none, none => arity e.op = 1 ∧ given[0]? = some (some e.val1)
    | some v2, none => arity e.op = 2 ∧ given[0]? = some (some e.val1) ∧ given[1]? = some (some v2)
    | some v2, some v3 => arity e.op = 3 ∧ given[0]? = some (some e.val1) ∧ given[1]? = some (some v2) ∧ given[2]? = some (some v3)
    | none, some _ => False)

/-- C66. OfUnaryExpr panics exactly when its operand is nil; otherwise it fills the one slot. -/
theorem c66_unary {α : Type} (op : UnaryOp) (v : Ptr α) :
    (ofUnaryExpr op v = none ↔ v = none) ∧ ∀ e, ofUnaryExpr op v = some e → e.op = op.code ∧ Fills e [v] := by
  cases v with
  | none => simp [ofUnaryExpr, mustNonNil]
  | some a =>
    refine ⟨by simp [ofUnaryExpr, mustNonNil], fun e he => ?_⟩
    simp [ofUnaryExpr, mustNonNil] at he
    subst he
    refine ⟨rfl, ?_, rfl⟩
    cases op <;> rfl

/-- C66. OfBinaryExpr panics exactly when one of its operands is nil; otherwise it fills the two slots. -/
theorem c66_binary {α : Type} (op : BinaryOp) (v w : Ptr α) :
    (ofBinaryExpr op v w = none ↔ v = none ∨ w = none) ∧ ∀ e, ofBinaryExpr op v w = some e → e.op = op.code ∧ Fills e [v, w] := by
  cases v with
  | none => simp [ofBinaryExpr, mustNonNil]
  | some a =>
    cases w with
    | none => simp [ofBinaryExpr, mustNonNil, presentPtr]
    | some b =>
      refine ⟨by simp [ofBinaryExpr, mustNonNil, presentPtr], fun e he => ?_⟩
      simp [ofBinaryExpr, mustNonNil, presentPtr] at he
      subst he
      refine ⟨rfl, ?_, rfl, rfl⟩
      cases op <;> rfl

/-- C66. OfBooleanExpr panics exactly when one of the operands its operator takes is nil or missing; otherwise it fills the
slots (superfluous operands are ignored). -/
theorem c66_boolean {α : Type} (op : BooleanOp) (v : Ptr α) (vs : List (Ptr α)) :
    (ofBooleanExpr op v vs = none ↔ ∃ i, i < arity op.code ∧ ((v :: vs)[i]?).getD none = none) ∧
    ∀ e, ofBooleanExpr op v vs = some e → e.op = op.code ∧ Fills e (v :: vs) := by
  have h1 : op = .not ∨ op = .ternary ∨ arity op.code = 2 := by cases op <;> simp [arity, isUnary, isBinary, BooleanOp.code, afterBinary, afterUnary]
  have two : ∀ P : Nat → Prop, (∃ i, i < 2 ∧ P i) ↔ P 0 ∨ P 1 := by
    intro P
    constructor
    · rintro ⟨i, h, hp⟩
      have : i = 0 ∨ i = 1 := by omega
      rcases this with rfl | rfl
      · exact Or.inl hp
      · exact Or.inr hp
    · rintro (h | h)
      · exact ⟨0, by omega, h⟩
      · exact ⟨1, by omega, h⟩
  have three : ∀ P : Nat → Prop, (∃ i, i < 3 ∧ P i) ↔ P 0 ∨ P 1 ∨ P 2 := by
    intro P
    constructor
    · rintro ⟨i, h, hp⟩
      have : i = 0 ∨ i = 1 ∨ i = 2 := by omega
      rcases this with rfl | rfl | rfl
      · exact Or.inl hp
      · exact Or.inr (Or.inl hp)
      · exact Or.inr (Or.inr hp)
    · rintro (h | h | h)
      · exact ⟨0, by omega, h⟩
      · exact ⟨1, by omega, h⟩
      · exact ⟨2, by omega, h⟩
  by_cases hn : op = .not
  · subst hn
    have ha : arity BooleanOp.not.code = 1 := rfl
    rw [ha]
    cases v with
    | none => exact ⟨⟨fun _ => ⟨0, by omega, rfl⟩, fun _ => rfl⟩, fun e he => by simp [ofBooleanExpr, mustNonNil] at he⟩
    | some a =>
      refine ⟨⟨fun h => by simp [ofBooleanExpr, mustNonNil] at h, ?_⟩, fun e he => ?_⟩
      · rintro ⟨i, hi, h⟩
        have : i = 0 := by omega
        subst this
        simp at h
      · simp [ofBooleanExpr, mustNonNil] at he
        subst he
        exact ⟨rfl, rfl, rfl⟩
  · by_cases ht : op = .ternary
    · subst ht
      have ha : arity BooleanOp.ternary.code = 3 := rfl
      rw [ha, three]
      rcases v with _ | a <;> rcases vs with _ | ⟨_ | b, _ | ⟨_ | c, rest⟩⟩ <;>
        simp [ofBooleanExpr, mustNonNil, presentPtr, Fills, ha]
    · have ha : arity op.code = 2 := by rcases h1 with h | h | h <;> first | exact absurd h hn | exact absurd h ht | exact h
      rw [ha, two]
      have hop : ofBooleanExpr op v vs = (do
          let v2 ← presentPtr (← vs[0]?)
          let v1 ← mustNonNil v
          return ⟨op.code, v1, v2, none⟩) := by
        cases op <;> first | exact absurd rfl hn | exact absurd rfl ht | (simp [ofBooleanExpr])
      rw [hop]
      rcases v with _ | a <;> rcases vs with _ | ⟨_ | b, rest⟩ <;> simp [mustNonNil, presentPtr, Fills, ha]

example : ofBooleanExpr (α := Nat) .ternary (some 1) [some 2, some 3] = some ⟨23, 1, some 2, some 3⟩ ∧
    ofBooleanExpr (α := Nat) .ternary (some 1) [some 2] = none ∧
    ofBooleanExpr (α := Nat) .not (some 1) [some 2, none] = some ⟨15, 1, none, none⟩ := ⟨rfl, rfl, rfl⟩

/-- Which slots the constructors fill: only a map has a key type, exactly the aggregates other than JSON have a value type, only
an enum or object has a name. -/
def WellFormed (t : TypeDef) : Prop :=
  (t.keyType.isSome = true ↔ t.typ = AggType.map.code) ∧
  (t.valueType.isSome = true ↔ isAggregate t.typ = true ∧ t.typ ≠ AggType.json.code) ∧
  (t.names ≠ [] ∨ t.name ≠ "" → t.typ = AggType.enum.code ∨ t.typ = AggType.object.code) ∧
  (t.typ = AggType.enum.code → t.names ≠ []) ∧
  (t.arrayBounds ≠ [] → t.typ = AggType.array.code)

/-- C66. Each type constructor panics exactly when a type it needs is nil (or, for an enum, no constants are given); otherwise
the result has its type number, exactly the slots of its kind are filled, and the element or base type is the one given. -/
theorem c66_constructors (typ : Nat) (hs : isScalar typ = true) (k v : Ptr TypeDef) (name : String) (ns : List String) (bs acc : List Nat) :
    (∃ t, ofScalarType typ acc = some t ∧ t.typ = typ ∧ WellFormed t) ∧
    (∃ t, ofJSONType acc = some t ∧ t.typ = AggType.json.code ∧ WellFormed t) ∧
    (∀ c ∈ [(ofArrayType v bs acc, AggType.array), (ofListType v acc, .list), (ofMaybeType v acc, .maybe), (ofSetType v acc, .set),
        (ofObjectType v name ns acc, .object)],
      (c.1 = none ↔ v = none) ∧ ∀ t, c.1 = some t → t.typ = c.2.code ∧ WellFormed t ∧ t.valueType = v) ∧
    ((ofEnumType name v ns acc = none ↔ v = none ∨ ns = []) ∧
      ∀ t, ofEnumType name v ns acc = some t → t.typ = AggType.enum.code ∧ WellFormed t ∧ t.valueType = v ∧ t.name = name ∧ t.names = ns) ∧
    ((ofMapType k v acc = none ↔ k = none ∨ v = none) ∧
      ∀ t, ofMapType k v acc = some t → t.typ = AggType.map.code ∧ WellFormed t ∧ t.keyType = k ∧ t.valueType = v) := by
  have hlt : typ < 21 := decide_eq_true_iff.mp hs
  have hm : typ ≠ AggType.map.code := by simp [AggType.code, afterScalar]; omega
  refine ⟨⟨_, rfl, rfl, ?_⟩, ⟨_, rfl, rfl, ?_⟩, ?_, ?_, ?_⟩
  · simp [WellFormed, AggType.code, afterScalar, isAggregate]; omega
  · simp [WellFormed, AggType.code, afterScalar, isAggregate]
  · intro c hc
    simp only [List.mem_cons, List.not_mem_nil, or_false] at hc
    rcases hc with rfl | rfl | rfl | rfl | rfl <;> cases v <;>
      simp [ofArrayType, ofListType, ofMaybeType, ofSetType, ofObjectType, presentPtr, WellFormed, AggType.code, afterScalar, isAggregate]
  · rcases ns with _ | ⟨n, ns⟩ <;> cases v <;>
      simp [ofEnumType, presentPtr, WellFormed, AggType.code, afterScalar, isAggregate]
  · cases k <;> cases v <;>
      simp [ofMapType, presentPtr, WellFormed, AggType.code, afterScalar, isAggregate]

example := c66_constructors 3 rfl none none "Colour" ["Red", "Green"] [3] []

/-- C66. Values: the constructors panic exactly for a nil type, and otherwise keep what they are given; only variables have an access level,
the first one given, if any. -/
theorem c66_values (konst : Bool) (t : Ptr TypeDef) (val : String) (access : List Nat) :
    (ofLitVal t val = none ↔ t = none) ∧ (ofVarVal konst t val access = none ↔ t = none) ∧
    (∀ v, ofLitVal t val = some v → v.kind = .litVal ∧ v.access = none ∧ t = some v.typ ∧ v.value = val) ∧
    (∀ v, ofVarVal konst t val access = some v →
      (v.kind = .varConst ↔ konst = true) ∧ (v.kind = .varVal ↔ konst = false) ∧ t = some v.typ ∧ v.value = val ∧
      (access = [] → v.access = none) ∧ ∀ a as, access = a :: as → v.access = some a) := by
  cases t with
  | none => simp [ofLitVal, ofVarVal, mustNonNil]
  | some t =>
    refine ⟨by simp [ofLitVal, mustNonNil], by simp [ofVarVal, mustNonNil], fun v h => ?_, fun v h => ?_⟩
    · simp [ofLitVal, mustNonNil] at h
      subst h; simp
    · simp [ofVarVal, mustNonNil] at h
      subst h
      refine ⟨by cases konst <;> simp, by cases konst <;> simp, rfl, rfl, fun ha => by simp [ha], fun a as ha => by simp [ha]⟩

example : ∃ v, ofVarVal true (ofScalarType 3 []) "x" [2, 1] = some v ∧ v.kind = .varConst ∧ v.access = some 2 := ⟨_, rfl, rfl, rfl⟩

/-- C66. Every type constructor takes the first access level given, and Private (0) if none is; the names, bounds and generics given are kept. -/
theorem c66_access (typ : Nat) (k v : Ptr TypeDef) (name : String) (ns : List String) (bs : List Nat) (a : Nat) (as : List Nat) :
    (∀ t ∈ [ofScalarType typ [], ofJSONType [], ofArrayType v bs [], ofListType v [], ofMaybeType v [], ofSetType v [], ofObjectType v name ns [],
        ofEnumType name v ns [], ofMapType k v []], ∀ d, t = some d → d.access = 0) ∧
    (∀ t ∈ [ofScalarType typ (a :: as), ofJSONType (a :: as), ofArrayType v bs (a :: as), ofListType v (a :: as), ofMaybeType v (a :: as),
        ofSetType v (a :: as), ofObjectType v name ns (a :: as), ofEnumType name v ns (a :: as), ofMapType k v (a :: as)],
      ∀ d, t = some d → d.access = a) ∧
    (∀ d, ofArrayType v bs as = some d → d.arrayBounds = bs) ∧ (∀ d, ofObjectType v name ns as = some d → d.name = name ∧ d.names = ns) := by
  have e0 : accessOf [] = 0 := rfl
  have e1 : accessOf (a :: as) = a := by simp [accessOf, sliceIndex]
  refine ⟨?_, ?_, ?_, ?_⟩
  · intro t ht d hd
    simp only [List.mem_cons, List.not_mem_nil, or_false] at ht
    rcases ht with rfl | rfl | rfl | rfl | rfl | rfl | rfl | rfl | rfl <;> cases v <;> cases k <;> cases ns <;>
      simp [ofScalarType, ofJSONType, ofArrayType, ofListType, ofMaybeType, ofSetType, ofObjectType, ofEnumType, ofMapType, presentPtr, e0] at hd <;>
      rw [← hd]
  · intro t ht d hd
    simp only [List.mem_cons, List.not_mem_nil, or_false] at ht
    rcases ht with rfl | rfl | rfl | rfl | rfl | rfl | rfl | rfl | rfl <;> cases v <;> cases k <;> cases ns <;>
      simp [ofScalarType, ofJSONType, ofArrayType, ofListType, ofMaybeType, ofSetType, ofObjectType, ofEnumType, ofMapType, presentPtr, e1] at hd <;>
      rw [← hd]
  · intro d hd; cases v <;> simp [ofArrayType, presentPtr] at hd; rw [← hd]
  · intro d hd; cases v <;> simp [ofObjectType, presentPtr] at hd; rw [← hd]; simp

example : ∃ d, ofSetType (ofJSONType []) [3, 1] = some d ∧ d.access = 3 := ⟨_, rfl, rfl⟩

/-! ### C67: BaseGenerator -/

/-- C67. GetBasePath panics before the first SetBasePath. -/
theorem c67_getBasePath_unset : getBasePath Gen.zero = none := rfl

/-- C67. Whatever the history of calls, the map of directories is nil and the current directory is empty; the base path is
the argument of the first SetBasePath. -/
theorem reach_inv (os : OS) (fs : FS) (ops : List GOp) :
    (runGs os (Gen.zero, fs) ops).1.dirs = none ∧ (runGs os (Gen.zero, fs) ops).1.currentDir = [] ∧
    getBasePath (runGs os (Gen.zero, fs) ops).1 = (ops.filterMap (fun op => match op with | .setBasePath b => some b | _ => none)).head? := by
  have setB : ∀ (g : Gen) (fs : FS) (bp : List Char),
      (setBasePath os g fs bp).2.1 = { g with basePath := (g.basePath.setOrError refStr bp).2 } := by
    intro g fs bp
    unfold setBasePath
    dsimp only
    repeat' split
    all_goals rfl
  have dirB : ∀ (g : Gen) (fs : FS) (n : List Char), g.dirs = none → (dir os g fs n).2.1 = g := by
    intro g fs n h
    unfold dir
    simp only [h, GoMap.write]
    repeat' split
    all_goals first | rfl | (rename_i h2; simp at h2)
  have srcB : ∀ (g : Gen) (fs : FS) (n : List Char), (src os g fs n).2.1.dirs = g.dirs ∧ (src os g fs n).2.1.currentDir = g.currentDir ∧
      (src os g fs n).2.1.basePath = g.basePath := by
    intro g fs n
    unfold src
    dsimp only
    repeat' split
    all_goals exact ⟨rfl, rfl, rfl⟩
  have key : ∀ (ops : List GOp) (g : Gen) (fs : FS), g.dirs = none → g.currentDir = [] →
      (runGs os (g, fs) ops).1.dirs = none ∧ (runGs os (g, fs) ops).1.currentDir = [] ∧
      getBasePath (runGs os (g, fs) ops).1 = (match getBasePath g with
        | some b => some b
        | none => (ops.filterMap (fun op => match op with | .setBasePath b => some b | _ => none)).head?) := by
    intro ops
    induction ops with
    | nil => intro g fs h1 h2; refine ⟨h1, h2, ?_⟩; simp only [runGs]; cases getBasePath g <;> rfl
    | cons op ops ih =>
      intro g fs h1 h2
      cases op with
      | setBasePath bp =>
        have e := setB g fs bp
        have h3 : ({ g with basePath := (g.basePath.setOrError refStr bp).2 } : Gen).dirs = none := h1
        obtain ⟨i1, i2, i3⟩ := ih (setBasePath os g fs bp).2.1 (setBasePath os g fs bp).2.2 (by rw [e]; exact h1) (by rw [e]; exact h2)
        refine ⟨i1, i2, ?_⟩
        show getBasePath (runGs os (setBasePath os g fs bp).2 ops).1 = _
        rw [show (setBasePath os g fs bp).2 = ((setBasePath os g fs bp).2.1, (setBasePath os g fs bp).2.2) from rfl, i3, e]
        cases hp : g.basePath.present with
        | true => simp [getBasePath, Union.Maybe.setOrError, hp]
        | false => simp [getBasePath, Union.Maybe.setOrError, hp, Union.Maybe.set, refStr, Union.isNilValue, Union.nillable]
      | dir n =>
        have e := dirB g fs n h1
        obtain ⟨i1, i2, i3⟩ := ih (dir os g fs n).2.1 (dir os g fs n).2.2 (by rw [e]; exact h1) (by rw [e]; exact h2)
        refine ⟨i1, i2, ?_⟩
        show getBasePath (runGs os (dir os g fs n).2 ops).1 = _
        rw [show (dir os g fs n).2 = ((dir os g fs n).2.1, (dir os g fs n).2.2) from rfl, i3, e]
        simp
      | src n =>
        obtain ⟨e1, e2, e3⟩ := srcB g fs n
        obtain ⟨i1, i2, i3⟩ := ih (src os g fs n).2.1 (src os g fs n).2.2 (by rw [e1]; exact h1) (by rw [e2]; exact h2)
        refine ⟨i1, i2, ?_⟩
        show getBasePath (runGs os (src os g fs n).2 ops).1 = _
        rw [show (src os g fs n).2 = ((src os g fs n).2.1, (src os g fs n).2.2) from rfl, i3]
        have : getBasePath (src os g fs n).2.1 = getBasePath g := by unfold getBasePath; rw [e3]
        rw [this]
        simp
  have h := key ops Gen.zero fs rfl rfl
  simpa [c67_getBasePath_unset] using h

/-- C67. After any history the base path is the argument of the first SetBasePath call (whether or not that call panicked), or
GetBasePath panics if there was none. -/
theorem c67_basePath (os : OS) (fs : FS) (ops : List GOp) :
    getBasePath (runGs os (Gen.zero, fs) ops).1 = (ops.filterMap (fun op => match op with | .setBasePath b => some b | _ => none)).head? :=
  (reach_inv os fs ops).2.2

/-- C67, refuted: setting the base path again does not panic because it was set. It does to the file system exactly what a
first call does - it wipes the directory named - and leaves the base path as it was. -/
theorem c67_again_refuted (os : OS) (g : Gen) (fs : FS) (bp : List Char) (h : (getBasePath g).isSome = true) :
    (setBasePath os g fs bp).1 = (setBasePath os Gen.zero fs bp).1 ∧
    (setBasePath os g fs bp).2.2 = (setBasePath os Gen.zero fs bp).2.2 ∧
    (setBasePath os g fs bp).2.1 = g := by
  have hp : g.basePath.present = true := by
    by_contra hc
    simp [getBasePath, hc] at h
  have e : (g.basePath.setOrError refStr bp).2 = g.basePath := by simp [Union.Maybe.setOrError, hp]
  unfold setBasePath
  rw [e]
  dsimp only
  refine ⟨?_, ?_, ?_⟩
  all_goals repeat' split
  all_goals rfl

/-- A file system with a file two levels below the root; the user is root. -/
def demoFS : FS := fun p => if p = [] then some (.dir true) else if p = ["a"] then some (.dir true)
  else if p = ["b"] then some (.dir true) else if p = ["b", "f"] then some .file else none

/-- The root user, absolute one-letter paths. -/
def demoOS : OS := ⟨true, fun t => if t = ['/', 'a'] then ["a"] else if t = ['/', 'b'] then ["b"] else if t = ['/', 'a', '/', 'x'] then ["a", "x"] else ["c"],
  fun _ _ => none, fun fs _ => fs⟩

/-- The concrete case: SetBasePath("/a") and then SetBasePath("/b"): the second returns, the file /b/f is gone, the base path
is still /a. -/
theorem c67_wiped_refuted :
    demoFS ["b", "f"] = some .file ∧
    (setBasePath demoOS (runGs demoOS (Gen.zero, demoFS) [.setBasePath ['/', 'a']]).1
      (runGs demoOS (Gen.zero, demoFS) [.setBasePath ['/', 'a']]).2 ['/', 'b']).1 = .returned ∧
    getBasePath (runGs demoOS (Gen.zero, demoFS) [.setBasePath ['/', 'a'], .setBasePath ['/', 'b']]).1 = some ['/', 'a'] ∧
    (runGs demoOS (Gen.zero, demoFS) [.setBasePath ['/', 'a'], .setBasePath ['/', 'b']]).2 ["b", "f"] = none := by
  refine ⟨rfl, ?_, ?_, ?_⟩
  · decide
  · rw [c67_basePath]; rfl
  · decide

/-- C67, refuted: after any history Dir panics, even when it has just created the directory, because it then writes to a map
that is always nil. -/
theorem c67_dir_refuted (os : OS) (fs : FS) (ops : List GOp) (name : List Char) :
    (runG os (runGs os (Gen.zero, fs) ops) (.dir name)).1 = .panicked := by
  have h := (reach_inv os fs ops).1
  simp only [runG]
  unfold dir
  simp only [h, GoMap.write]
  repeat' split
  all_goals first | rfl | (rename_i h2; simp at h2)

theorem walk_none_update (root : Bool) (fs : FS) (p : Path) (n : Node) : ∀ (rest pre : Path),
    (∀ q, q <+: pre ++ rest → q ≠ pre ++ rest → q ≠ p) → walk root (Function.update fs p (some n)) pre rest = walk root fs pre rest := by
  intro rest
  induction rest with
  | nil => intro pre _; rfl
  | cons c rest ih =>
    intro pre h
    have hne : pre ≠ p := h pre (List.prefix_append _ _) (by simp)
    simp only [walk, Function.update_of_ne hne]
    rw [ih (pre ++ [c]) (by simpa using h)]

theorem stat_dir {root : Bool} {fs : FS} {p : Path} {n : Node} (h : stat root fs p = .ok n) : fs p = some n := by
  unfold stat at h
  split at h
  · cases h
  · split at h
    · cases h
    · rename_i hn; cases h; exact hn

theorem mkdir_stat {root : Bool} {fs fs' : FS} {p : Path} (h : mkdir root fs p = (none, fs')) :
    fs' = Function.update fs p (some (.dir false)) ∧ stat root fs' p = .ok (.dir false) ∧ fs p = none := by
  unfold mkdir at h
  split at h
  · simp at h
  · rename_i hw
    split at h
    · simp at h
    · rename_i hp
      simp at h
      subst h
      refine ⟨rfl, ?_, hp⟩
      unfold stat
      rw [walk_none_update root fs p (.dir false) p [] (fun q _ hne => by simpa using hne), hw]
      simp

/-- What MkdirAll does when it succeeds: the directory exists; whatever existed before is as it was; whatever is new is a
directory at or above the path. -/
theorem mkdirAllR_spec (root : Bool) (r : List String) : ∀ fs : FS, (mkdirAllR root fs r).1 = none →
    (∃ u, stat root (mkdirAllR root fs r).2 r.reverse = .ok (.dir u)) ∧ (∀ q n, fs q = some n → (mkdirAllR root fs r).2 q = some n) ∧
    (∀ q, fs q = none → (mkdirAllR root fs r).2 q = none ∨ ((mkdirAllR root fs r).2 q = some (.dir false) ∧ q <+: r.reverse)) := by
  induction r with
  | nil =>
    intro fs h
    unfold mkdirAllR at h ⊢
    split at h
    · rename_i u hs
      exact ⟨⟨u, hs⟩, fun q n hq => hq, fun q hq => Or.inl hq⟩
    · cases h
  | cons c up ih =>
    intro fs h
    unfold mkdirAllR at h ⊢
    split at h
    · rename_i u hs
      exact ⟨⟨u, by simpa only [hs] using hs⟩, fun q n hq => hq, fun q hq => Or.inl hq⟩
    · cases h
    · rename_i e hs
      cases hm : mkdirAllR root fs up with
      | mk e1 fs1 =>
        rw [hm] at h
        cases e1 with
        | some e1 => cases h
        | none =>
          obtain ⟨h1, h2, h3⟩ := ih fs (by rw [hm])
          rw [hm] at h1 h2 h3
          dsimp only at h h1 h2 h3 ⊢
          cases hk : mkdir root fs1 (c :: up).reverse with
          | mk e2 fs2 =>
            rw [hk] at h
            simp only at h
            subst h
            obtain ⟨k1, k2, k3⟩ := mkdir_stat hk
            dsimp only
            refine ⟨⟨false, k2⟩, fun q n hq => ?_, fun q hq => ?_⟩
            · have hne : q ≠ (c :: up).reverse := by
                rintro rfl; rw [h2 _ _ hq] at k3; cases k3
              rw [k1, Function.update_of_ne hne]; exact h2 q n hq
            · by_cases hne : q = (c :: up).reverse
              · subst hne; right; exact ⟨by rw [k1]; simp, List.prefix_refl _⟩
              · rw [k1, Function.update_of_ne hne]
                rcases h3 q hq with h4 | ⟨h4, h5⟩
                · exact Or.inl h4
                · exact Or.inr ⟨h4, h5.trans (by simp)⟩

theorem setBasePath_spec (os : OS) (fs : FS) (bp : List Char) (htree : ∀ p q, fs p = none → p <+: q → fs q = none)
    (h : (setBasePath os Gen.zero fs bp).1 = .returned) :
    getBasePath (setBasePath os Gen.zero fs bp).2.1 = some bp ∧
    stat os.root (setBasePath os Gen.zero fs bp).2.2 (os.resolve bp) = .ok (.dir false) ∧
    (∀ q, os.resolve bp <+: q → q ≠ os.resolve bp → (setBasePath os Gen.zero fs bp).2.2 q = none) ∧
    (∀ q n, ¬ os.resolve bp <+: q → fs q = some n → (setBasePath os Gen.zero fs bp).2.2 q = some n) ∧
    (∀ q, ¬ os.resolve bp <+: q → fs q = none →
      (setBasePath os Gen.zero fs bp).2.2 q = none ∨ ((setBasePath os Gen.zero fs bp).2.2 q = some (.dir false) ∧ q <+: os.resolve bp)) := by
  have hb : ∀ (a : Union.Maybe (List Char)), a.present = true → a.v = bp → getBasePath { Gen.zero with basePath := a } = some bp := by
    intro a h1 h2
    simp [getBasePath, h1, h2]
  have hset : (Gen.zero.basePath.setOrError refStr bp).2 = ⟨bp, true⟩ := rfl
  have walkNE : ∀ (rest pre : Path), walk os.root fs pre rest = some .notExist → fs (pre ++ rest) = none := by
    intro rest
    induction rest with
    | nil => intro pre h; cases h
    | cons c rest ih =>
      intro pre h
      unfold walk at h
      split at h
      · rename_i hn; exact htree _ _ hn (List.prefix_append _ _)
      · rename_i hn; cases h
      · split at h
        · have := ih _ h; simpa using this
        · cases h
  unfold setBasePath at h ⊢
  rw [hset] at h ⊢
  dsimp only at h ⊢
  split at h
  · rename_i hr
    have hne : fs (os.resolve bp) = none := by
      unfold readDir stat at hr
      cases hw : walk os.root fs [] (os.resolve bp) with
      | some e =>
        rw [hw] at hr; simp at hr; subst hr
        simpa using walkNE _ _ hw
      | none =>
        rw [hw] at hr
        cases hf : fs (os.resolve bp) with
        | none => rfl
        | some n =>
          rw [hf] at hr
          cases n with
          | file => simp at hr
          | dir u => simp only at hr; split at hr <;> simp at hr
    cases hm : mkdirAll os.root fs (os.resolve bp) with
    | mk e fs' =>
      rw [hm] at h
      cases e with
      | some e => cases h
      | none =>
        have hs := mkdirAllR_spec os.root (os.resolve bp).reverse fs (by have := congrArg Prod.fst hm; exact this)
        have e2 : (mkdirAllR os.root fs (os.resolve bp).reverse).2 = fs' := congrArg Prod.snd hm
        rw [e2, List.reverse_reverse] at hs
        obtain ⟨⟨u, h1⟩, h2, h3⟩ := hs
        simp only [hr]
        have hu : u = false := by
          rcases h3 _ hne with h4 | ⟨h4, _⟩
          · rw [stat_dir h1] at h4; cases h4
          · rw [stat_dir h1] at h4; cases h4; rfl
        subst hu
        refine ⟨hb _ rfl rfl, h1, fun q hq hne2 => ?_, fun q n _ hq => h2 q n hq, fun q _ hq => h3 q hq⟩
        rcases h3 q (htree _ _ hne hq) with h4 | ⟨_, h5⟩
        · exact h4
        · exact absurd (hq.eq_of_length_le h5.length_le).symm hne2
  · cases h
  · rename_i hr
    cases hbl : os.blocked fs (os.resolve bp) with
    | some e => rw [hbl] at h; simp [removeAll] at h
    | none =>
      rw [hbl] at h
      simp only [removeAll] at h
      simp only [hr, hbl, removeAll]
      cases hm : mkdir os.root (fun q => if os.resolve bp <+: q then none else fs q) (os.resolve bp) with
      | mk e fs' =>
        rw [hm] at h
        cases e with
        | some e => cases h
        | none =>
          dsimp only
          obtain ⟨hfs', hst, -⟩ := mkdir_stat hm
          subst hfs'
          refine ⟨hb _ rfl rfl, hst, fun q hq hne => ?_, fun q n hq hn => ?_, fun q hq hn => ?_⟩
          · rw [Function.update_of_ne hne]; simp [hq]
          · rw [Function.update_of_ne (fun h => hq (by rw [h]))]; simp [hq, hn]
          · rw [Function.update_of_ne (fun h => hq (by rw [h]))]; simp [hq, hn]

/-- C67. A first SetBasePath that returns leaves the base path set and the directory existing and empty; outside that directory
nothing that existed has changed, and anything new is one of the missing directories leading to it. Partial: that a second
call panics is false (`c67_again_refuted`). The hypothesis: nothing exists below a path that does not exist. -/
theorem c67_first_partial (os : OS) (fs : FS) (bp : List Char) (htree : ∀ p q, fs p = none → p <+: q → fs q = none)
    (h : (setBasePath os Gen.zero fs bp).1 = .returned) :
    getBasePath (setBasePath os Gen.zero fs bp).2.1 = some bp ∧
    (∃ u, (setBasePath os Gen.zero fs bp).2.2 (os.resolve bp) = some (.dir u)) ∧
    (∀ q, os.resolve bp <+: q → q ≠ os.resolve bp → (setBasePath os Gen.zero fs bp).2.2 q = none) ∧
    (∀ q n, ¬ os.resolve bp <+: q → fs q = some n → (setBasePath os Gen.zero fs bp).2.2 q = some n) ∧
    (∀ q, ¬ os.resolve bp <+: q → fs q = none →
      (setBasePath os Gen.zero fs bp).2.2 q = none ∨ ((setBasePath os Gen.zero fs bp).2.2 q = some (.dir false) ∧ q <+: os.resolve bp)) := by
  obtain ⟨h1, h2, h3, h4, h5⟩ := setBasePath_spec os fs bp htree h
  exact ⟨h1, ⟨_, stat_dir h2⟩, h3, h4, h5⟩

/-- The hypotheses are met: the demo file system, base path /b. -/
example : (setBasePath demoOS Gen.zero demoFS ['/', 'b']).1 = .returned ∧ (setBasePath demoOS Gen.zero demoFS ['/', 'b']).2.2 ["b", "f"] = none ∧
    (setBasePath demoOS Gen.zero demoFS ['/', 'b']).2.2 ["a"] = some (.dir true) := by decide

/-- C67. The directories are created without any permission (the mode passed has no permission bits): for a user who is not
root, after SetBasePath has returned, no directory can be created in the base directory - Dir creates nothing and panics. -/
theorem c67_mode_refuted (os : OS) (hroot : os.root = false) (fs : FS) (b name : List Char) (c : String)
    (htree : ∀ p q, fs p = none → p <+: q → fs q = none)
    (hret : (setBasePath os Gen.zero fs b).1 = .returned) (hres : os.resolve (b ++ ['/'] ++ name) = os.resolve b ++ [c]) :
    (dir os (setBasePath os Gen.zero fs b).2.1 (setBasePath os Gen.zero fs b).2.2 name).1 = .panicked ∧
    (dir os (setBasePath os Gen.zero fs b).2.1 (setBasePath os Gen.zero fs b).2.2 name).2.2 = (setBasePath os Gen.zero fs b).2.2 := by
  obtain ⟨hb, hst, -⟩ := setBasePath_spec os fs b htree hret
  generalize (setBasePath os Gen.zero fs b).2.1 = g at *
  generalize (setBasePath os Gen.zero fs b).2.2 = fs at *
  have hdir : fs (os.resolve b) = some (.dir false) := stat_dir hst
  have hwalk : ∀ (rest pre : Path), fs (pre ++ rest) = some (.dir false) → walk os.root fs pre rest = none →
      walk os.root fs pre (rest ++ [c]) = some .denied := by
    intro rest
    induction rest with
    | nil =>
      intro pre h _
      simp only [List.append_nil] at h
      simp [walk, h, hroot]
    | cons x rest ih =>
      intro pre h hw
      simp only [List.cons_append, walk] at hw ⊢
      split
      · rename_i hn; rw [hn] at hw; cases hw
      · rename_i hn; rw [hn] at hw; cases hw
      · rename_i ok hn
        rw [hn] at hw
        split
        · rename_i h2
          simp only [if_pos h2] at hw
          exact ih _ (by simpa using h) hw
        · rename_i h2; rfl
  have hw0 : walk os.root fs [] (os.resolve b) = none := by
    unfold stat at hst
    cases hc : walk os.root fs [] (os.resolve b) with
    | none => rfl
    | some e => rw [hc] at hst; cases hst
  have he := hwalk (os.resolve b) [] (by simpa using hdir) hw0
  have hm : mkdirAll os.root fs (os.resolve b ++ [c]) = (some .denied, fs) := by
    unfold mkdirAll
    rw [List.reverse_append, List.reverse_singleton, List.singleton_append]
    unfold mkdirAllR
    have hst2 : stat os.root fs (c :: (os.resolve b).reverse).reverse = .error .denied := by
      simp only [List.reverse_cons, List.reverse_reverse, stat, he]
    have hup : mkdirAllR os.root fs (os.resolve b).reverse = (none, fs) := by
      generalize hrr : (os.resolve b).reverse = rr
      have hrr2 : rr.reverse = os.resolve b := by rw [← hrr, List.reverse_reverse]
      cases rr with
      | nil => rw [List.reverse_nil] at hrr2; rw [← hrr2] at hst; simp [mkdirAllR, hst]
      | cons x rr => unfold mkdirAllR; rw [hrr2, hst]
    rw [hst2, hup]
    dsimp only
    unfold mkdir
    simp only [List.reverse_cons, List.reverse_reverse, he]
  unfold dir
  simp only [hb, hres, hm]
  split <;> exact ⟨rfl, rfl⟩

/-- The hypotheses are met: an ordinary user sets the base path /p/c, whose parent /p is usable. -/
example :
    let fs : FS := fun p => if p = [] then some (.dir true) else if p = ["p"] then some (.dir true) else none
    let os : OS := ⟨false, fun t => if t = ['c'] then ["p", "c"] else ["p", "c", "x"], fun _ _ => none, fun fs _ => fs⟩
    (setBasePath os Gen.zero fs ['c']).1 = .returned ∧ os.resolve (['c'] ++ ['/'] ++ ['x']) = os.resolve ['c'] ++ ["x"] := by decide

/-- C67. Dir does create the directory (and the missing ones above it) if the operating system allows it, changes nothing that
existed, and nothing else is new - before it panics (`c67_dir_refuted`). -/
theorem c67_dir_partial (os : OS) (g : Gen) (fs : FS) (b name : List Char) (hb : getBasePath g = some b) (hd : g.dirs = none)
    (hok : (mkdirAll os.root fs (os.resolve (b ++ ['/'] ++ name))).1 = none) :
    (∃ u, (dir os g fs name).2.2 (os.resolve (b ++ ['/'] ++ name)) = some (.dir u)) ∧
    (∀ q n, fs q = some n → (dir os g fs name).2.2 q = some n) ∧
    (∀ q, fs q = none → (dir os g fs name).2.2 q = none ∨
      ((dir os g fs name).2.2 q = some (.dir false) ∧ q <+: os.resolve (b ++ ['/'] ++ name))) := by
  have e : (dir os g fs name).2.2 = (mkdirAll os.root fs (os.resolve (b ++ ['/'] ++ name))).2 := by
    unfold dir
    simp only [hb, hd, GoMap.get, Option.isSome_none, Bool.false_eq_true, if_false, GoMap.write]
    split
    · rename_i h; rw [h]
    · rename_i h; rw [h]
  rw [e]
  have := mkdirAllR_spec os.root (os.resolve (b ++ ['/'] ++ name)).reverse fs hok
  rw [List.reverse_reverse] at this
  obtain ⟨⟨u, h1⟩, h2, h3⟩ := this
  exact ⟨⟨u, stat_dir h1⟩, h2, h3⟩

example : (mkdirAll true demoFS ["a", "x"]).1 = none := by decide

/-- C67. After any history, Src(name) either panics and changes nothing, or creates the file that "/name" names and makes it the
current source; a second Src with the same name panics. Partial: the file should be created in the directory of the last
Dir call, but the current directory is always empty. -/
theorem c67_src_partial (os : OS) (fs : FS) (ops : List GOp) (name : List Char) :
    let s := runGs os (Gen.zero, fs) ops
    let r := runG os s (.src name)
    (r.1 = .panicked ∧ r.2 = s) ∨
    (r.1 = .returned ∧ r.2.2 = Function.update s.2 (os.resolve ('/' :: name)) (some .file) ∧
      r.2.1.currentSrc = some (os.resolve ('/' :: name)) ∧ (runG os r.2 (.src name)).1 = .panicked) := by
  intro s r
  have hcd : s.1.currentDir = [] := (reach_inv os fs ops).2.1
  obtain ⟨g, f⟩ := s
  have hr : r = src os g f name := rfl
  rw [hr]
  simp only [runG]
  simp only at hcd
  unfold src
  simp only [hcd, List.nil_append, List.singleton_append]
  split
  · exact Or.inl ⟨rfl, rfl⟩
  · rename_i ht
    cases hc : create os.root f (os.resolve ('/' :: name)) with
    | mk e f' =>
      cases e with
      | some e =>
        left
        have : f' = f := by
          unfold create at hc
          split at hc
          · simp at hc; exact hc.2.symm
          · split at hc <;> simp at hc
            exact hc.2.symm
        subst this
        exact ⟨rfl, rfl⟩
      | none =>
        right
        have hf : f' = Function.update f (os.resolve ('/' :: name)) (some .file) := by
          unfold create at hc
          split at hc
          · simp at hc
          · split at hc <;> simp at hc
            exact hc.symm
        obtain ⟨m, h1, h2⟩ := runMap2_spec g.srcs (.set (([] : List Char), name) true)
        have h1' : map2Set g.srcs [] name true = some m := h1
        simp only [h1']
        have h3 : map2Test m [] name = true := by
          have h4 := h2 ([], name)
          simp only [MapOp.key, MapOp.val, if_true] at h4
          cases m with
          | none => simp [get2, GoMap.get] at h4
          | some f =>
            rcases hx : f [] with _ | _ | q <;> simp_all [map2Test, GoMap.isNil, GoMap.get, get2]
        refine ⟨by simp, hf, by simp, ?_⟩
        simp [h3]

end Micro.Code
