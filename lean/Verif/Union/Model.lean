import Verif.Go
/-
Model of package union. `none` as the result of a function models a panic.
-/
namespace Micro.Union

/-- union/union.go:22-30 `Which`. -/
inductive Which where
  | T | U | V | W
  deriving DecidableEq

/-- union/union.go:191-197 `check`. -/
def check {R : Type} (asked have_ : Which) (res : R) : Option R := if asked ≠ have_ then none else some res

variable {A B C D : Type}

/-- union/union.go:46-50 `Two`. -/
structure Two (A B : Type) where
  t : A
  u : B
  which : Which

/-- union/union.go:53-58 `Three`. -/
structure Three (A B C : Type) where
  t : A
  u : B
  v : C
  which : Which

/-- union/union.go:61-67 `Four`. -/
structure Four (A B C D : Type) where
  t : A
  u : B
  v : C
  w : D
  which : Which

/-- union/union.go:85-87 `Of2T`; the other fields have their zero values `zu`. -/
def of2T (zu : B) (t : A) : Two A B := ⟨t, zu, .T⟩
/-- union/union.go:90-92 `Of2U`. -/
def of2U (zt : A) (u : B) : Two A B := ⟨zt, u, .U⟩
/-- union/union.go:95-97 `Of3T`. -/
def of3T (zu : B) (zv : C) (t : A) : Three A B C := ⟨t, zu, zv, .T⟩
/-- union/union.go:100-102 `Of3U`. -/
def of3U (zt : A) (zv : C) (u : B) : Three A B C := ⟨zt, u, zv, .U⟩
/-- union/union.go:105-107 `Of3V`. -/
def of3V (zt : A) (zu : B) (v : C) : Three A B C := ⟨zt, zu, v, .V⟩
/-- union/union.go:110-112 `Of4T`. -/
def of4T (zu : B) (zv : C) (zw : D) (t : A) : Four A B C D := ⟨t, zu, zv, zw, .T⟩
/-- union/union.go:115-117 `Of4U`. -/
def of4U (zt : A) (zv : C) (zw : D) (u : B) : Four A B C D := ⟨zt, u, zv, zw, .U⟩
/-- union/union.go:120-122 `Of4V`. -/
def of4V (zt : A) (zu : B) (zw : D) (v : C) : Four A B C D := ⟨zt, zu, v, zw, .V⟩
/-- union/union.go:125-127 `Of4W`. -/
def of4W (zt : A) (zu : B) (zv : C) (w : D) : Four A B C D := ⟨zt, zu, zv, w, .W⟩

/-- union/union.go:202-204 `Two.Which`. -/
def Two.getWhich (s : Two A B) : Which := s.which
/-- union/union.go:243-245 `Three.Which`. -/
def Three.getWhich (s : Three A B C) : Which := s.which
/-- union/union.go:298-300 `Four.Which`. -/
def Four.getWhich (s : Four A B C D) : Which := s.which

/-- union/union.go:208-210 `Two.T`. -/
def Two.getT (s : Two A B) : Option A := check .T s.which s.t
/-- union/union.go:220-222 `Two.U`. -/
def Two.getU (s : Two A B) : Option B := check .U s.which s.u
/-- union/union.go:213-216 `Two.SetT`. -/
def Two.setT (s : Two A B) (t : A) : Two A B := { s with t := t, which := .T }
/-- union/union.go:225-228 `Two.SetU`. -/
def Two.setU (s : Two A B) (u : B) : Two A B := { s with u := u, which := .U }

/-- union/union.go:249-251 `Three.T`. -/
def Three.getT (s : Three A B C) : Option A := check .T s.which s.t
/-- union/union.go:261-263 `Three.U`. -/
def Three.getU (s : Three A B C) : Option B := check .U s.which s.u
/-- union/union.go:273-275 `Three.V`. -/
def Three.getV (s : Three A B C) : Option C := check .V s.which s.v
/-- union/union.go:254-257 `Three.SetT`. -/
def Three.setT (s : Three A B C) (t : A) : Three A B C := { s with t := t, which := .T }
/-- union/union.go:266-269 `Three.SetU`. -/
def Three.setU (s : Three A B C) (u : B) : Three A B C := { s with u := u, which := .U }
/-- union/union.go:278-281 `Three.SetV`. -/
def Three.setV (s : Three A B C) (v : C) : Three A B C := { s with v := v, which := .V }

/-- union/union.go:304-306 `Four.T`. -/
def Four.getT (s : Four A B C D) : Option A := check .T s.which s.t
/-- union/union.go:316-318 `Four.U`. -/
def Four.getU (s : Four A B C D) : Option B := check .U s.which s.u
/-- union/union.go:328-330 `Four.V`. -/
def Four.getV (s : Four A B C D) : Option C := check .V s.which s.v
/-- union/union.go:340-342 `Four.W`. -/
def Four.getW (s : Four A B C D) : Option D := check .W s.which s.w
/-- union/union.go:309-312 `Four.SetT`. -/
def Four.setT (s : Four A B C D) (t : A) : Four A B C D := { s with t := t, which := .T }
/-- union/union.go:321-324 `Four.SetU`. -/
def Four.setU (s : Four A B C D) (u : B) : Four A B C D := { s with u := u, which := .U }
/-- union/union.go:333-336 `Four.SetV`. -/
def Four.setV (s : Four A B C D) (v : C) : Four A B C D := { s with v := v, which := .V }
/-- union/union.go:345-348 `Four.SetW`. -/
def Four.setW (s : Four A B C D) (w : D) : Four A B C D := { s with w := w, which := .W }

/-! ### Nil tests by reflection -/

/-- The kinds reflect distinguishes in `Nillable` (funcs/funcs.go:1056-1071); `other` is every other
kind. -/
inductive RKind where
  | chan | func | map | pointer | slice | other
  deriving DecidableEq

/-- What reflect.ValueOf(v) tells about a value: `none` for the nil interface (invalid Value), else the
kind of its dynamic type, whether it is nil, and whether it is the zero value of that type. -/
structure RV where
  kind : RKind
  isNil : Bool
  isZero : Bool

/-- funcs/funcs.go:1056-1070 `Nillable`. -/
def nillable : RKind → Bool
  | .other => false
  | _ => true

/-- funcs/funcs.go:1017-1021 `IsNilValue`. -/
def isNilValue (rv : Option RV) : Bool :=
  match rv with
  | none => true
  | some v => nillable v.kind && v.isNil

/-! ### Maybe -/

variable {α : Type} (ref : α → Option RV) (zv : α)

/-- union/union.go:70-73 `Maybe`. -/
structure Maybe (α : Type) where
  v : α
  present : Bool

/-- union/union.go:131-133 `Of`. -/
def of (t : α) : Maybe α := ⟨t, !isNilValue (ref t)⟩

/-- union/union.go:136-138 `Empty`. -/
def empty : Maybe α := ⟨zv, false⟩

/-- union/union.go:142-147 `Present`. -/
def present (t : α) : Option (Maybe α) := if isNilValue (ref t) then none else some ⟨t, true⟩

/-- union/union.go:402-408 `Maybe.Set`. -/
def Maybe.set (_m : Maybe α) (newVal : α) : Maybe α := ⟨newVal, !isNilValue (ref newVal)⟩

/-- union/union.go:411-415 `Maybe.SetEmpty`. -/
def Maybe.setEmpty (_m : Maybe α) : Maybe α := ⟨zv, false⟩

/-- union/union.go:418-428 `Maybe.SetOrError`; the flag tells whether an error is returned. -/
def Maybe.setOrError (m : Maybe α) (newVal : α) : Bool × Maybe α :=
  if m.present then (true, m) else (false, m.set ref newVal)

/-- union/union.go:151-158 `First`. -/
def first (slc : List α) : Maybe α :=
  match slc with
  | x :: _ => (empty zv).set ref x
  | [] => empty zv

/-- union/union.go:377-383 `Maybe.Get`. -/
def Maybe.get (m : Maybe α) : Option α := if !m.present then none else some m.v

/-- union/union.go:386-388 `Maybe.OrElse`. -/
def Maybe.orElse (m : Maybe α) (elseVal : α) : α := if m.present then m.v else elseVal

/-- union/union.go:391-399 `Maybe.OrError`: `res` and whether `err` is the error provided. -/
def Maybe.orError (m : Maybe α) : α × Bool := if m.present then (m.v, false) else (zv, true)

/-! ### Result -/

variable {ε : Type}

/-- union/union.go:76-79 `Result`; the error is `none` when nil. -/
structure Result (α ε : Type) where
  r : α
  e : Option ε

/-- union/union.go:161-163 `OfResult`. -/
def ofResult (r : α) : Result α ε := ⟨r, none⟩

/-- union/union.go:167-173 `OfError`. -/
def ofError (err : Option ε) : Option (Result α ε) :=
  match err with
  | none => none
  | some e => some ⟨zv, some e⟩

/-- union/union.go:177-186 `OfResultError`: reflect's IsZero panics for the invalid Value of a nil
interface. -/
def ofResultError (r : α) (err : Option ε) : Option (Result α ε) :=
  match err with
  | some e =>
    match ref r with
    | none => none
    | some v => if !v.isZero then none else some ⟨r, some e⟩
  | none => some ⟨r, none⟩

/-- union/union.go:443-445 `Result.HasResult`. -/
def Result.hasResult (r : Result α ε) : Bool := r.e.isNone
/-- union/union.go:448-450 `Result.HasError`. -/
def Result.hasError (r : Result α ε) : Bool := r.e.isSome
/-- union/union.go:453-455 `Result.Get`. -/
def Result.get (r : Result α ε) : α := r.r
/-- union/union.go:458-460 `Result.Error`. -/
def Result.error (r : Result α ε) : Option ε := r.e

/-! ### Stringer. Simplification: `fa`, `fb`, ... stand for fmt.Sprintf("%v", x) of a value of the type. -/

/-- union/union.go:42-44 `Which.String`, with the map of lines 33-38. -/
def Which.str : Which → String
  | .T => "T" | .U => "U" | .V => "V" | .W => "W"

/-- union/union.go:231-238 `Two.String`. -/
def Two.string (fa : A → String) (fb : B → String) (s : Two A B) : String :=
  match s.which with
  | .T => fa s.t
  | _ => fb s.u

/-- union/union.go:284-293 `Three.String`. -/
def Three.string (fa : A → String) (fb : B → String) (fc : C → String) (s : Three A B C) : String :=
  match s.which with
  | .T => fa s.t
  | .U => fb s.u
  | _ => fc s.v

/-- union/union.go:351-362 `Four.String`. -/
def Four.string (fa : A → String) (fb : B → String) (fc : C → String) (fd : D → String) (s : Four A B C D) : String :=
  match s.which with
  | .T => fa s.t
  | .U => fb s.u
  | .V => fc s.v
  | _ => fd s.w

/-- union/union.go:431-438 `Maybe.String`; `typ` is the name of the Maybe type. -/
def Maybe.string (f : α → String) (typ : String) (m : Maybe α) : String := if m.present then f m.v else "Empty " ++ typ

/-- union/union.go:463-470 `Result.String`; `g` prints the error. -/
def Result.string (f : α → String) (g : ε → String) (r : Result α ε) : String :=
  match r.e with
  | none => f r.r
  | some e => g e

end Micro.Union
