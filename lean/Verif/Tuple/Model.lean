import Verif.Go
/-
Model of package tuple, and of the helpers of package funcs that select a value. `fmt.Sprintf("%v", x)` for a value x is a parameter, one function per type.
-/
namespace Micro.Tuple

variable {A B C D : Type}

/-- tuple/tuple.go:19-22 `Two`. -/
structure Two (A B : Type) where
  t : A
  u : B

/-- tuple/tuple.go:25-29 `Three`. -/
structure Three (A B C : Type) where
  t : A
  u : B
  v : C

/-- tuple/tuple.go:32-37 `Four`. -/
structure Four (A B C D : Type) where
  t : A
  u : B
  v : C
  w : D

/-- tuple/tuple.go:41-43 `Of2`. -/
def of2 (t : A) (u : B) : Two A B := ⟨t, u⟩
/-- tuple/tuple.go:45-47 `Of2Same`. -/
def of2Same (t u : A) : Two A A := ⟨t, u⟩
/-- tuple/tuple.go:49-51 `Of3`. -/
def of3 (t : A) (u : B) (v : C) : Three A B C := ⟨t, u, v⟩
/-- tuple/tuple.go:53-55 `Of3Same`. -/
def of3Same (t u v : A) : Three A A A := ⟨t, u, v⟩
/-- tuple/tuple.go:57-59 `Of4`. -/
def of4 (t : A) (u : B) (v : C) (w : D) : Four A B C D := ⟨t, u, v, w⟩
/-- tuple/tuple.go:61-63 `Of4Same`. -/
def of4Same (t u v w : A) : Four A A A A := ⟨t, u, v, w⟩

/-- tuple/tuple.go:72-74 `Two.Values`. -/
def Two.values (x : Two A B) : A × B := (x.t, x.u)
/-- tuple/tuple.go:81-83 `Three.Values`. -/
def Three.values (x : Three A B C) : A × B × C := (x.t, x.u, x.v)
/-- tuple/tuple.go:90-92 `Four.Values`. -/
def Four.values (x : Four A B C D) : A × B × C × D := (x.t, x.u, x.v, x.w)

/-- `fmt.Sprintf` of a format whose only verbs are %v, with the texts of the arguments; as many arguments as verbs. -/
def sprintf : List Char → List (List Char) → List Char
  | '%' :: 'v' :: f, a :: as => a ++ sprintf f as
  | c :: f, as => c :: sprintf f as
  | [], _ => []

/-- tuple/tuple.go:10. -/
def twoStringMsg : List Char := "{T: %v, U: %v}".toList
/-- tuple/tuple.go:11. -/
def threeStringMsg : List Char := "{T: %v, U: %v, V: %v}".toList
/-- tuple/tuple.go:12. -/
def fourStringMsg : List Char := "{T: %v, U: %v, V: %v, W: %v}".toList

/-- tuple/tuple.go:68-70 `Two.String`. -/
def Two.string (fa : A → List Char) (fb : B → List Char) (x : Two A B) : List Char := sprintf twoStringMsg [fa x.t, fb x.u]
/-- tuple/tuple.go:77-79 `Three.String`. -/
def Three.string (fa : A → List Char) (fb : B → List Char) (fc : C → List Char) (x : Three A B C) : List Char :=
  sprintf threeStringMsg [fa x.t, fb x.u, fc x.v]
/-- tuple/tuple.go:86-88 `Four.String`. -/
def Four.string (fa : A → List Char) (fb : B → List Char) (fc : C → List Char) (fd : D → List Char) (x : Four A B C D) : List Char :=
  sprintf fourStringMsg [fa x.t, fb x.u, fc x.v, fd x.w]

/-- funcs/funcs.go:1286-1288 `FirstValue2`, applied, as in Go, to the results of a function. -/
def firstValue2 (r : A × B) : A := r.1
/-- funcs/funcs.go:1292-1294 `FirstValue3`. -/
def firstValue3 (r : A × B × C) : A := r.1
/-- funcs/funcs.go:1300-1302 `SecondValue2`. -/
def secondValue2 (r : A × B) : B := r.2
/-- funcs/funcs.go:1306-1308 `SecondValue3`. -/
def secondValue3 (r : A × B × C) : B := r.2.1
/-- funcs/funcs.go:1314-1316 `ThirdValue3`. -/
def thirdValue3 (r : A × B × C) : C := r.2.2

end Micro.Tuple
