import Verif.Json.HeapModel
/-
Specification for C126: which document a Value in memory stands for, and which maps and slices it consists of.
-/
namespace Micro.Json
open Micro

mutual
/-- The Value v in memory V stands for the document j, and all its maps and slices have addresses in P. -/
def Den (V : Objs HVal) (P : Nat → Prop) : JVal → HVal → Prop
  | .invalid, v => v = .invalid
  | .null, v => v = .null
  | .bool b, v => v = .bool b
  | .num s, v => v = .num s
  | .str s, v => v = .str s
  | .arr js, v => ∃ a off len, v = .arr a off len ∧ P a ∧ DenE V P js (V.elems a off len)
  | .obj kvs, v => ∃ m, v = .obj m ∧ P m ∧ (kvs.map Prod.fst).Nodup ∧ DenF V P kvs (V.maps m)
/-- The same for the members of an object. -/
def DenF (V : Objs HVal) (P : Nat → Prop) : List (List Char × JVal) → List (List Char × HVal) → Prop
  | [], l => l = []
  | (k, j) :: r, l => ∃ v l', l = (k, v) :: l' ∧ Den V P j v ∧ DenF V P r l'
/-- The same for the elements of an array. -/
def DenE (V : Objs HVal) (P : Nat → Prop) : List JVal → List HVal → Prop
  | [], l => l = []
  | j :: r, l => ∃ v l', l = v :: l' ∧ Den V P j v ∧ DenE V P r l'
end

mutual
/-- The Go value x in memory A is the finite tree g, and all its maps and slices have addresses in P. What map[string]Value and []Value
hold is left open: no conversion accepts them inside other values. -/
def Tree (A : Objs HAny) (P : Nat → Prop) : GoAny → HAny → Prop
  | .nil, x => x = .nil
  | .bool b, x => x = .bool b
  | .str s, x => x = .str s
  | .numStr s, x => x = .numStr s
  | .namedStr s, x => x = .namedStr s
  | .num t, x => x = .num t
  | .int k v, x => x = .int k v
  | .mapV _, x => ∃ m, x = .mapV m
  | .sliceV _, x => ∃ a off len, x = .sliceV a off len
  | .other, x => x = .other
  | .slice gs, x => ∃ a off len, x = .slice a off len ∧ P a ∧ TreeE A P gs (A.elems a off len)
  | .map kvs, x => ∃ m, x = .map m ∧ P m ∧ (kvs.map Prod.fst).Nodup ∧ TreeF A P kvs (A.maps m)
/-- The same for the entries of a map. -/
def TreeF (A : Objs HAny) (P : Nat → Prop) : List (List Char × GoAny) → List (List Char × HAny) → Prop
  | [], l => l = []
  | (k, g) :: r, l => ∃ x l', l = (k, x) :: l' ∧ Tree A P g x ∧ TreeF A P r l'
/-- The same for the elements of a slice. -/
def TreeE (A : Objs HAny) (P : Nat → Prop) : List GoAny → List HAny → Prop
  | [], l => l = []
  | g :: r, l => ∃ x l', l = x :: l' ∧ Tree A P g x ∧ TreeE A P r l'
end

/-- Two memories have the same maps and arrays at the addresses in P. -/
def AgreeOn {α : Type} (P : Nat → Prop) (h h' : Objs α) : Prop := ∀ m, P m → h'.maps m = h.maps m ∧ h'.arrs m = h.arrs m

/-- The addresses that were allocated between h and h'. -/
def Fresh {α : Type} (h h' : Objs α) (m : Nat) : Prop := h.next ≤ m ∧ m < h'.next

/-- h' is h with additional maps and arrays. -/
def Grows {α : Type} (h h' : Objs α) : Prop := h.next ≤ h'.next ∧ AgreeOn (· < h.next) h h'

/-- The document after m[k] = w: the entry is replaced, or added. -/
def docSet (kvs : List (List Char × JVal)) (k : List Char) (j : JVal) : List (List Char × JVal) :=
  if k ∈ kvs.map Prod.fst then kvs.map (fun e => if e.1 = k then (k, j) else e) else kvs ++ [(k, j)]

end Micro.Json
