import Verif.Funcs.Model
/-
Specification vocabulary for package funcs and package event.
-/
namespace Micro.Funcs

variable {K V : Type}

/-- An abstract multimap: the values of a key in insertion order, or `none` if the key is absent. -/
abbrev MM (K V : Type) := K → Option (List V)

/-- Operations on a multimap. -/
inductive MOp (K V : Type) where
  | add (k : K) (v : V)
  | removeKey (k : K)
  | removeValue (k : K) (v : V) (all : Bool)

/-- Abstract effect of an operation. `same` tells when two values count as equal. -/
def MM.apply [DecidableEq K] (same : V → V → Bool) (M : MM K V) : MOp K V → MM K V
  | .add k v => fun q => if q = k then some ((M k).getD [] ++ [v]) else M q
  | .removeKey k => fun q => if q = k then none else M q
  | .removeValue k v all => fun q =>
    if q = k then
      (M k).map (fun l => if all then l.filter (fun x => !same x v) else l.eraseP (fun x => same x v))
    else M q

/-- Abstract effect of a history. -/
def MM.applyAll [DecidableEq K] (same : V → V → Bool) (M : MM K V) : List (MOp K V) → MM K V
  | [] => M
  | op :: ops => MM.applyAll same (M.apply same op) ops

/-- The empty multimap. -/
def MM.empty : MM K V := fun _ => none

/-- The slice is strictly sorted by key. -/
def SortedKeys [LinearOrder K] (mp : List (K × V)) : Prop := List.Pairwise (fun a b => a.1 < b.1) mp

/-- The slice represents the multimap: strictly sorted, and it has an entry (k, vs) exactly when the
multimap has the values vs for k. -/
def Represents [LinearOrder K] (mp : List (K × List V)) (M : MM K V) : Prop :=
  SortedKeys mp ∧ ∀ k vs, (k, vs) ∈ mp ↔ M k = some vs

/-- The operation does not add a key below all keys present. -/
def NotBelow [LinearOrder K] (M : MM K V) : MOp K V → Prop
  | .add k _ => (∀ q, M q = none) ∨ ∃ q, q ≤ k ∧ M q ≠ none
  | _ => True

/-- No operation of the history adds a key below all keys present at that time. -/
def NeverBelow [LinearOrder K] (same : V → V → Bool) (M : MM K V) : List (MOp K V) → Prop
  | [] => True
  | op :: ops => NotBelow M op ∧ NeverBelow same (M.apply same op) ops

/-- The code's effect of an operation on the slice. -/
def runOp [LinearOrder K] [DecidableEq V] (mp : List (K × List V)) : MOp K V → Option (List (K × List V))
  | .add k v => orderedAdd mp k v
  | .removeKey k => orderedRemoveKey mp k
  | .removeValue k v all => orderedRemoveValue mp k v [all]

/-- The code's effect of a history. -/
def runOps [LinearOrder K] [DecidableEq V] (mp : List (K × List V)) : List (MOp K V) → Option (List (K × List V))
  | [] => some mp
  | op :: ops => (runOp mp op).bind (fun mp' => runOps mp' ops)

/-- The registry's effect of an operation (receivers are compared by pointer). -/
def regOp [LinearOrder K] {T : Type} (r : Registry K T) : MOp K (Recv T) → Option (Registry K T)
  | .add k v => register r k v
  | .removeKey k => removeId r k
  | .removeValue k v all => remove r k v [all]

/-- The registry's effect of a history. -/
def regOps [LinearOrder K] {T : Type} (r : Registry K T) : List (MOp K (Recv T)) → Option (Registry K T)
  | [] => some r
  | op :: ops => (regOp r op).bind (fun r' => regOps r' ops)

/-- All leaves of a nested slice, in order: n-fold concatenation. -/
def leaves {α : Type} : (n : Nat) → Nest n α → List α
  | 0, v => [v]
  | n + 1, v => (List.map (leaves n) v).flatten

/-- Words joined with underscores. -/
def joinWords : List (List Nat) → List Nat
  | [] => []
  | [w] => w
  | w :: ws => w ++ 95 :: joinWords ws

/-- A word in lower case. -/
def LowerWord (w : List Nat) : Prop := w ≠ [] ∧ ∀ b ∈ w, isLower b = true

/-- A word with its first letter in upper case. -/
def capitalize : List Nat → List Nat
  | [] => []
  | b :: bs => (b - 32) :: bs

/-- The panic value pending at the end: the latest. -/
def latest {P : Type} : Option (Option P) → List (Outcome P) → Option (Option P)
  | p, [] => p
  | p, .returns :: os => latest p os
  | _, .panics v :: os => latest (some v) os

end Micro.Funcs
