import Verif.IO.Model
import Verif.Iter.Spec
/-
Specification vocabulary for readers and writers.
-/
namespace Micro.IO
open Micro Micro.Iter

/-- What a reader over `rest` that ends with `err` must return for a history of Read calls with the
given sizes: the next min(size, remaining) bytes and nil; (0, err) once nothing is left. -/
def readSpec (err : Option Err) : List Nat → List Nat → List (List Nat × Option Err)
  | _, [] => []
  | rest, n :: ns =>
    if rest = [] then ([], err) :: readSpec err [] ns
    else (rest.take n, none) :: readSpec err (rest.drop n) ns

/-- In a history of reads of the given sizes over an input of length `len`, starting at position
`pos`: no read that starts strictly inside the input asks for more bytes than remain. -/
def NoOverrun (len : Nat) : Nat → List Nat → Prop
  | _, [] => True
  | pos, n :: ns => (pos = 0 ∨ len ≤ pos ∨ n ≤ len - pos) ∧ NoOverrun len (min len (pos + n)) ns

/-- What a writer that accepts `room` more bytes must answer to a history of writes: as many bytes as
fit and nil, or (0, err) when nothing fits any more. -/
def writeSpec (err : Option Err) : Nat → List (List Nat) → List (Nat × Option Err)
  | _, [] => []
  | room, p :: ps =>
    if room = 0 then (0, err) :: writeSpec err 0 ps
    else (min p.length room, none) :: writeSpec err (room - p.length) ps

/-- The values `vs` were all passed to the writing function, one after the other, without an error. -/
inductive Accepts {σ T : Type} (fn : WFn σ T) : σ → List T → σ → Prop where
  | nil {s} : Accepts fn s [] s
  | cons {s s' s'' v vs} : fn s v = (none, s') → Accepts fn s' vs s'' → Accepts fn s (v :: vs) s''

/-- A rune is a Unicode scalar value. -/
def ScalarValue (r : Int) : Prop := (0 ≤ r ∧ r < 0xD800) ∨ (0xE000 ≤ r ∧ r ≤ 0x10FFFF)

instance (r : Int) : Decidable (ScalarValue r) := by unfold ScalarValue; infer_instance

end Micro.IO
