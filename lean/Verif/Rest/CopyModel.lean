import Verif.Rest.Model
import Verif.Funcs.SliceModel
/-
Model of ServeMux (rest/rest.go) with memory: a ServeMux is a struct with one slice, and assigning it, or passing it as an http.Handler by
value, copies the slice header but not the array.
-/
namespace Micro.Rest
open Micro Micro.Funcs

variable {P H : Type}

/-- Several variables of type ServeMux (rest/rest.go:44-48), by number, and the memory of their handlers. -/
structure Muxes (P H : Type) where
  mem : SMem (Reg P H)
  vars : Nat → Slc

/-- All variables have the zero value of ServeMux: a nil slice. Array 0 is empty. -/
def Muxes.zero : Muxes P H := ⟨⟨fun _ => [], 1⟩, fun _ => ⟨0, 0, 0, 0⟩⟩

/-- What a program does: calls Handle on a variable, or assigns one variable to another. -/
inductive MuxOp (H : Type) where
  | handle (v : Nat) (c : HCall H)
  | copy (src dst : Nat)

/-- rest/rest.go:54-80 `ServeMux.Handle` on variable v, or the assignment `dst = src`. `grow` is the spare capacity that append allocates, zv what
spare elements hold. -/
def Muxes.step (grow : Nat → Nat) (zv : Reg P H) (compile : List Char → Option P) (s : Muxes P H) : MuxOp H → Muxes P H
  | .handle v c =>
    match prepare compile c with
    | .error _ => s
    | .ok r =>
      let (mem, slc) := sliceAdd grow zv s.mem (s.vars v) r
      ⟨mem, Function.update s.vars v slc⟩
  | .copy src dst => { s with vars := Function.update s.vars dst (s.vars src) }

/-- A history. -/
def Muxes.run (grow : Nat → Nat) (zv : Reg P H) (compile : List Char → Option P) (ops : List (MuxOp H)) (s : Muxes P H) : Muxes P H :=
  ops.foldl (Muxes.step grow zv compile) s

/-- rest/rest.go:88-120 `ServeMux.ServeHTTP` of variable v. -/
def Muxes.serve (find : P → List Char → Option (List (List Char))) (s : Muxes P H) (v : Nat) (method url : List Char) : Response H :=
  Rest.serve find (s.mem.elems (s.vars v)) method url

end Micro.Rest
