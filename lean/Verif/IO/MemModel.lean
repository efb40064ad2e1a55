import Verif.IO.Model
import Verif.Funcs.SliceModel
import Verif.Funcs.MapModel
/-
Model of io.ErrorWriter with memory, and of writers for which nil matters.
-/
namespace Micro.IO
open Micro Micro.Iter Micro.Funcs

/-- io/io.go:52-56 `ErrorWriter`, its output being a slice in memory. -/
structure MemWriter where
  count : Int
  out : Slc
  err : Option Err

/-- io/io.go:59-61 `NewErrorWriter`: a slice of length 0 with capacity `max(0, count)`. -/
def newMemWriter (m : SMem Nat) (count : Int) (err : Option Err) : SMem Nat × MemWriter :=
  let (m', s) := m.make 0 0 (max 0 count).toNat
  (m', ⟨count, s, err⟩)

/-- io/io.go:64-80 `ErrorWriter.Write` of the bytes of a slice. -/
def MemWriter.write (grow : Nat → Nat) (m : SMem Nat) (w : MemWriter) (p : Slc) : (Nat × Option Err) × SMem Nat × MemWriter :=
  if (w.out.len : Int) = w.count then ((0, w.err), m, w)
  else if w.count < 0 then ((0, none), m, w)
  else
    let numBytes := (min (p.len : Int) (w.count - w.out.len)).toNat
    let (m', s) := m.append grow 0 w.out (m.elems (p.sub 0 numBytes))
    ((numBytes, none), m', { w with out := s })

/-- io/io.go:83-85 `ErrorWriter.Output`: the slice itself. -/
def MemWriter.output (w : MemWriter) : Slc := w.out

/-- A writing function that can panic (`none`). -/
abbrev PFn (σ T : Type) := σ → T → Option (Option WErr × σ)

/-- io/writer/gen.go:34-39 `MapWriterGen` for any map: an assignment to an element of a nil map panics. -/
def nilMapWriter {K V : Type} [DecidableEq K] : PFn (GoMap K V) (K × V) := fun m kv => (m.write kv.1 kv.2).map fun m' => (none, m')

/-- io/writer/writer.go:80-88 `WriterImpl.Write`. -/
def writeAllP {σ T : Type} (fn : PFn σ T) : σ → List T → Option (Option WErr × σ)
  | s, [] => some (none, s)
  | s, v :: vs =>
    match fn s v with
    | none => none
    | some (some e, s') => some (some e, s')
    | some (none, s') => writeAllP fn s' vs

end Micro.IO
