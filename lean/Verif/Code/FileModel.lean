import Verif.Code.Model
import Verif.IO.Model
/-
Model of what is in the files that BaseGenerator.Src creates, and of the writers CurrentSrc returns.
-/
namespace Micro.Code
open Micro Micro.Funcs

/-- The file system with the contents of the files. A path may name one file after the other (if it is removed and created again): `version` tells
which one it names now, and a file that was removed keeps its contents for those that have it open. Simplifications as for `FS`: no links, no other
processes, no disk errors. -/
structure Disk where
  fs : FS
  version : Path → Nat
  data : Path → Nat → List Nat

/-- What a reader of the file finds; `none` if the path does not name a file. -/
def Disk.content (d : Disk) (p : Path) : Option (List Nat) := if d.fs p = some .file then some (d.data p (d.version p)) else none

/-- An *os.File open for writing: which file, and the position of the next write. -/
structure Handle where
  path : Path
  version : Nat
  off : Nat

/-- Bytes written at a position; a gap before them is filled with zeros. -/
def putAt (c : List Nat) (off : Nat) (bs : List Nat) : List Nat :=
  if bs = [] then c else (c ++ List.replicate (off - c.length) 0).take off ++ bs ++ c.drop (off + bs.length)

/-- (*os.File).Write (standard library) of the k-th file opened. -/
def fileWriter (k : Nat) : Micro.IO.Writer (Disk × List Handle) := fun s p =>
  match s.2[k]? with
  | none => (p.length, none, s)
  | some h =>
    (p.length, none,
      { s.1 with data := Function.update s.1.data h.path (Function.update (s.1.data h.path) h.version (putAt (s.1.data h.path h.version) h.off p)) },
      s.2.set k { h with off := h.off + p.length })

/-- os.Create (standard library), as far as contents are concerned: the file is emptied if there is one, and a new one otherwise; `fs` is the file
system after it. -/
def Disk.opened (d : Disk) (fs : FS) (p : Path) : Disk × Handle :=
  let v := if d.fs p = some .file then d.version p else d.version p + 1
  (⟨fs, Function.update d.version p v, Function.update d.data p (Function.update (d.data p) v [])⟩, ⟨p, v, 0⟩)

/-- A program with a generator: the generator, the disk, and the writers the generator has made so far, one for each Src that returned. -/
structure Prog where
  gen : Gen
  disk : Disk
  writers : List Handle
  current : Option Nat

/-- code/api.go:140-142 `CurrentSrc`: the number of the writer; `none` is nil. -/
def currentSrc (s : Prog) : Option Nat := s.current

/-- What a program does: a call of a method of the generator, a Write to a writer obtained earlier from CurrentSrc, or `CurrentSrc().Write(vals...)`. -/
inductive POp where
  | call (op : GOp)
  | write (k : Nat) (vals : List (List Nat))
  | writeCurrent (vals : List (List Nat))

/-- io/writer/writer.go:66-68, 80-88: Write of the k-th writer that `writer.OfIOWriterAsStrings` made (code/api.go:136). -/
def writeTo (k : Nat) (vals : List (List Nat)) (s : Prog) : Option Micro.IO.WErr × Prog :=
  match Micro.IO.writeAll (Micro.IO.stringWriter (fileWriter k)) (s.disk, s.writers) vals with
  | (e, d, ws) => (e, { s with disk := d, writers := ws })

/-- One of these (code/api.go:64-142). A call of Write on the nil writer panics. -/
def pstep (os : OS) (s : Prog) : POp → Res × Option Micro.IO.WErr × Prog
  | .call op =>
    match runG os (s.gen, s.disk.fs) op with
    | (r, g, fs) =>
      match op, r, g.currentSrc with
      | .src _, .returned, some p =>
        (r, none, ⟨g, (s.disk.opened fs p).1, s.writers ++ [(s.disk.opened fs p).2], some s.writers.length⟩)
      | _, _, _ => (r, none, { s with gen := g, disk := { s.disk with fs := fs } })
  | .write k vals => (.returned, writeTo k vals s)
  | .writeCurrent vals =>
    match currentSrc s with
    | none => (.panicked, none, s)
    | some k => (.returned, writeTo k vals s)

/-- A history, with how each call ended. -/
def prun (os : OS) (s : Prog) : List POp → List (POp × Res × Option Micro.IO.WErr) × Prog
  | [] => ([], s)
  | op :: ops =>
    match pstep os s op with
    | (r, e, s') => ((op, r, e) :: (prun os s' ops).1, (prun os s' ops).2)

end Micro.Code
