import Verif.IO.Model
/-
Package io/writer with nil arguments and with writing functions that panic.
-/
namespace Micro.IO.Nil
open Micro Micro.Iter

/-- The values a call may panic with: errNewWriterNeedsFn (io/writer/writer.go:15), the run time errors
for a nil pointer and for an assignment to an entry in a nil map, or a value of the writing function. -/
inductive Crash where
  | needsFn
  | nilPointer
  | nilMap
  | user (v : Nat)
  deriving DecidableEq, Repr

/-- A writing function `func(T) error` together with the state of its destination: it returns an error
or nil, or panics, and in each case leaves a state. -/
abbrev PFn (σ T : Type) := σ → T → Except Crash (Option WErr) × σ

/-- io/writer/writer.go:34-40 `NewWriter`: the function is `none` if it is nil. A Writer is its function
(io/writer/writer.go:26-28 `WriterImpl`). -/
def newWriter {σ T : Type} (fn : Option (PFn σ T)) : Except Crash (PFn σ T) :=
  match fn with
  | none => .error .needsFn
  | some f => .ok f

/-- io/writer/writer.go:80-88 `WriterImpl.Write`, for a function that may panic. -/
def write {σ T : Type} (fn : PFn σ T) : σ → List T → Except Crash (Option WErr) × σ
  | s, [] => (.ok none, s)
  | s, v :: vs =>
    match fn s v with
    | (.error p, s') => (.error p, s')
    | (.ok (some e), s') => (.ok (some e), s')
    | (.ok none, s') => write fn s' vs

/-- io/writer/gen.go:25-30 `SliceWriterGen`: the state is what the pointer points to, `none` if it is nil. -/
def sliceGen {T : Type} : PFn (Option (List T)) T := fun slc v =>
  match slc with
  | none => (.error .nilPointer, none)
  | some s => (.ok none, some (s ++ [v]))

/-- io/writer/gen.go:34-39 `MapWriterGen`: the state is the map, `none` if it is nil. -/
def mapGen {K V : Type} [DecidableEq K] : PFn (Option (K → Option V)) (K × V) := fun m kv =>
  match m with
  | none => (.error .nilMap, none)
  | some m => (.ok none, some (fun k => if k = kv.1 then some kv.2 else m k))

/-- The io.Writer based functions io/writer/gen.go:45-58 `IOWriterGen`, 64-77 `IOWriterAsRunesGen`, 83-96
`IOWriterAsStringsGen` and 104-120 `IOWriterAsLinesGen`: `fn` is the function of Verif/IO/Model.lean, the
state is that of the io.Writer, `none` if the interface is nil. All call dst.Write before anything that
can be seen from outside. -/
def ioGen {ω T : Type} (fn : WFn ω T) : PFn (Option ω) T := fun dst v =>
  match dst with
  | none => (.error .nilPointer, none)
  | some w => let (e, w') := fn w v; (.ok e, some w')

/-- io/writer/writer.go:43-45 `OfSliceWriter`. -/
def ofSliceWriter {T : Type} : Except Crash (PFn (Option (List T)) T) := newWriter (some sliceGen)

/-- io/writer/writer.go:48-50 `OfMapWriter`. -/
def ofMapWriter {K V : Type} [DecidableEq K] : Except Crash (PFn (Option (K → Option V)) (K × V)) :=
  newWriter (some mapGen)

/-- io/writer/writer.go:54-56 `OfIOWriterAsBytes`. -/
def ofBytes {ω : Type} (wr : Writer ω) : Except Crash (PFn (Option ω) Nat) := newWriter (some (ioGen (byteWriter wr)))

/-- io/writer/writer.go:60-62 `OfIOWriterAsRunes`. -/
def ofRunes {ω : Type} (wr : Writer ω) : Except Crash (PFn (Option ω) Int) := newWriter (some (ioGen (runeWriter wr)))

/-- io/writer/writer.go:66-68 `OfIOWriterAsStrings`. -/
def ofStrings {ω : Type} (wr : Writer ω) : Except Crash (PFn (Option ω) (List Nat)) :=
  newWriter (some (ioGen (stringWriter wr)))

/-- io/writer/writer.go:73-75 `OfIOWriterAsLines`. -/
def ofLines {ω : Type} (eol : List Nat) (wr : Writer ω) : Except Crash (PFn (Option ω) (List Nat)) :=
  newWriter (some (ioGen (lineWriter eol wr)))

end Micro.IO.Nil
