import Verif.Iter.Model
/-
Model of package io (ErrorReader, ErrorWriter) and io/writer.
-/
namespace Micro.IO
open Micro Micro.Iter

/-! ### ErrorReader -/

/-- io/io.go:20-24 `ErrorReader`. `spare` is the part of the backing array of `input` between its
length and its capacity: a Go slice expression may reach into it. -/
structure ErrorReader where
  input : List Nat
  spare : List Nat
  pos : Nat
  err : Option Err
  deriving DecidableEq, Repr

/-- io/io.go:27-33 `NewErrorReader`. -/
def newErrorReader (input spare : List Nat) (err : Option Err) : ErrorReader := ⟨input, spare, 0, err⟩

/-- io/io.go:36-48 `ErrorReader.Read` with `len(p) = n`. The result is the bytes stored in p, the error
and the new state; `none` is the run time panic "slice bounds out of range", which happens when the
upper bound `pos + numBytes` exceeds the capacity. -/
def ErrorReader.read (r : ErrorReader) (n : Nat) : Option ((List Nat × Option Err) × ErrorReader) :=
  if r.pos ≥ r.input.length then some (([], r.err), r)
  else
    let numBytes := min r.input.length n
    if r.pos + numBytes > (r.input ++ r.spare).length then none
    else some ((((r.input ++ r.spare).drop r.pos).take numBytes, none), { r with pos := r.pos + numBytes })

/-- The results of a history of Read calls with the given buffer sizes. -/
def ErrorReader.reads (r : ErrorReader) : List Nat → Option (List (List Nat × Option Err))
  | [] => some []
  | n :: ns =>
    match r.read n with
    | none => none
    | some (res, r') => (r'.reads ns).map (res :: ·)

/-! ### ErrorWriter -/

/-- io/io.go:52-56 `ErrorWriter`. -/
structure ErrorWriter where
  count : Int
  output : List Nat
  err : Option Err
  deriving DecidableEq, Repr

/-- io/io.go:59-61 `NewErrorWriter`. -/
def newErrorWriter (count : Int) (err : Option Err) : ErrorWriter := ⟨count, [], err⟩

/-- An io.Writer: bytes offered, number of bytes written, error, new state. -/
abbrev Writer (ω : Type) := ω → List Nat → Nat × Option Err × ω

/-- io/io.go:64-80 `ErrorWriter.Write`. -/
def ErrorWriter.write : Writer ErrorWriter := fun w p =>
  if (w.output.length : Int) = w.count then (0, w.err, w)
  else if w.count < 0 then (0, none, w)
  else
    let numBytes := (min (p.length : Int) (w.count - w.output.length)).toNat
    (numBytes, none, { w with output := w.output ++ p.take numBytes })

/-- Results and final state of a history of Write calls on any io.Writer. -/
def writes {ω : Type} (wr : Writer ω) : ω → List (List Nat) → List (Nat × Option Err) × ω
  | w, [] => ([], w)
  | w, p :: ps =>
    let (n, e, w') := wr w p
    let (rs, w'') := writes wr w' ps
    ((n, e) :: rs, w'')

/-- bytes.Buffer / strings.Builder (standard library): appends everything, never fails. -/
def bufferWriter : Writer (List Nat) := fun w p => (p.length, none, w ++ p)

/-! ### io/writer -/

/-- Errors of the writing functions: an error of the destination, or one of the messages of
io/writer/gen.go:16-18 (with their arguments). -/
inductive WErr where
  | dst (e : Err)
  | byteNotWritten (b : Nat)
  | runeNotWritten (r : Int)
  | stringShort (n len plen : Nat)
  deriving DecidableEq, Repr

/-- A writing function `func(T) error` together with the state of its destination. io/writer/writer.go:34-40 `NewWriter` wraps it (nil panics:
Verif/IO/NilModel.lean); the constructors 43-45 `OfSliceWriter`, 48-50 `OfMapWriter`, 54-56 `OfIOWriterAsBytes`, 60-62 `OfIOWriterAsRunes`, 66-68
`OfIOWriterAsStrings` and 73-75 `OfIOWriterAsLines` are NewWriter of the generators modelled below. -/
abbrev WFn (σ T : Type) := σ → T → Option WErr × σ

/-- io/writer/gen.go:25-30 `SliceWriterGen`: the state is the slice pointed to. -/
def sliceWriter {T : Type} : WFn (List T) T := fun slc v => (none, slc ++ [v])

/-- io/writer/gen.go:34-39 `MapWriterGen`: the state is the map. -/
def mapWriter {K V : Type} [DecidableEq K] : WFn (K → Option V) (K × V) := fun m kv =>
  (none, fun k => if k = kv.1 then some kv.2 else m k)

/-- io/writer/gen.go:45-58 `IOWriterGen`. -/
def byteWriter {ω : Type} (wr : Writer ω) : WFn ω Nat := fun w b =>
  match wr w [b] with
  | (_, some e, w') => (some (.dst e), w')
  | (n, none, w') => if n = 0 then (some (.byteNotWritten b), w') else (none, w')

/-- `[]byte(string(val))` for a rune (int32): UTF-8 encoding as done by Go's conversion, with the
replacement character U+FFFD for surrogates and numbers outside the Unicode range. -/
def runeBytes (r : Int) : List Nat :=
  if r < 0 ∨ r > 0x10FFFF ∨ (0xD800 ≤ r ∧ r ≤ 0xDFFF) then [0xEF, 0xBF, 0xBD]
  else
    let n := r.toNat
    if n < 0x80 then [n]
    else if n < 0x800 then [0xC0 + n / 64, 0x80 + n % 64]
    else if n < 0x10000 then [0xE0 + n / 4096, 0x80 + n / 64 % 64, 0x80 + n % 64]
    else [0xF0 + n / 262144, 0x80 + n / 4096 % 64, 0x80 + n / 64 % 64, 0x80 + n % 64]

/-- io/writer/gen.go:64-77 `IOWriterAsRunesGen`. -/
def runeWriter {ω : Type} (wr : Writer ω) : WFn ω Int := fun w r =>
  let p := runeBytes r
  match wr w p with
  | (_, some e, w') => (some (.dst e), w')
  | (n, none, w') => if n < p.length then (some (.runeNotWritten r), w') else (none, w')

/-- io/writer/gen.go:83-96 `IOWriterAsStringsGen`: a string is its list of bytes. -/
def stringWriter {ω : Type} (wr : Writer ω) : WFn ω (List Nat) := fun w p =>
  match wr w p with
  | (_, some e, w') => (some (.dst e), w')
  | (n, none, w') => if n < p.length then (some (.stringShort n p.length p.length), w') else (none, w')

/-- io/writer/gen.go:104-120 `IOWriterAsLinesGen`: `eol` is osEOLSequence (io/writer/gen.go:20), "\r\n" on
windows and "\n" elsewhere. -/
def lineWriter {ω : Type} (eol : List Nat) (wr : Writer ω) : WFn ω (List Nat) := fun w val =>
  let p := val ++ eol
  match wr w p with
  | (_, some e, w') => (some (.dst e), w')
  | (n, none, w') => if n < p.length then (some (.stringShort n p.length p.length), w') else (none, w')

/-- io/writer/writer.go:80-88 `WriterImpl.Write`. -/
def writeAll {σ T : Type} (fn : WFn σ T) : σ → List T → Option WErr × σ
  | s, [] => (none, s)
  | s, v :: vs =>
    match fn s v with
    | (some e, s') => (some e, s')
    | (none, s') => writeAll fn s' vs

end Micro.IO
