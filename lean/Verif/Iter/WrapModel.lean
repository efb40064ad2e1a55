import Verif.Iter.Model
import Verif.Union.Model
import Verif.Funcs.SliceModel
/-
Model of the remaining constructors of package iter (OfStringAsRunes, Maybe, OfCSV) and of the content helpers of package rest that use them.
-/
namespace Micro.Iter
open Micro

/-! ### Strings as runes -/

/-- Go's decoding of one rune (language specification, conversion of a string to []rune; unicode/utf8 DecodeRune): the rune of the UTF-8 sequence that
starts with the byte b, and how many bytes of the rest belong to it; U+FFFD and 0 if there is no valid sequence. -/
def decode1 (b : Nat) (rest : List Nat) : Nat × Nat :=
  if b < 0x80 then (b, 0)
  else if 0xC2 ≤ b ∧ b ≤ 0xDF then
    match rest with
    | c :: _ => if 0x80 ≤ c ∧ c ≤ 0xBF then ((b - 0xC0) * 64 + (c - 0x80), 1) else (0xFFFD, 0)
    | _ => (0xFFFD, 0)
  else if 0xE0 ≤ b ∧ b ≤ 0xEF then
    match rest with
    | c :: d :: _ =>
      if (if b = 0xE0 then 0xA0 else 0x80) ≤ c ∧ c ≤ (if b = 0xED then 0x9F else 0xBF) ∧ 0x80 ≤ d ∧ d ≤ 0xBF then
        ((b - 0xE0) * 4096 + (c - 0x80) * 64 + (d - 0x80), 2)
      else (0xFFFD, 0)
    | _ => (0xFFFD, 0)
  else if 0xF0 ≤ b ∧ b ≤ 0xF4 then
    match rest with
    | c :: d :: e :: _ =>
      if (if b = 0xF0 then 0x90 else 0x80) ≤ c ∧ c ≤ (if b = 0xF4 then 0x8F else 0xBF) ∧ 0x80 ≤ d ∧ d ≤ 0xBF ∧ 0x80 ≤ e ∧ e ≤ 0xBF then
        ((b - 0xF0) * 262144 + (c - 0x80) * 4096 + (d - 0x80) * 64 + (e - 0x80), 3)
      else (0xFFFD, 0)
    | _ => (0xFFFD, 0)
  else (0xFFFD, 0)

/-- Go's []rune(s), in iter/iter.go:119-121 `OfStringAsRunes`. -/
def goRunes : List Nat → List Nat
  | [] => []
  | b :: rest => (decode1 b rest).1 :: goRunes (rest.drop (decode1 b rest).2)
termination_by l => l.length
decreasing_by simp; omega

/-- iter/iter.go:119-121 `OfStringAsRunes`: the iterator over the bytes `src` of a string. -/
def ofStringAsRunesCall (src : List Nat) : Call Nat Nat := sliceCall (goRunes src)

/-- iter/gen.go:337-341 `StringAsRunesIterGen` (and, with a reader on the string, iter/iter.go:112-114 `OfReaderAsRunes`): the initial state of the
rune reader. -/
def stringAsRunesInit (src : List Nat) : RuneState (List Nat) := ⟨false, .eoi, src⟩

/-! ### Maybe -/

/-- iter/iter.go:195-197 `Maybe`: Next as a Result; `none` is a panic (or a Next that does not return). `ref` is reflect.ValueOf, `zv` the zero
value that Next returns with an error. -/
def maybeNext {σ α : Type} (ref : α → Option Union.RV) (zv : α) (call : Call σ α) (it : It σ α) : Option (Union.Result α Err × It σ α) :=
  match it.next call with
  | none => none
  | some (.ok v, it') => (Union.ofResultError ref v none).map (·, it')
  | some (.error e, it') => (Union.ofResultError ref zv (some e)).map (·, it')

/-! ### CSV -/

/-- encoding/csv Reader with ReuseRecord (standard library): the records of the rest of the document (their fields, and the error found in them, if any), the
number of fields of the first record (0: not known yet, field FieldsPerRecord), the memory and the record returned last. -/
structure CsvReader where
  rows : List (List String × Option Err)
  perRecord : Nat
  mem : Funcs.SMem String
  last : Funcs.Slc

/-- csv.NewReader (standard library) on a document; array 0 is the empty array of the nil slice. -/
def CsvReader.new (rows : List (List String × Option Err)) : CsvReader := ⟨rows, 0, ⟨fun _ => [], 1⟩, ⟨0, 0, 0, 0⟩⟩

/-- csv.Reader Read with ReuseRecord (standard library): the fields are stored in the array of the last record if it is large enough, otherwise in a new one.
A record with another number of fields than the first is returned together with ErrFieldCount (`fc`). After the last record the result is io.EOF. -/
def CsvReader.read (fc : Err) (r : CsvReader) : (Option Funcs.Slc × Option Err) × CsvReader :=
  match r.rows with
  | [] => ((none, some .eof), { r with last := ⟨0, 0, 0, 0⟩ })
  | (fields, err) :: rows =>
    let err := if 0 < r.perRecord ∧ fields.length ≠ r.perRecord ∧ err = none then some fc else err
    let perRecord := if r.perRecord = 0 then fields.length else r.perRecord
    if fields.length ≤ r.last.cap then
      let s : Funcs.Slc := { r.last with len := fields.length }
      ((some s, err), ⟨rows, perRecord, r.mem.write s.arr s.off fields, s⟩)
    else
      let (m, s) := r.mem.make "" fields.length fields.length
      ((some s, err), ⟨rows, perRecord, m.write s.arr s.off fields, s⟩)

/-- The variables captured by the CSV iterating function; the reader is unused if src is nil. -/
structure CsvState where
  done : Bool
  err : Err
  rdr : CsvReader

/-- iter/gen.go:412-438 `CSVIterGen`: set up. -/
def csvInit (srcNil : Bool) (rdr : CsvReader) : CsvState := ⟨srcNil, .eoi, rdr⟩

/-- iter/gen.go:425-437: the generated function. Simplification: a record returned together with an error is dropped here already (Iter.Next drops it,
iter/iter.go:153-185 `Next`). A Read without a record and without an error does not happen. -/
def csvCall (fc : Err) : Call CsvState Funcs.Slc := fun s =>
  if s.done then some (.error s.err, s)
  else
    match s.rdr.read fc with
    | ((some line, none), rdr) => some (.ok line, { s with rdr })
    | ((none, none), _) => none
    | ((_, some e), rdr) =>
      let err := if e = .eof then .eoi else e
      some (.error err, ⟨decide (err = .eoi), err, rdr⟩)

end Micro.Iter
