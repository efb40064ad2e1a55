import Verif.Go
/-
Model of package iter: IterImpl, SetError and the iterating function generators.

An iterating function `func() (T, error)` is a closure: hidden state `σ` plus code
`call : σ → Option (Except Err α × σ)`.  `none` means that the call does not return (an endless
loop, or a panic); `some (.ok v, s)` is `(v, nil)`, `some (.error e, s)` is `(zero value, e)`.
-/
namespace Micro.Iter
open Micro

/-- Errors that flow through iterators (EOI: iter/iter.go:22; EOF: io.EOF; the others are the error
values of the packages that use iterators). `user n` stands for any other error value. -/
inductive Err where
  | eoi | eof | invalidUTF8 | overflow | underflow | divByZero | abs | user (n : Nat)
  deriving DecidableEq, Repr

/-- Code of an iterating function with captured state `σ`. -/
abbrev Call (σ α : Type) := σ → Option (Except Err α × σ)

/-- iter/iter.go:41-45 `IterImpl`: `fn = none` is the nil iterFn; `buffer` is the Go slice (last
element is returned first); `lastErr = none` is the nil error. -/
structure It (σ α : Type) where
  fn : Option σ
  buffer : List α
  lastErr : Option Err

/-- iter/iter.go:57-63 `OfIter` (for a non-nil function; nil panics). The constructors iter/iter.go 69-71 `Of`, 76-78 `OfEmpty`, 83-85 `OfOne`,
91-93 `OfSlice`, 98-100 `OfMap`, 105-107 `OfReader`, 112-114 `OfReaderAsRunes`, 119-121 `OfStringAsRunes`, 126-128 `OfReaderAsLines`,
133-135 `OfStringAsLines`, 138-140 `OfCSV` and 144-146 `Concat` are OfIter of the generator of the same name: `It.next` of the generator's
call, from `ofIter` of its initial state. -/
def ofIter {σ α : Type} (s : σ) : It σ α := ⟨some s, [], none⟩

/-- What `Next` returns when there is no function any more: (zero value, lastErr). The impossible
case of a nil lastErr (a nil error without a value, i.e. a zero value) is modelled by divergence. -/
def It.stopped {σ α : Type} (it : It σ α) : Option (Except Err α × It σ α) :=
  match it.lastErr with
  | some e => some (.error e, it)
  | none => none

/-- iter/iter.go:153-185 `IterImpl.Next`. -/
def It.next {σ α : Type} (call : Call σ α) (it : It σ α) : Option (Except Err α × It σ α) :=
  match it.buffer.getLast? with
  | some v => some (.ok v, { it with buffer := it.buffer.dropLast })
  | none =>
    match it.fn with
    | some s =>
      match call s with
      | none => none
      | some (.ok v, s') => some (.ok v, { it with fn := some s' })
      | some (.error e, _) => some (.error e, { it with fn := none, lastErr := some e })
    | none => it.stopped

/-- iter/iter.go:188-190 `IterImpl.Unread`. -/
def It.unread {σ α : Type} (it : It σ α) (v : α) : It σ α := { it with buffer := it.buffer ++ [v] }

/-- iter/iter.go:200-209 `SetError`: the closure's state is the wrapped iterator. -/
def setErrorCall {σ α : Type} (next : Call σ α) (err : Err) : Call σ α := fun it =>
  match next it with
  | none => none
  | some (.ok v, it') => some (.ok v, it')
  | some (.error _, it') => some (.error err, it')

/-- iter/iter.go:200-209 `SetError` with the nil error: when the wrapped iterator returns an error, the function returns
(zero value, nil), which is a value; it is then called again, and the wrapped iterator with it. -/
def setNilErrorCall {σ α : Type} (zv : α) (next : Call σ α) : Call σ α := fun it =>
  match next it with
  | none => none
  | some (.ok v, it') => some (.ok v, it')
  | some (.error _, it') => some (.ok zv, it')

/-! ### Generators -/

/-- iter/gen.go:29-44 `SliceIterGen`: state = idx. -/
def sliceCall {α : Type} (slc : List α) : Call Nat α := fun idx =>
  if h : idx < slc.length then some (.ok slc[idx], idx + 1) else some (.error .eoi, idx)

/-- Go's expression `v.Interface().(T)` for a reflect.Value v of the static type T (iter/gen.go:70, stream/stream.go:592,
funcs/funcs.go:130): if T is an interface type and v holds nil, Interface() is the nil any, and the assertion panics (`none`).
`isNil` tells which values are nil interfaces; it is constantly false if T is no interface type. -/
def assertIface {α : Type} (isNil : α → Bool) (v : α) : Option α := if isNil v then none else some v

/-- iter/gen.go:49-72 `MapIterGen`: state = (entries not yet visited, done); the entries are in the
order the runtime chooses, so theorems quantify over it. `none` is a panic. -/
def mapCall {κ ν : Type} (nilK : κ → Bool) (nilV : ν → Bool) : Call (List (κ × ν) × Bool) (κ × ν) := fun (rest, done) =>
  if done then some (.error .eoi, (rest, done))
  else match rest with
    | [] => some (.error .eoi, ([], true))
    | kv :: rest =>
      match assertIface nilK kv.1, assertIface nilV kv.2 with
      | some k, some v => some (.ok (k, v), (rest, false))
      | _, _ => none

/-- iter/gen.go:76-82 `NoValueIterGen`. -/
def noValueCall {α : Type} : Call Unit α := fun s => some (.error .eoi, s)

/-- iter/gen.go:85-99 `SingleValueIterGen`: state = done. -/
def singleValueCall {α : Type} (value : α) : Call Bool α := fun done =>
  if done then some (.error .eoi, done) else some (.ok value, true)

/-- Captured variables of `InfiniteIterGen`; `γ` is the state captured by the iterative function. -/
structure InfState (γ α : Type) where
  literals : List α
  acc : α
  cap : γ

/-- iter/gen.go:111-154 `InfiniteIterGen`: set up of the captured variables; `zero` is the zero value. -/
def infiniteInit {γ α : Type} (zero : α) (cap : γ) (initial : List α) : InfState γ α :=
  match initial.getLast? with
  | some seed => ⟨initial.dropLast, seed, cap⟩
  | none => ⟨[], zero, cap⟩

/-- iter/gen.go:127-152: the generated function. -/
def infiniteCall {γ α : Type} (iterative : α → γ → α × γ) : Call (InfState γ α) α := fun s =>
  match s.literals with
  | l :: ls => some (.ok l, { s with literals := ls })
  | [] =>
    let (a, c) := iterative s.acc s.cap
    some (.ok a, ⟨[], a, c⟩)

/-- iter/gen.go:157-174 `FibonnaciIterGen`: the iterative function captures prev2; `int` is 64 bits. -/
def fibStep (prev1 prev2 : Int) : Int × Int := (Kind.int.wrap (prev2 + prev1), prev1)

/-- iter/gen.go:160-173: literals [1], seed 1, prev2 = 0. -/
def fibInit : InfState Int Int := infiniteInit 0 0 [1, 1]

/-- Captured variables of `ConcatIterGen`. Simplification: `src` is the list of iterators not yet
finished (its head is `iter`/`src[i]`), nil iterators are `none`; all iterators share one state type
(a sum type for a mixed list), and are different objects: `concatOn` in Verif/Stream/ShareModel.lean lifts this. -/
structure ConcatState (ι : Type) where
  src : List (Option ι)
  err : Err

/-- iter/gen.go:443-477 `ConcatIterGen`: structural on the remaining iterators; each iterator's
state is updated in place (a stop on error empties the list: `i = len(src)`). -/
def concatGo {ι α : Type} (next : Call ι α) :
    List (Option ι) → Err → Option (Except Err α × ConcatState ι)
  | [], err => some (.error err, ⟨[], err⟩)
  | none :: rest, err => concatGo next rest err
  | some it :: rest, _ =>
    match next it with
    | none => none
    | some (.ok v, it') => some (.ok v, ⟨some it' :: rest, .eoi⟩)
    | some (.error e, _) => if e ≠ .eoi then some (.error e, ⟨[], e⟩) else concatGo next rest e

/-- The generated function: one call of the loop. (After a value the Go variable err is nil, but it is
always overwritten before it is returned again, so the model stores EOI.) -/
def concatCall {ι α : Type} (next : Call ι α) : Call (ConcatState ι) α := fun s =>
  concatGo next s.src s.err

/-! ### Readers -/

/-- An io.Reader: `read st n` is `Read(p)` with `len(p) = n`: bytes stored, error, new state. -/
abbrev Reader (ρ : Type) := ρ → Nat → List Nat × Option Err × ρ

/-- strings.Reader / bytes.Reader (standard library): up to n bytes of the rest, (0, EOF) at the end. -/
def bytesReader : Reader (List Nat) := fun rest n =>
  if rest = [] then ([], some .eof, []) else (rest.take n, none, rest.drop n)

/-- testing/iotest.OneByteReader over a byte slice: every Read returns at most one byte. -/
def oneByteReader : Reader (List Nat) := fun rest n =>
  match rest with
  | [] => ([], some .eof, [])
  | b :: bs => if n = 0 then ([], none, rest) else ([b], none, bs)

/-- testing/iotest.DataErrReader over a byte slice: the last byte comes together with io.EOF, as
io.Reader permits. -/
def dataErrReader : Reader (List Nat) := fun rest n =>
  if rest.length ≤ n then (rest, some .eof, []) else (rest.take n, none, rest.drop n)

/-- Captured variables of `ReaderIterGen`. -/
structure RState (ρ : Type) where
  done : Bool
  buf : Nat
  src : ρ

/-- iter/gen.go:180-206 `ReaderIterGen`. `close`: `none` = not an io.Closer, `some none` = Close
returns nil, `some (some e)` = Close returns e. The outer variable err is never assigned (the inner
`err :=` shadows it), so later calls return EOI. The count returned by Read is ignored. -/
def readerCall {ρ : Type} (rd : Reader ρ) (close : Option (Option Err)) : Call (RState ρ) Nat := fun s =>
  if s.done then some (.error .eoi, s)
  else
    match rd s.src 1 with
    | (bs, some e, src') =>
      let buf := bs.head?.getD s.buf
      let e := if e = .eof then .eoi else e
      match e, close with
      | .eoi, some (some ce) => some (.error ce, ⟨true, buf, src'⟩)
      | e, _ => some (.error e, ⟨true, buf, src'⟩)
    | (bs, none, src') =>
      let buf := bs.head?.getD s.buf
      some (.ok buf, ⟨false, buf, src'⟩)

/-- Captured variables of `ReaderAsRunesIterGen` that survive a call. -/
structure RuneState (ρ : Type) where
  done : Bool
  err : Err
  src : ρ

/-- The number of continuation bytes announced by the first byte, 0 = invalid
(iter/gen.go:212-333 `ReaderAsRunesIterGen`: the tests b&0xE0==0xC0, b&0xF0==0xE0, b&0xF8==0xF0). -/
def extraBytes (b : Nat) : Nat :=
  if 0xC0 ≤ b ∧ b < 0xE0 then 1 else if 0xE0 ≤ b ∧ b < 0xF0 then 2
  else if 0xF0 ≤ b ∧ b < 0xF8 then 3 else 0

/-- iter/gen.go:212-333 `ReaderAsRunesIterGen`: `b & mask == pattern` tests are written as the
equivalent comparisons on the byte value; shifts and or of disjoint fields as arithmetic.
When an error is returned without setting `done`, the next call would read again: `err` is stored
but not consulted, as in the code. -/
def runeCall {ρ : Type} (rd : Reader ρ) : Call (RuneState ρ) Nat := fun s =>
  if s.done then some (.error s.err, s)
  else
    let (bs, e, src1) := rd s.src 1
    if bs.length = 0 ∨ e ≠ none then
      let err := match e with
        | none => Err.eoi
        | some .eof => .eoi
        | some e => e
      some (.error err, ⟨true, err, src1⟩)
    else
      let b := bs.headD 0
      if b < 0x80 then some (.ok b, ⟨false, .eoi, src1⟩)
      else
        let eb := extraBytes b
        if eb = 0 then some (.error .invalidUTF8, ⟨true, .invalidUTF8, src1⟩)
        else
          let (ex, e2, src2) := rd src1 eb
          if ex.length ≠ eb ∨ e2 ≠ none then
            let err := match e2 with
              | none => Err.invalidUTF8
              | some .eof => .invalidUTF8
              | some e => e
            some (.error err, ⟨false, err, src2⟩)
          else if ex.any (fun x => decide (x < 0x80) || decide (0xC0 ≤ x)) then
            some (.error .invalidUTF8, ⟨false, .invalidUTF8, src2⟩)
          else
            let x (i : Nat) : Nat := ex.getD i 0 % 64
            if eb = 1 then some (.ok (b % 32 * 64 + x 0), ⟨false, .eoi, src2⟩)
            else if eb = 2 then some (.ok (b % 16 * 4096 + x 0 * 64 + x 1), ⟨false, .eoi, src2⟩)
            else
              let r := b % 8 * 262144 + x 0 * 4096 + x 1 * 64 + x 2
              if r > 0x10FFFF then some (.error .invalidUTF8, ⟨false, .invalidUTF8, src2⟩)
              else some (.ok r, ⟨false, .eoi, src2⟩)

/-- Captured variables of `readLines`. -/
structure LineState (σ : Type) where
  err : Option Err
  lastCR : Bool
  src : σ

/-- iter/gen.go:391 `str.WriteRune(codePoint)`: strings.Builder writes U+FFFD for a rune that has no UTF-8 encoding (the surrogates, which
the rune iterator lets through, and anything above U+10FFFF). -/
def writeRune (c : Nat) : Nat := if (0xD800 ≤ c ∧ c ≤ 0xDFFF) ∨ 0x10FFFF < c then 0xFFFD else c

/-- iter/gen.go:361-392: the loop of `readLines`; `acc` is the strings.Builder (as runes). -/
def readLinesLoop {σ : Type} (it : Call σ Nat) (acc : List Nat) (lastCR : Bool) (s : σ) :
    Option (Except Err (List Nat) × LineState σ) :=
  match it s with
  | none => none
  | some (.error e, s') =>
    let e := if e = .eof then .eoi else e
    if e ≠ .eoi then some (.error e, ⟨some e, lastCR, s'⟩)
    else if acc.length > 0 then some (.ok acc, ⟨some e, lastCR, s'⟩)
    else some (.error e, ⟨some e, lastCR, s'⟩)
  | some (.ok c, s') =>
    if c = 13 then some (.ok acc, ⟨none, true, s'⟩)
    else if c = 10 then
      if lastCR then readLinesLoop it acc false s' else some (.ok acc, ⟨none, lastCR, s'⟩)
    else readLinesLoop it (acc ++ [writeRune c]) lastCR s'
partial_fixpoint

/-- iter/gen.go:347-394 `readLines`; iter/gen.go:398-401 `ReaderAsLinesIterGen` and iter/gen.go:405-408 `StringAsLinesIterGen` apply it to the rune iterators. -/
def readLinesCall {σ : Type} (it : Call σ Nat) : Call (LineState σ) (List Nat) := fun s =>
  match s.err with
  | some e => some (.error e, s)
  | none => readLinesLoop it [] s.lastCR s.src

end Micro.Iter
