import Verif.Iter.Model
/-
Specification vocabulary for iterators.
-/
namespace Micro.Iter

/-- `Yields call s xs e`: calling the iterating function repeatedly from state `s` produces exactly
the values `xs`, in order, and then the error `e`. -/
inductive Yields {σ α : Type} (call : Call σ α) : σ → List α → Err → Prop where
  | stop {s s' e} : call s = some (.error e, s') → Yields call s [] e
  | value {s s' x xs e} : call s = some (.ok x, s') → Yields call s' xs e → Yields call s (x :: xs) e

/-- The iterator yields `xs`, then `e`, and then keeps returning `e` forever. -/
def YieldsForever {σ α : Type} (call : Call σ α) (s : σ) (xs : List α) (e : Err) : Prop :=
  ∃ stt : Nat → σ,
    stt 0 = s ∧
    (∀ i (h : i < xs.length), call (stt i) = some (.ok xs[i], stt (i + 1))) ∧
    (∀ i, xs.length ≤ i → call (stt i) = some (.error e, stt (i + 1)))

/-- The first `n` results of an iterating function, if all of them are values. -/
def takeN {σ α : Type} (call : Call σ α) : Nat → σ → Option (List α × σ)
  | 0, s => some ([], s)
  | n + 1, s =>
    match call s with
    | some (.ok v, s') => (takeN call n s').map (fun (vs, s'') => (v :: vs, s''))
    | _ => none

/-- The observable future of an iterator: the results of the coming calls of Next. -/
abbrev Fut (α : Type) := Nat → Except Err α

/-- Operations on an iterator. -/
inductive Op (α : Type) where
  | next
  | unread (v : α)

/-- Specification of Next and Unread on futures: Next consumes the first result (an error stays),
Unread puts a value in front. -/
def Fut.step {α : Type} (F : Fut α) : Op α → Option (Except Err α) × Fut α
  | .next =>
    match F 0 with
    | .ok v => (some (.ok v), fun n => F (n + 1))
    | .error e => (some (.error e), fun _ => .error e)
  | .unread v => (none, fun n => match n with | 0 => .ok v | n + 1 => F n)

/-- Results of a sequence of operations according to the specification. -/
def Fut.run {α : Type} (F : Fut α) : List (Op α) → List (Except Err α)
  | [] => []
  | op :: ops =>
    match F.step op with
    | (some r, F') => r :: F'.run ops
    | (none, F') => F'.run ops

/-- Results of a sequence of operations on an iterator; `none` if some call does not return. -/
def runOps {σ α : Type} (call : Call σ α) : It σ α → List (Op α) → Option (List (Except Err α))
  | _, [] => some []
  | it, .next :: ops =>
    match it.next call with
    | none => none
    | some (r, it') => (runOps call it' ops).map (r :: ·)
  | it, .unread v :: ops => runOps call (it.unread v) ops

/-- `call` started in `s` produces the results `f 0, f 1, …` up to and including the first error. -/
def Produces {σ α : Type} (call : Call σ α) (s : σ) (f : Fut α) : Prop :=
  ∃ stt : Nat → σ, stt 0 = s ∧
    ∀ i, (∀ j, j < i → ∃ v, f j = .ok v) → call (stt i) = some (f i, stt (i + 1))

/-- A future with everything after its first error replaced by that error. -/
def sticky {α : Type} (f : Fut α) : Fut α
  | 0 => f 0
  | n + 1 =>
    match f 0 with
    | .error e => .error e
    | .ok _ => sticky (fun i => f (i + 1)) n

/-- UTF-8 encoding of a Unicode scalar value (RFC 3629 table); Lean's `Char` is exactly the set of
scalar values. -/
def utf8 (c : Char) : List Nat :=
  let n := c.toNat
  if n < 0x80 then [n]
  else if n < 0x800 then [0xC0 + n / 64, 0x80 + n % 64]
  else if n < 0x10000 then [0xE0 + n / 4096, 0x80 + n / 64 % 64, 0x80 + n % 64]
  else [0xF0 + n / 262144, 0x80 + n / 4096 % 64, 0x80 + n / 64 % 64, 0x80 + n % 64]

/-- "Generalised UTF-8": the lead byte tells the number of continuation bytes (80..BF) and the
payload bits give the code point, which is at most 10FFFF. Differs from UTF-8 (RFC 3629) by also
containing over-long forms and surrogates. -/
inductive GenUtf8 : List Nat → Nat → Prop where
  | one {b} : b < 0x80 → GenUtf8 [b] b
  | two {a b} : a < 0x20 → b < 0x40 → GenUtf8 [0xC0 + a, 0x80 + b] (a * 64 + b)
  | three {a b c} : a < 0x10 → b < 0x40 → c < 0x40 →
      GenUtf8 [0xE0 + a, 0x80 + b, 0x80 + c] (a * 4096 + b * 64 + c)
  | four {a b c d} : a < 8 → b < 0x40 → c < 0x40 → d < 0x40 →
      a * 262144 + b * 4096 + c * 64 + d ≤ 0x10FFFF →
      GenUtf8 [0xF0 + a, 0x80 + b, 0x80 + c, 0x80 + d] (a * 262144 + b * 4096 + c * 64 + d)

/-- The lines of a text: LF, CR and CRLF each end a line; `keepLast` says whether a final
unterminated non-empty line counts. `acc` is the part of the current line already read. -/
def splitLines (keepLast : Bool) : List Nat → List Nat → List (List Nat)
  | [], acc => if keepLast = true ∧ acc ≠ [] then [acc] else []
  | 13 :: 10 :: t, acc => acc :: splitLines keepLast t []
  | c :: t, acc =>
    if c = 13 ∨ c = 10 then acc :: splitLines keepLast t [] else splitLines keepLast t (acc ++ [c])

/-- No LF comes after a lone CR (a CR not followed by LF) unless the LF belongs to a CRLF:
`cr` tells that a lone CR was seen since the last LF. -/
def NoLFAfterLoneCR : Bool → List Nat → Prop
  | _, [] => True
  | _, 13 :: 10 :: t => NoLFAfterLoneCR false t
  | cr, c :: t =>
    if c = 13 then NoLFAfterLoneCR true t
    else if c = 10 then cr = false ∧ NoLFAfterLoneCR cr t
    else NoLFAfterLoneCR cr t

/-- The function iterated n times on the last seed, threading the captured state. -/
def iterN {α γ : Type} (f : α → γ → α × γ) : Nat → α × γ → α × γ
  | 0, p => p
  | n + 1, p => iterN f n (f p.1 p.2)

/-- Fibonacci numbers: 1, 1, 2, 3, 5, … -/
def fib : Nat → Int
  | 0 => 1
  | 1 => 1
  | n + 2 => fib (n + 1) + fib n

/-- The values and the final error of a sequence of iterators: stops at the first error other than
EOI; a nil iterator contributes nothing. -/
def concatSpec {α : Type} : List (Option (List α × Err)) → List α × Err
  | [] => ([], .eoi)
  | none :: t => concatSpec t
  | some (vs, e) :: t => if e = .eoi then (vs ++ (concatSpec t).1, (concatSpec t).2) else (vs, e)

/-- A reader that, asked for one byte, delivers the bytes `bs` one per call with a nil error, and then
nothing with the error `e`. (bytes.Reader, strings.Reader, bufio.Reader behave like this.) -/
inductive Delivers {ρ : Type} (rd : Reader ρ) : ρ → List Nat → Err → Prop where
  | fail {s s' e} : rd s 1 = ([], some e, s') → Delivers rd s [] e
  | byte {s s' b bs e} : rd s 1 = ([b], none, s') → Delivers rd s' bs e → Delivers rd s (b :: bs) e

end Micro.Iter
