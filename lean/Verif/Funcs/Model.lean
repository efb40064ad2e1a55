import Verif.Go
import Mathlib.Order.Defs.LinearOrder
/-
Model of package funcs (slices, ordered tuple slices, filters, TryTo, suppliers, name conversion,
nil tests) and of package event. `none` as the result of a function models a panic.
Slices are modelled by their elements (aliasing of backing arrays is not modelled).
-/
namespace Micro.Funcs
open Micro

variable {α β K V : Type}

/-! ### Slices -/

/-- funcs/funcs.go:144-163 `SliceIndex`. `slc = none` is the nil slice; `zv` is the zero value. -/
def sliceIndex (slc : Option (List α)) (index : Int) (defawlt : List α) (zv : α) : Option α :=
  let rest : Option α := match defawlt with | d :: _ => some d | [] => some zv
  match slc with
  | none => rest
  | some l =>
    if 0 ≤ index ∧ (l.length : Int) > index then l[index.toNat]?
    else if index < 0 ∧ (l.length : Int) + index ≥ 0 then l[((l.length : Int) + index).toNat]?
    else rest

/-- funcs/funcs.go:180-190 (and 214-224): the loop over the first occurrence; `pre` = slc[0:i]. -/
def removeFirst (eq : α → Bool) (pre : List α) : List α → List α
  | [] => pre
  | t :: rest => if eq t then pre ++ rest else removeFirst eq (pre ++ [t]) rest

/-- funcs/funcs.go:193-199 (and 227-232): the loop over all occurrences. -/
def removeAll (eq : α → Bool) (newSlc : List α) : List α → List α
  | [] => newSlc
  | t :: rest => removeAll eq (if eq t then newSlc else newSlc ++ [t]) rest

/-- funcs/funcs.go:177-201 `SliceRemove`; `all` is the first element of the variadic argument. -/
def sliceRemove [DecidableEq α] (slc : List α) (val : α) (all : List Bool) : List α :=
  if (sliceIndex (some all) 0 [false] false) != some true then removeFirst (fun t => decide (t = val)) [] slc
  else removeAll (fun t => decide (t = val)) [] slc

/-- funcs/funcs.go:209-235 `SliceRemoveUncomparable`: elements are compared by the text that
`fmt.Sprintf("%p")` gives for them, here the function `ptr`. -/
def sliceRemoveUncomparable (ptr : α → Nat) (slc : List α) (val : α) (all : List Bool) : List α :=
  if (sliceIndex (some all) 0 [false] false) != some true then removeFirst (fun t => ptr t == ptr val) [] slc
  else removeAll (fun t => ptr t == ptr val) [] slc

/-- Slices of any number of dimensions: `Nest 0 α` is α, `Nest (n+1) α` is a slice of `Nest n α`. -/
def Nest : Nat → Type → Type
  | 0, α => α
  | n + 1, α => List (Nest n α)

/-- funcs/funcs.go:118-134: the recursive closure `f` of SliceFlatten, appending to `rslc`; `none` is the panic of
`val.Interface().(T)` for a nil element of an interface type T (`isNil` tells which elements are nil interfaces). -/
def flattenInto (isNil : α → Bool) : (n : Nat) → List α → Nest n α → Option (List α)
  | 0, rslc, v => if isNil (show α from v) then none else some (rslc ++ [(show α from v)])
  | n + 1, rslc, (v : List (Nest n α)) => v.foldlM (flattenInto isNil n) rslc

/-- funcs/funcs.go:82-137 `SliceFlatten` for a slice of n+1 dimensions with elements of type T; `none`
as the argument is the untyped nil, as the result a panic. `named` tells whether the type of the argument is a defined type such as
`type Ints []int`: a one dimensional slice is returned by `value.([]T)`, which panics for it. (The panics for
arguments that are no slices, or whose elements are not of type T: sliceFlattenT of FlattenModel.) -/
def sliceFlatten (isNil : α → Bool) (named : Bool) : (n : Nat) → Option (Nest (n + 1) α) → Option (List α)
  | _, none => some []
  | 0, some v => if named then none else some (v : List α)
  | n + 1, some v => flattenInto isNil (n + 2) [] v

/-! ### Ordered tuple slices -/

/-- funcs/funcs.go:653-656: m = ceil((l + r) / 2). -/
def mid (l r : Nat) : Nat := if (l + r) % 2 = 1 then (l + r) / 2 + 1 else (l + r) / 2

/-- funcs/funcs.go:652-667: the binary search loop. -/
def searchLoop [LinearOrder K] (mp : List (K × V)) (key : K) (l r : Nat) : Option (Nat × Bool) :=
  if h : l < r then
    match mp[mid l r]? with
    | none => none
    | some e => if e.1 > key then searchLoop mp key l (mid l r - 1) else searchLoop mp key (mid l r) r
  else if l = r then
    match mp[l]? with
    | none => none
    | some e => some (l, decide (key = e.1))
  else none -- not reached: the loop condition is l != r; `c44_search` shows that r < l does not occur
termination_by r - l
decreasing_by
  all_goals (unfold mid; split <;> omega)

/-- funcs/funcs.go:617-669 `OrderedTuple2Search`: index and exact match flag; the index -1 of an empty
slice is represented by `none` in the first component. -/
def search [LinearOrder K] (mp : List (K × V)) (key : K) : Option (Option Nat × Bool) :=
  if mp.length = 0 then some (none, false)
  else (searchLoop mp key 0 (mp.length - 1)).map (fun (i, b) => (some i, b))

/-- funcs/funcs.go:674-690 `OrderedTuple2SliceAdd`. -/
def orderedAdd [LinearOrder K] (mp : List (K × List V)) (key : K) (value : V) : Option (List (K × List V)) :=
  match search mp key with
  | none => none
  | some (none, _) => some [(key, [value])]
  | some (some index, true) =>
    match mp[index]? with
    | none => none
    | some e => some (mp.set index (key, e.2 ++ [value]))
  | some (some index, false) => some (mp.take (index + 1) ++ [(key, [value])] ++ mp.drop (index + 1))

/-- funcs/funcs.go:693-697 `OrderedTuple2SliceRemoveKey`. -/
def orderedRemoveKey [LinearOrder K] (mp : List (K × V)) (key : K) : Option (List (K × V)) :=
  match search mp key with
  | none => none
  | some (some index, true) => some (mp.take index ++ mp.drop (index + 1))
  | some _ => some mp

/-- funcs/funcs.go:701-705 `OrderedTuple2SliceRemoveValue` and 709-713
`OrderedTuple2SliceRemoveUncomparable`, with the slice removal function as a parameter. -/
def orderedRemoveWith [LinearOrder K] (remove : List V → List V) (mp : List (K × List V)) (key : K) :
    Option (List (K × List V)) :=
  match search mp key with
  | none => none
  | some (some index, true) =>
    match mp[index]? with
    | none => none
    | some e => some (mp.set index (key, remove e.2))
  | some _ => some mp

/-- funcs/funcs.go:701-705 `OrderedTuple2SliceRemoveValue`. -/
def orderedRemoveValue [LinearOrder K] [DecidableEq V] (mp : List (K × List V)) (key : K) (value : V)
    (all : List Bool) : Option (List (K × List V)) :=
  orderedRemoveWith (fun slc => sliceRemove slc value all) mp key

/-- funcs/funcs.go:709-713 `OrderedTuple2SliceRemoveUncomparable`. -/
def orderedRemoveUncomparable [LinearOrder K] (ptr : V → Nat) (mp : List (K × List V)) (key : K) (value : V)
    (all : List Bool) : Option (List (K × List V)) :=
  orderedRemoveWith (fun slc => sliceRemoveUncomparable ptr slc value all) mp key

/-! ### Event registry -/

/-- A receiver (event/event.go:29-31 `Receiver`): its Process function, and the text `%p` prints for it.
For a pointer receiver that text identifies the receiver; for a ReceiverFunc it is the address of the
function's code, which all closures created by one function literal share. -/
structure Recv (T : Type) where
  ptr : Nat
  process : T → T

/-- event/event.go:51-53 `Registry`. -/
abbrev Registry (I T : Type) := List (I × List (Recv T))

variable {I T : Type} [LinearOrder I]

/-- event/event.go:61-64 `Registry.Register`. -/
def register (r : Registry I T) (id : I) (rcvr : Recv T) : Option (Registry I T) := orderedAdd r id rcvr

/-- event/event.go:67-70 `Registry.RemoveId`. -/
def removeId (r : Registry I T) (id : I) : Option (Registry I T) := orderedRemoveKey r id

/-- event/event.go:74-76 `Registry.Remove`. -/
def remove (r : Registry I T) (id : I) (rcvr : Recv T) (all : List Bool) : Option (Registry I T) :=
  orderedRemoveUncomparable Recv.ptr r id rcvr all

omit [LinearOrder I] in
/-- event/event.go:88-90: the inner loop. -/
def sendTo : List (Recv T) → T → T
  | [], val => val
  | rcvr :: rs, val => sendTo rs (rcvr.process val)

omit [LinearOrder I] in
/-- event/event.go:86-94 `Registry.Send`. -/
def send : Registry I T → T → T
  | [], val => val
  | idRcvrs :: rest, val => send rest (sendTo idRcvrs.2 val)

/-! ### Filters -/

/-- funcs/funcs.go:720-732 `And`: the loop, `result` being the last result; the second component
counts the filters called. -/
def andLoop (t : α) (result : Bool) (called : Nat) : List (α → Bool) → Bool × Nat
  | [] => (result, called)
  | f :: fs => if !(f t) then (f t, called + 1) else andLoop t (f t) (called + 1) fs

/-- funcs/funcs.go:720-732 `And`. -/
def and_ (filters : List (α → Bool)) (t : α) : Bool × Nat := andLoop t true 0 filters

/-- funcs/funcs.go:735-739 `Not`. -/
def not_ (filter : α → Bool) (t : α) : Bool := !(filter t)

/-- funcs/funcs.go:744-756 `Or`: the loop. -/
def orLoop (t : α) (result : Bool) (called : Nat) : List (α → Bool) → Bool × Nat
  | [] => (result, called)
  | f :: fs => if f t then (f t, called + 1) else orLoop t (f t) (called + 1) fs

/-- funcs/funcs.go:744-756 `Or`. -/
def or_ (filters : List (α → Bool)) (t : α) : Bool × Nat := orLoop t true 0 filters

/-! ### TryTo -/

/-- What a function without result does: it returns, or it panics with a value, which may be the nil
interface (`panic(nil)`, which recover reports as nil: go.mod says go 1.18, so GODEBUG panicnil=1). -/
inductive Outcome (P : Type) where
  | returns
  | panics (v : Option P)

/-- Observable calls. -/
inductive Ev (P : Type) where
  | tried
  | closed (i : Nat)     -- the closer with index i
  | handled (v : P)      -- panicFn(v)
  deriving DecidableEq

variable {P : Type}

/-- Go's rule for panics while deferred functions run: a new panic replaces the current one. -/
def Outcome.after (o : Outcome P) (pending : Option (Option P)) : Option (Option P) :=
  match o with
  | .returns => pending
  | .panics v => some v

/-- funcs/funcs.go:1357-1359: the deferred calls, pushed in order (top of the stack first). -/
def pushDefers (stack : List (Nat × Outcome P)) (i : Nat) : List (Outcome P) → List (Nat × Outcome P)
  | [] => stack
  | c :: cs => pushDefers ((i, c) :: stack) (i + 1) cs

/-- Running the deferred closers from the top of the stack, with the pending panic. -/
def runDefers (log : List (Ev P)) (pending : Option (Option P)) : List (Nat × Outcome P) →
    List (Ev P) × Option (Option P)
  | [] => (log, pending)
  | (i, o) :: rest => runDefers (log ++ [.closed i]) (o.after pending) rest

/-- funcs/funcs.go:1348-1363 `TryTo`: the log of calls. What panicFn does after being called is not
modelled (it returns, or its panic reaches the caller). -/
def tryTo (tryFn : Outcome P) (closers : List (Outcome P)) : List (Ev P) :=
  let stack := pushDefers [] 0 closers
  let (log, pending) := runDefers [.tried] (tryFn.after none) stack
  match pending with
  | some (some val) => log ++ [.handled val]  -- recover() returned a non-nil value
  | _ => log                                  -- no panic, or recover() returned nil

/-! ### Suppliers -/

/-- funcs/funcs.go:1267-1280 `SupplierCached`: state = (isCached, cachedVal, state of the supplier, number
of times it was invoked). The supplier may panic (`none`); the assignment of both variables then does
not take place. -/
structure Cached (σ α : Type) where
  isCached : Bool
  cachedVal : α
  s : σ
  invoked : Nat

/-- One call of the cached supplier. -/
def Cached.call {σ : Type} (supplier : σ → Option α × σ) (c : Cached σ α) : Option α × Cached σ α :=
  if !c.isCached then
    match supplier c.s with
    | (some v, s') => (some v, ⟨true, v, s', c.invoked + 1⟩)
    | (none, s') => (none, ⟨c.isCached, c.cachedVal, s', c.invoked + 1⟩)
  else (some c.cachedVal, c)

/-- A sequence of calls. -/
def Cached.calls {σ : Type} (supplier : σ → Option α × σ) : Nat → Cached σ α → List (Option α) × Cached σ α
  | 0, c => ([], c)
  | n + 1, c =>
    let (r, c') := c.call supplier
    let (rs, c'') := Cached.calls supplier n c'
    (r :: rs, c'')

/-! ### Names. Strings are byte lists. -/

/-- UTF-8 encoding of a code point below 0x800. -/
def enc2 (c : Nat) : List Nat := if c < 0x80 then [c] else [0xC0 + c / 64, 0x80 + c % 64]

/-- `strings.ToUpper(string(b))` for a byte b: the byte is taken as a code point (Latin-1). -/
def upperByte (b : Nat) : List Nat :=
  if 97 ≤ b ∧ b ≤ 122 then [b - 32]
  else if b = 0xB5 then enc2 0x39C
  else if b = 0xFF then enc2 0x178
  else if 0xE0 ≤ b ∧ b ≤ 0xFE ∧ b ≠ 0xF7 then enc2 (b - 32)
  else enc2 b

/-- `strings.ToLower(string(b))` for an upper case ASCII letter. -/
def lowerByte (b : Nat) : Nat := if 65 ≤ b ∧ b ≤ 90 then b + 32 else b

/-- `strings.Split(s, "_")`. -/
def splitUnderscore : List Nat → List Nat → List (List Nat)
  | cur, [] => [cur]
  | cur, b :: bs => if b = 95 then cur :: splitUnderscore [] bs else splitUnderscore (cur ++ [b]) bs

/-- funcs/funcs.go:1367-1375 `SnakeToCamelCase`: the loop over the words; `word[0]` panics for an empty
word. -/
def snakeLoop (sb : List Nat) : List (List Nat) → Option (List Nat)
  | [] => some sb
  | [] :: _ => none
  | (w0 :: w) :: ws => snakeLoop (sb ++ upperByte w0 ++ w) ws

/-- funcs/funcs.go:1367-1375 `SnakeToCamelCase`. -/
def snakeToCamel (snake : List Nat) : Option (List Nat) := snakeLoop [] (splitUnderscore [] snake)

/-- Lower case ASCII letter. -/
def isLower (b : Nat) : Bool := 97 ≤ b && b ≤ 122
/-- Upper case ASCII letter. -/
def isUpper (b : Nat) : Bool := 65 ≤ b && b ≤ 90

/-- funcs/funcs.go:38-41 camelWordsRegexp `[A-Z][a-z]*`, `FindAllString(s, -1)`: leftmost, longest
non-overlapping matches. -/
def camelWords : List Nat → List (List Nat)
  | [] => []
  | b :: bs =>
    if isUpper b then (b :: bs.takeWhile isLower) :: camelWords (bs.dropWhile isLower)
    else camelWords bs
termination_by s => s.length
decreasing_by
  · have := (List.dropWhile_suffix isLower (l := bs)).length_le
    simp; omega
  · simp

/-- funcs/funcs.go:1385-1391: the loop joining the words. -/
def camelJoin : List (List Nat) → List Nat
  | [] => []
  | [w] => (match w with | [] => [] | w0 :: w => lowerByte w0 :: w)
  | w :: ws => (match w with | [] => [] | w0 :: w => lowerByte w0 :: w) ++ 95 :: camelJoin ws

/-- funcs/funcs.go:1378-1394 `CamelCaseToSnakeCase`; `camel[0]` panics for the empty string. -/
def camelToSnake (camel : List Nat) : Option (List Nat) :=
  match camel with
  | [] => none
  | c0 :: cs => some (camelJoin (camelWords (upperByte c0 ++ cs)))

end Micro.Funcs
