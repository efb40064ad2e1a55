/-
Model of TryTo and IgnoreResult (funcs/funcs.go) with functions that have effects: all of them work on a world W, what each does may depend on what
the ones before it did, closers may call recover, and any of them may end the goroutine with runtime.Goexit (as FailNow of package testing does).
-/
namespace Micro.Funcs.Try

variable {W P R : Type}

/-- How a call ends: it returns, panics with a value (nil: none), or ends the goroutine (runtime.Goexit). -/
inductive Fin (P : Type) where
  | returned
  | panicked (v : Option P)
  | exited
  deriving DecidableEq

/-- A func(). -/
abbrev Fun (W P : Type) := W → Fin P × W

/-- What a function called directly by a defer statement does: it ends without calling recover, or it calls recover and goes on with the value it
got (nil: none). Further calls of recover return nil and need not be told apart. -/
inductive Body (W P : Type) where
  | done (f : Fin P) (w : W)
  | recover (k : Option P → Fin P × W)

/-- A func() that is deferred. -/
abbrev Closer (W P : Type) := W → Body W P

/-- funcs/funcs.go:1324-1328 `IgnoreResult`: the generated func() calls fn and drops what it returns. fn is a func() T that ends with a result,
or with a panic or Goexit. It does not call recover on behalf of the generated function (recover works only in the deferred function itself). -/
def ignoreResult (fn : W → (R ⊕ Fin P) × W) : Closer W P := fun w =>
  match fn w with
  | (.inl _, w') => .done .returned w'
  | (.inr f, w') => .done f w'

/-- The state of a goroutine that runs deferred functions (Go language): the value of the panic in progress, and whether Goexit is in progress. -/
structure St (P : Type) where
  pending : Option (Option P)
  exiting : Bool

/-- A function ends: a new panic replaces the one in progress, Goexit aborts it (Go language). -/
def St.after (s : St P) : Fin P → St P
  | .returned => s
  | .panicked v => { s with pending := some v }
  | .exited => ⟨none, true⟩

/-- One call made by TryTo: tryFn (none) or the closer with some index, the world before and after, how it ended, whether it called recover. -/
structure Ran (W P : Type) where
  who : Option Nat
  before : W
  after : W
  fin : Fin P
  recovered : Bool

/-- The call of a deferred closer; calling a nil function panics with a runtime error (Go language). -/
def runCloser (nilCall : P) (i : Nat) (c : Option (Closer W P)) (s : St P) (w : W) : Ran W P × St P :=
  match c with
  | none => (⟨some i, w, w, .panicked (some nilCall), false⟩, s.after (.panicked (some nilCall)))
  | some c =>
    match c w with
    | .done f w' => (⟨some i, w, w', f, false⟩, s.after f)
    | .recover k => (⟨some i, w, (k s.pending.join).2, (k s.pending.join).1, true⟩, ({ s with pending := none } : St P).after (k s.pending.join).1)

/-- The deferred closers, top of the stack first. -/
def runClosers (nilCall : P) : List (Nat × Option (Closer W P)) → St P → W → List (Ran W P) × St P × W
  | [], s, w => ([], s, w)
  | (i, c) :: rest, s, w =>
    ((runCloser nilCall i c s w).1 :: (runClosers nilCall rest (runCloser nilCall i c s w).2 (runCloser nilCall i c s w).1.after).1,
      (runClosers nilCall rest (runCloser nilCall i c s w).2 (runCloser nilCall i c s w).1.after).2)

/-- funcs/funcs.go:1357-1359: the loop that defers the closers; the stack, top first. -/
def deferAll (stack : List (Nat × Option (Closer W P))) (i : Nat) : List (Option (Closer W P)) → List (Nat × Option (Closer W P))
  | [] => stack
  | c :: cs => deferAll ((i, c) :: stack) (i + 1) cs

/-- What a call of TryTo did: the calls of tryFn and the closers in order, the value panicFn was called with and the world it started in, how
TryTo itself ended, and the world afterwards. -/
structure Result (W P : Type) where
  runs : List (Ran W P)
  handled : Option (P × W)
  fin : Fin P
  world : W

/-- funcs/funcs.go:1362: the call of tryFn. -/
def runTry (nilCall : P) (tryFn : Option (Fun W P)) (w : W) : Ran W P :=
  match tryFn with
  | none => ⟨none, w, w, .panicked (some nilCall), false⟩
  | some f => ⟨none, w, (f w).2, (f w).1, false⟩

/-- The call of panicFn in the function deferred first; a nil panicFn panics itself. -/
def runHandler (nilCall : P) (panicFn : Option (P → Fun W P)) (v : P) (w : W) : Fin P × W :=
  match panicFn with
  | none => (.panicked (some nilCall), w)
  | some h => h v w

/-- How TryTo ends when its last deferred function has ended like this: Goexit in progress goes on (Go language). -/
def Fin.resume (exiting : Bool) : Fin P → Fin P
  | .returned => if exiting then .exited else .returned
  | f => f

/-- funcs/funcs.go:1348-1363 `TryTo`. After the closers, the function deferred first calls recover, which ends the panic in progress; if its value is
not nil panicFn is called. -/
def tryTo (nilCall : P) (tryFn : Option (Fun W P)) (panicFn : Option (P → Fun W P)) (closers : List (Option (Closer W P))) (w : W) : Result W P :=
  let t := runTry nilCall tryFn w
  let c := runClosers nilCall (deferAll [] 0 closers) ((⟨none, false⟩ : St P).after t.fin) t.after
  match c.2.1.pending with
  | some (some v) =>
    let h := runHandler nilCall panicFn v c.2.2
    ⟨t :: c.1, some (v, c.2.2), h.1.resume c.2.1.exiting, h.2⟩
  | _ => ⟨t :: c.1, none, Fin.returned.resume c.2.1.exiting, c.2.2⟩

end Micro.Funcs.Try
