import Verif.Stream.CrashModel
set_option linter.unusedSimpArgs false
/-
C142: functions with effects, and panics, in pipelines.
-/
namespace Micro.Stream.Crash
open Micro Micro.Iter

variable {P σ η ℓ φ α β γ : Type}

/-! ### Specification -/

/-- Calling Next over and over (recovering from panics) gives these values (ok) and panics (error), then the error e. -/
inductive Ends (nx : PCall P σ α) : σ → List (Except P α) → Err → σ → Prop where
  | stop {s s' e} : nx s = some (.err e, s') → Ends nx s [] e s'
  | val {s s1 s' v gs e} : nx s = some (.val v, s1) → Ends nx s1 gs e s' → Ends nx s (.ok v :: gs) e s'
  | panic {s s1 s' p gs e} : nx s = some (.panic p, s1) → Ends nx s1 gs e s' → Ends nx s (.error p :: gs) e s'

/-- A source that works on its own part of the world. -/
def onSource (nx : PCall P σ α) : PCall P (σ × φ) α := fun (s, c) =>
  match nx s with
  | none => none
  | some (g, s') => some (g, (s', c))

/-- A function that works on its own part of the world. -/
def onState (f : Fn P φ α β) : Fn P (σ × φ) α β := fun v (s, c) => ((f v c).1, (s, (f v c).2))

/-- The same for a reducer. -/
def onState2 (f : β → Fn P φ α β) : β → Fn P (σ × φ) α β := fun b => onState (f b)

/-- f called once for each value, in order; a panic of f takes the place of the value, panics of the source go through. -/
def mapSpec (f : Fn P φ α β) : List (Except P α) → φ → List (Except P β) × φ
  | [], c => ([], c)
  | .error p :: gs, c => (.error p :: (mapSpec f gs c).1, (mapSpec f gs c).2)
  | .ok v :: gs, c => ((f v c).1 :: (mapSpec f gs (f v c).2).1, (mapSpec f gs (f v c).2).2)

/-- p called once for each value, in order. -/
def filterSpec (p : Fn P φ α Bool) : List (Except P α) → φ → List (Except P α) × φ
  | [], c => ([], c)
  | .error q :: gs, c => (.error q :: (filterSpec p gs c).1, (filterSpec p gs c).2)
  | .ok v :: gs, c =>
    match (p v c).1 with
    | .ok true => (.ok v :: (filterSpec p gs (p v c).2).1, (filterSpec p gs (p v c).2).2)
    | .ok false => filterSpec p gs (p v c).2
    | .error q => (.error q :: (filterSpec p gs (p v c).2).1, (filterSpec p gs (p v c).2).2)

/-- A left fold up to the first panic: the result or the panic, and what is left of the source (none: it was read to its end). -/
def foldSpec (f : β → Fn P φ α β) : β → List (Except P α) → φ → Except P β × φ × Option (List (Except P α))
  | b, [], c => (.ok b, c, none)
  | _, .error p :: gs, c => (.error p, c, some gs)
  | b, .ok v :: gs, c =>
    match (f b v c).1 with
    | .ok b' => foldSpec f b' gs (f b v c).2
    | .error p => (.error p, (f b v c).2, some gs)

/-- The predicate called up to the first panic or the first result that equals stop. -/
def boolSpec (p : Fn P φ α Bool) (stop : Bool) : Bool → List (Except P α) → φ → Except P Bool × φ × Option (List (Except P α))
  | r, [], c => (.ok r, c, none)
  | _, .error q :: gs, c => (.error q, c, some gs)
  | _, .ok v :: gs, c =>
    match (p v c).1 with
    | .ok b => if b = stop then (.ok b, (p v c).2, some gs) else boolSpec p stop b gs (p v c).2
    | .error q => (.error q, (p v c).2, some gs)

/-- The first m values are dropped; panics go through. -/
def skipSpec : Nat → List (Except P α) → List (Except P α)
  | 0, gs => gs
  | _ + 1, [] => []
  | n + 1, .error p :: gs => .error p :: skipSpec (n + 1) gs
  | n + 1, .ok _ :: gs => skipSpec n gs

/-- Up to n values; panics go through and do not count. What is left of the source (none: it was read to its end). -/
def limitSpec : Nat → List (Except P α) → List (Except P α) × Option (List (Except P α))
  | 0, gs => ([], some gs)
  | _ + 1, [] => ([], none)
  | n + 1, .error p :: gs => (.error p :: (limitSpec (n + 1) gs).1, (limitSpec (n + 1) gs).2)
  | n + 1, .ok v :: gs => (.ok v :: (limitSpec n gs).1, (limitSpec n gs).2)

/-- An iterator that has returned the error e. -/
def stopped (e : Err) : It ℓ α := ⟨none, [], some e⟩

/-- A result or a panic as seen by the caller of Next. -/
def got : Except P β → Got P β
  | .ok b => .val b
  | .error p => .panic p

/-- The outcome of the first Next of a reducing transform over a source that gives `gs`, then e: the result at the end of the source, or the error
of the source, or the early result or panic, with the source just behind the value it was reached at. In all cases nothing but EOI or that error
can follow (`c142_once`). -/
def First (nx : PCall P σ α) (e : Err) (s' : σ) (spec : Except P β × φ × Option (List (Except P α)))
    (res : Option (Got P β × (It Bool β × (σ × φ)))) : Prop :=
  match spec with
  | (r, c', none) => res = if e = .eoi then some (got r, (ofIter true, (s', c'))) else some (.err e, (stopped e, (s', c')))
  | (r, c', some gs) => ∃ s1, Ends nx s1 gs e s' ∧ res = some (got r, (ofIter true, (s1, c')))

/-- The source used in examples: a list of values and panics. -/
def listP : PCall P (List (Except P α)) α
  | [] => some (.err .eoi, [])
  | .ok v :: t => some (.val v, t)
  | .error p :: t => some (.panic p, t)

theorem listP_ends (gs : List (Except P α)) : Ends listP gs gs .eoi [] := by
  induction gs with
  | nil => exact .stop rfl
  | cons g gs ih =>
    cases g with
    | ok v => exact .val rfl ih
    | error p => exact .panic rfl ih

/-! ### One call -/

theorem nextP_fresh (call : PCall P (ℓ × η) α) (l : ℓ) (h : η) :
    nextP call (ofIter l, h) = match call (l, h) with
      | none => none
      | some (.val v, (l', h')) => some (.val v, (ofIter l', h'))
      | some (.err e, (_, h')) => some (.err e, (stopped e, h'))
      | some (.panic p, (l', h')) => some (.panic p, (ofIter l', h')) := by
  simp only [nextP, ofIter, List.getLast?_nil]
  rcases call (l, h) with _ | ⟨_ | _ | _, _, _⟩ <;> rfl

/-- C142: an iterator that has returned an error repeats it and touches nothing. -/
theorem c142_stopped (call : PCall P (ℓ × η) α) (e : Err) (h : η) : nextP call (stopped e, h) = some (.err e, (stopped e, h)) := rfl

/-- C142: Next yields the value unread last, without a call of the iterating function: it panics only when the buffer is empty. -/
theorem c142_unread (call : PCall P (ℓ × η) α) (it : It ℓ α) (v : α) (h : η) :
    nextP call ({ it with buffer := it.buffer ++ [v] }, h) = some (.val v, (it, h)) := by
  simp [nextP]

example := c142_unread (limitP (listP (P := String) (α := Nat))) (ofIter 1) 5 [.error "source"]

example := c142_stopped (limitP (listP (P := String) (α := Nat))) .eoi [.ok 1]

/-! ### Map, MapError, Peek, Filter -/

/-- C142: Map calls its function once for each value of the source, in order, when it is asked for it. If the function (or the source) panics and the
caller recovers, Map goes on with the next value: no value is mapped twice, only the one that made the function panic is missing. -/
theorem c142_map (f : Fn P φ α β) (nx : PCall P σ α) (s s' : σ) (gs : List (Except P α)) (e : Err) (c : φ) (h : Ends nx s gs e s') :
    Ends (nextP (mapP (onState f) (onSource nx))) (ofIter (), (s, c)) (mapSpec f gs c).1 e (stopped e, (s', (mapSpec f gs c).2)) := by
  induction h generalizing c with
  | stop hn => exact .stop (by simp [nextP_fresh, mapP, onSource, hn, mapSpec])
  | @val s s1 s' v gs e hn _ ih =>
    have ih := ih (f v c).2
    simp only [mapSpec]
    rcases hf : f v c with ⟨_ | _, c'⟩
    · rw [hf] at ih
      exact .panic (by simp [nextP_fresh, mapP, onSource, onState, hn, hf]) ih
    · rw [hf] at ih
      exact .val (by simp [nextP_fresh, mapP, onSource, onState, hn, hf]) ih
  | panic hn _ ih => exact .panic (by simp [nextP_fresh, mapP, onSource, hn]) (ih c)

/-- Adds to a log; panics on 3. -/
private def logged : Fn String (List Nat) Nat Nat := fun v log => (if v = 3 then .error "three" else .ok (v * 2), log ++ [v])

example : Ends (nextP (mapP (onState logged) (onSource listP))) (ofIter (), ([.ok 1, .ok 3, .error "source", .ok 4], []))
    [.ok 2, .error "three", .error "source", .ok 8] .eoi (stopped .eoi, ([], [1, 3, 4])) :=
  c142_map logged listP _ _ _ _ [] (listP_ends [.ok 1, .ok 3, .error "source", .ok 4])

/-- C142: Peek calls its function once for each value of the source, in order, before it yields the value; a panic takes the place of the value. -/
theorem c142_peek (f : Fn P φ α Unit) (nx : PCall P σ α) (s s' : σ) (gs : List (Except P α)) (e : Err) (c : φ) (h : Ends nx s gs e s') :
    let f' : Fn P φ α α := fun v c => (match (f v c).1 with | .ok _ => .ok v | .error p => .error p, (f v c).2)
    Ends (nextP (peekP (onState f) (onSource nx))) (ofIter (), (s, c)) (mapSpec f' gs c).1 e (stopped e, (s', (mapSpec f' gs c).2)) := by
  intro f'
  have key : peekP (onState (σ := σ) f) (onSource nx) = mapP (onState f') (onSource nx) := by
    funext ⟨u, st⟩
    obtain ⟨s, c⟩ := st
    simp only [peekP, mapP]
    rcases onSource nx (s, c) with _ | ⟨_ | _ | _, s1, c1⟩
    · rfl
    · rename_i v
      simp only [onState, f']
      rcases f v c1 with ⟨_ | _, _⟩ <;> rfl
    · rfl
    · rfl
  rw [key]
  exact c142_map f' nx s s' gs e c h

example := c142_peek (fun v (log : List Nat) => (.ok (), log ++ [v])) listP _ _ _ _ [] (listP_ends [.ok 1, .ok 3, .error "source", .ok 4])

/-- C142: Filter calls its predicate once for each value of the source, in order; a panic of the predicate (or the source) ends the call, and the next
call goes on with the next value. -/
theorem c142_filter (p : Fn P φ α Bool) (nx : PCall P σ α) (s s' : σ) (gs : List (Except P α)) (e : Err) (c : φ) (h : Ends nx s gs e s') :
    Ends (nextP (filterP (onState p) (onSource nx))) (ofIter (), (s, c)) (filterSpec p gs c).1 e (stopped e, (s', (filterSpec p gs c).2)) := by
  induction h generalizing c with
  | stop hn => exact .stop (by rw [nextP_fresh, filterP]; simp [onSource, hn, filterSpec])
  | @val s s1 s' v gs e hn _ ih =>
    have ih := ih (p v c).2
    simp only [filterSpec]
    rcases hf : p v c with ⟨q | b, c'⟩
    · rw [hf] at ih
      exact .panic (by rw [nextP_fresh, filterP]; simp [onSource, onState, hn, hf]) ih
    · rw [hf] at ih
      cases b with
      | true => exact .val (by rw [nextP_fresh, filterP]; simp [onSource, onState, hn, hf]) ih
      | false =>
        have hs : filterP (onState p) (onSource nx) ((), (s, c)) = filterP (onState p) (onSource nx) ((), (s1, c')) := by
          rw [filterP]; simp [onSource, onState, hn, hf]
        have hn' : nextP (filterP (onState p) (onSource nx)) (ofIter (), (s, c)) =
            nextP (filterP (onState p) (onSource nx)) (ofIter (), (s1, c')) := by
          rw [nextP_fresh, nextP_fresh, hs]
        simp only at ih ⊢
        revert ih
        generalize (filterSpec p gs c').1 = outs
        generalize (filterSpec p gs c').2 = cc
        intro ih
        cases ih with
        | stop k => exact .stop (hn'.trans k)
        | val k k' => exact .val (hn'.trans k) k'
        | panic k k' => exact .panic (hn'.trans k) k'
  | panic hn _ ih => exact .panic (by rw [nextP_fresh, filterP]; simp [onSource, hn]) (ih c)

/-- Adds to a log; panics on 3; keeps even numbers. -/
private def even : Fn String (List Nat) Nat Bool := fun v log => (if v = 3 then .error "three" else .ok (v % 2 == 0), log ++ [v])

example : Ends (nextP (filterP (onState even) (onSource listP))) (ofIter (), ([.ok 1, .ok 2, .ok 3, .error "source", .ok 4, .ok 5], []))
    [.ok 2, .error "three", .error "source", .ok 4] .eoi (stopped .eoi, ([], [1, 2, 3, 4, 5])) :=
  c142_filter even listP _ _ _ _ [] (listP_ends [.ok 1, .ok 2, .ok 3, .error "source", .ok 4, .ok 5])

theorem mapError_prefix (f : Fn P φ α (Except Err β)) (nx : PCall P σ α) (s s' : σ) (gs tail : List (Except P α)) (e : Err) (c c' : φ)
    (h : Ends nx s (gs ++ tail) e s') (outs : List (Except P β)) (hm : mapSpec f gs c = (outs.map (Except.map .ok), c')) :
    ∃ t, Ends nx t tail e s' ∧ ∀ outs2 e' fin, Ends (nextP (mapErrorP (onState f) (onSource nx))) (ofIter (), (t, c')) outs2 e' fin →
      Ends (nextP (mapErrorP (onState f) (onSource nx))) (ofIter (), (s, c)) (outs ++ outs2) e' fin := by
  induction gs generalizing s c outs with
  | nil =>
    simp only [mapSpec, Prod.mk.injEq] at hm
    obtain ⟨h1, rfl⟩ := hm
    have : outs = [] := by simpa using h1.symm
    subst this
    exact ⟨s, h, fun _ _ _ h => h⟩
  | cons g gs ih =>
    cases g with
    | error p =>
      simp only [List.cons_append] at h
      cases h with
      | @panic _ t _ _ _ _ hn ht =>
        simp only [mapSpec, Prod.mk.injEq] at hm
        obtain ⟨h1, h2⟩ := hm
        cases outs with
        | nil => simp at h1
        | cons o outs =>
          simp only [List.map_cons, List.cons.injEq] at h1
          obtain ⟨w, k1, k2⟩ := ih t c ht outs (by rw [← h1.2, ← h2])
          cases o with
          | ok b => simp [Except.map] at h1
          | error q =>
            have : p = q := by simpa [Except.map] using h1.1
            subst this
            exact ⟨w, k1, fun o2 e' fin k => .panic (by simp [nextP_fresh, mapErrorP, onSource, hn]) (k2 o2 e' fin k)⟩
    | ok x =>
      simp only [List.cons_append] at h
      cases h with
      | @val _ t _ _ _ _ hn ht =>
        simp only [mapSpec, Prod.mk.injEq] at hm
        obtain ⟨h1, h2⟩ := hm
        cases outs with
        | nil => simp at h1
        | cons o outs =>
          simp only [List.map_cons, List.cons.injEq] at h1
          obtain ⟨w, k1, k2⟩ := ih t (f x c).2 ht outs (by rw [← h1.2, ← h2])
          rcases hf : f x c with ⟨q | y, d⟩
          · rw [hf] at h1 k2
            cases o with
            | ok b => simp [Except.map] at h1
            | error q' =>
              have : q = q' := by simpa [Except.map] using h1.1
              subst this
              exact ⟨w, k1, fun o2 e' fin k => .panic (by simp [nextP_fresh, mapErrorP, onSource, onState, hn, hf]) (k2 o2 e' fin k)⟩
          · rw [hf] at h1 k2
            cases o with
            | error q' => simp [Except.map] at h1
            | ok b =>
              have : y = .ok b := by simpa [Except.map] using h1.1
              subst this
              exact ⟨w, k1, fun o2 e' fin k => .val (by simp [nextP_fresh, mapErrorP, onSource, onState, hn, hf]) (k2 o2 e' fin k)⟩

/-- C142: MapError calls its function once for each value, in order. While it returns no errors it is like Map (panics included); the first value for
which it returns an error ends the sequence with that error, and the source is left just behind that value. -/
theorem c142_mapError (f : Fn P φ α (Except Err β)) (nx : PCall P σ α) (s s' : σ) (gs : List (Except P α)) (e : Err) (c c' : φ)
    (outs : List (Except P β)) (hm : mapSpec f gs c = (outs.map (Except.map .ok), c')) :
    (Ends nx s gs e s' →
      Ends (nextP (mapErrorP (onState f) (onSource nx))) (ofIter (), (s, c)) outs e (stopped e, (s', c'))) ∧
    (∀ v gs' e', Ends nx s (gs ++ .ok v :: gs') e s' → (f v c').1 = .ok (.error e') → ∃ t, Ends nx t gs' e s' ∧
      Ends (nextP (mapErrorP (onState f) (onSource nx))) (ofIter (), (s, c)) outs e' (stopped e', (t, (f v c').2))) := by
  constructor
  · intro h
    obtain ⟨t, k1, k2⟩ := mapError_prefix f nx s s' gs [] e c c' (by simpa using h) outs hm
    cases k1 with
    | stop hn => simpa using k2 [] e _ (.stop (by simp [nextP_fresh, mapErrorP, onSource, hn]))
  · intro v gs' e' h hv
    obtain ⟨t, k1, k2⟩ := mapError_prefix f nx s s' gs _ e c c' h outs hm
    cases k1 with
    | @val _ t' _ _ _ _ hn ht =>
      refine ⟨t', ht, ?_⟩
      have := k2 [] e' (stopped e', (t', (f v c').2)) (.stop ?_)
      · simpa using this
      · rcases hf : f v c' with ⟨_ | x, d⟩
        · rw [hf] at hv; cases hv
        · rw [hf] at hv
          cases hv
          simp [nextP_fresh, mapErrorP, onSource, onState, hn, hf]

/-- Adds to a log; panics on 3, an error on 5. -/
private def strict : Fn String (List Nat) Nat (Except Err Nat) := fun v log =>
  (if v = 3 then .error "three" else if v = 5 then .ok (.error .overflow) else .ok (.ok (v * 2)), log ++ [v])

example : ∃ t, Ends listP t [.ok 7] .eoi [] ∧
    Ends (nextP (mapErrorP (onState strict) (onSource listP))) (ofIter (), ([.ok 1, .ok 3, .ok 5, .ok 7], [])) [.ok 2, .error "three"] .overflow
      (stopped .overflow, (t, [1, 3, 5])) :=
  (c142_mapError strict listP [.ok 1, .ok 3, .ok 5, .ok 7] [] [.ok 1, .ok 3] .eoi [] [1, 3] [.ok 2, .error "three"] rfl).2 5 [.ok 7] .overflow
    (listP_ends [.ok 1, .ok 3, .ok 5, .ok 7]) rfl

/-! ### The order of the calls of different functions -/

/-- f, then g. -/
def andThen (f : Fn P η α β) (g : Fn P η β γ) : Fn P η α γ := fun v h =>
  match f v h with
  | (.ok u, h') => g u h'
  | (.error p, h') => (.error p, h')

/-- A function on the world seen by an iterator that has another one as its source. -/
def above (g : Fn P η β γ) : Fn P (It Unit β × η) β γ := fun v (it, h) => ((g v h).1, (it, (g v h).2))

/-- C142: Map(f) followed by Map(g), with functions and source that work on one shared world: value by value, f and then g. Whatever the source does,
and however often Next is called, it is as if Map had been given the function "f, then g": the same results, panics and world. -/
theorem c142_fusion (f : Fn P η α β) (g : Fn P η β γ) (next : PCall P η α) (n : Nat) (h : η) :
    (calls (nextP (mapP (above g) (nextP (mapP f next)))) n (ofIter (), (ofIter (), h))).map (fun r => (r.1, r.2.2.2)) =
    (calls (nextP (mapP (andThen f g) next)) n (ofIter (), h)).map (fun r => (r.1, r.2.2)) := by
  have fin : ∀ n (e : Err) (it : It Unit β) (h : η),
      (calls (nextP (mapP (above g) (nextP (mapP f next)))) n (stopped e, (it, h))).map (fun r => (r.1, r.2.2.2)) =
      (calls (nextP (mapP (andThen f g) next)) n (stopped e, h)).map (fun r => (r.1, r.2.2)) := by
    intro n
    induction n with
    | zero => intro e it h; rfl
    | succ n ih =>
      intro e it h
      have := ih e it h
      simp only [calls, c142_stopped, Option.map_map, Function.comp_def] at this ⊢
      rcases h1 : calls (nextP (mapP (above g) (nextP (mapP f next)))) n (stopped e, (it, h)) with _ | ⟨r, _, _, _⟩ <;>
      rcases h2 : calls (nextP (mapP (andThen f g) next)) n (stopped e, h) with _ | ⟨r', _, _⟩ <;> simp_all
  induction n generalizing h with
  | zero => rfl
  | succ n ih =>
    have step : ∀ (gt : Got P γ) (a : It Unit γ × It Unit β × η) (b : It Unit γ × η),
        (calls (nextP (mapP (above g) (nextP (mapP f next)))) n a).map (fun r => (r.1, r.2.2.2)) =
          (calls (nextP (mapP (andThen f g) next)) n b).map (fun r => (r.1, r.2.2)) →
        ((calls (nextP (mapP (above g) (nextP (mapP f next)))) n a).map (fun (gs, s'') => (gt :: gs, s''))).map (fun r => (r.1, r.2.2.2)) =
          ((calls (nextP (mapP (andThen f g) next)) n b).map (fun (gs, s'') => (gt :: gs, s''))).map (fun r => (r.1, r.2.2)) := by
      intro gt a b hab
      rcases h1 : calls (nextP (mapP (above g) (nextP (mapP f next)))) n a with _ | ⟨r, _, _, _⟩ <;>
      rcases h2 : calls (nextP (mapP (andThen f g) next)) n b with _ | ⟨r', _, _⟩ <;> simp_all
    simp only [calls, nextP_fresh, mapP]
    rcases next h with _ | ⟨v | e | p, h1⟩
    · rfl
    · simp only [andThen]
      rcases hf : f v h1 with ⟨p | u, h2⟩
      · exact step _ _ _ (ih h2)
      · simp only [above]
        rcases hg : g u h2 with ⟨p | w, h3⟩
        · exact step _ _ _ (ih h3)
        · exact step _ _ _ (ih h3)
    · exact step _ _ _ (fin n e _ h1)
    · exact step _ _ _ (ih h1)

/-- Non-vacuity: two functions that write to one log. -/
example : calls (nextP (mapP (above (fun v (h : List (Except String Nat) × List (Char × Nat)) => (.ok (v + 1), (h.1, h.2 ++ [('g', v)]))))
      (nextP (mapP (fun v h => (if v = 3 then .error "three" else .ok (10 * v), (h.1, h.2 ++ [('f', v)]))) (onSource listP)))))
    3 (ofIter (), (ofIter (), ([.ok 1, .ok 3, .ok 4], []))) =
    some ([.val 11, .panic "three", .val 41], (ofIter (), (ofIter (), ([], [('f', 1), ('g', 10), ('f', 3), ('f', 4), ('g', 40)])))) := rfl

/-! ### Reducing -/

theorem fold_spec (f : β → Fn P φ α β) (nx : PCall P σ α) (s s' : σ) (gs : List (Except P α)) (e : Err) (h : Ends nx s gs e s') :
    ∀ (b : β) (c : φ), match foldSpec f b gs c with
      | (.ok r, c', none) => foldP (onSource nx) (onState2 f) b (s, c) = some (if e = .eoi then .val r else .err e, (s', c'))
      | (.error _, _, none) => False
      | (r, c', some rest) => ∃ s1, Ends nx s1 rest e s' ∧ foldP (onSource nx) (onState2 f) b (s, c) = some (got r, (s1, c')) := by
  induction h with
  | @stop s s' e hn =>
    intro b c
    simp only [foldSpec]
    rw [foldP]
    by_cases he : e = .eoi <;> simp [onSource, hn, he]
  | @val s s1 s' v gs e hn _ ih =>
    intro b c
    simp only [foldSpec]
    rcases hf : f b v c with ⟨p | b', c'⟩
    · refine ⟨s1, by assumption, ?_⟩
      rw [foldP]; simp [onSource, onState2, onState, hn, hf, got]
    · have := ih b' c'
      have e1 : foldP (onSource nx) (onState2 f) b (s, c) = foldP (onSource nx) (onState2 f) b' (s1, c') := by
        rw [foldP]; simp [onSource, onState2, onState, hn, hf]
      rw [e1]
      exact this
  | @panic s s1 s' p gs e hn h' _ =>
    intro b c
    refine ⟨s1, h', ?_⟩
    rw [foldP]; simp [onSource, hn, got]

private theorem first_of_fold {f : β → Fn P φ α β} {nx : PCall P σ α} {s s' : σ} {gs : List (Except P α)} {e : Err} (h : Ends nx s gs e s')
    (b : β) (c : φ) (call : PCall P (Bool × (σ × φ)) β) (l : Bool) (w : σ × φ)
    (hc : call (l, w) = nowDone (foldP (onSource nx) (onState2 f) b (s, c))) :
    First nx e s' (foldSpec f b gs c) (nextP call (ofIter l, w)) := by
  have := fold_spec f nx s s' gs e h b c
  rw [nextP_fresh, hc]
  rcases hs : foldSpec f b gs c with ⟨p | r, c', _ | rest⟩
  · rw [hs] at this; exact absurd this id
  · rw [hs] at this
    obtain ⟨s1, k1, k2⟩ := this
    exact ⟨s1, k1, by rw [k2]; rfl⟩
  · rw [hs] at this
    simp only at this
    rw [this]
    by_cases he : e = .eoi <;> simp [First, he, nowDone, got]
  · rw [hs] at this
    obtain ⟨s1, k1, k2⟩ := this
    exact ⟨s1, k1, by rw [k2]; rfl⟩

/-- C142: ReduceTo with an identity. The reducer is called once for each value, in order. If it or the source panics, the call of Next panics, and no
value after that point is read. (After that only EOI follows: `c142_once`.) -/
theorem c142_reduceTo (zv idv : β) (f : β → Fn P φ α β) (nx : PCall P σ α) (s s' : σ) (gs : List (Except P α)) (e : Err) (c : φ)
    (h : Ends nx s gs e s') :
    First nx e s' (foldSpec f idv gs c) (nextP (reduceToP zv (onState2 f) (some idv) (onSource nx)) (ofIter false, (s, c))) := by
  apply first_of_fold h
  simp only [reduceToP, Bool.false_eq_true, if_false]
  rw [foldP]
  rcases onSource nx (s, c) with _ | ⟨v | e1 | p, w⟩
  · rfl
  · simp only
    rcases onState2 f idv v w with ⟨_ | _, _⟩ <;> rfl
  · by_cases he : e1 = .eoi <;> simp [he, nowDone]
  · rfl

/-- C142: ReduceTo without identity starts with the zero value; without values it returns the error of the source. -/
theorem c142_reduceTo_zero (zv : β) (f : β → Fn P φ α β) (nx : PCall P σ α) (s s' : σ) (gs : List (Except P α)) (e : Err) (c : φ)
    (h : Ends nx s gs e s') :
    if gs = [] then nextP (reduceToP zv (onState2 f) none (onSource nx)) (ofIter false, (s, c)) = some (.err e, (stopped e, (s', c)))
    else First nx e s' (foldSpec f zv gs c) (nextP (reduceToP zv (onState2 f) none (onSource nx)) (ofIter false, (s, c))) := by
  by_cases hg : gs = []
  · subst hg
    rw [if_pos rfl]
    cases h with
    | stop hn => simp [nextP_fresh, reduceToP, onSource, hn]
  · rw [if_neg hg]
    apply first_of_fold h
    simp only [reduceToP, Bool.false_eq_true, if_false]
    rw [foldP]
    cases h with
    | stop hn => exact absurd rfl hg
    | @val _ _ _ v _ _ hn _ =>
      simp only [onSource, hn]
      rename_i s1 _ _
      rcases onState2 f zv v (s1, c) with ⟨_ | _, _⟩ <;> rfl
    | panic hn _ => simp [onSource, hn, nowDone]

/-- C142: Reduce with an identity is a fold from it; without one it starts with the first value. -/
theorem c142_reduce (f : α → Fn P φ α α) (nx : PCall P σ α) (s s' : σ) (gs : List (Except P α)) (e : Err) (c : φ) (h : Ends nx s gs e s') :
    (∀ idv, First nx e s' (foldSpec f idv gs c) (nextP (reduceP (onState2 f) (some idv) (onSource nx)) (ofIter false, (s, c)))) ∧
    (match gs with
      | [] => nextP (reduceP (onState2 f) none (onSource nx)) (ofIter false, (s, c)) = some (.err e, (stopped e, (s', c)))
      | .error p :: rest => First nx e s' (Except.error p, c, some rest) (nextP (reduceP (onState2 f) none (onSource nx)) (ofIter false, (s, c)))
      | .ok v :: rest => First nx e s' (foldSpec f v rest c) (nextP (reduceP (onState2 f) none (onSource nx)) (ofIter false, (s, c)))) := by
  constructor
  · intro idv
    apply first_of_fold h
    simp only [reduceP, Bool.false_eq_true, if_false]
    rw [foldP]
    rcases onSource nx (s, c) with _ | ⟨v | e1 | p, w⟩
    · rfl
    · simp only
      rcases onState2 f idv v w with ⟨_ | _, _⟩ <;> rfl
    · by_cases he : e1 = .eoi <;> simp [he, nowDone]
    · rfl
  · cases h with
    | stop hn => simp [nextP_fresh, reduceP, onSource, hn]
    | @val _ s1 _ v _ _ hn h' =>
      simp only
      apply first_of_fold h'
      simp [reduceP, onSource, hn]
    | @panic _ s1 _ p _ _ hn h' =>
      refine ⟨s1, h', ?_⟩
      simp [nextP_fresh, reduceP, onSource, hn, got]

/-- C142: ReduceToSlice collects the values up to the first panic of its source; then the collected values are lost. -/
theorem c142_toSlice (nx : PCall P σ α) (s s' : σ) (gs : List (Except P α)) (e : Err) (c : φ) (h : Ends nx s gs e s') :
    First nx e s' (foldSpec (fun slc v c => (.ok (slc ++ [v]), c)) [] gs c) (nextP (reduceToSliceP (onSource nx)) (ofIter false, (s, c))) := by
  apply first_of_fold h
  simp only [reduceToSliceP, Bool.false_eq_true, if_false]
  rfl

theorem bool_spec (p : Fn P φ α Bool) (stop : Bool) (nx : PCall P σ α) (s s' : σ) (gs : List (Except P α)) (e : Err) (h : Ends nx s gs e s') :
    ∀ (b : Bool) (c : φ), match boolSpec p stop b gs c with
      | (.ok r, c', none) => boolLoopP (onSource nx) (onState p) stop b (s, c) = some (if e = .eoi then .val r else .err e, (s', c'))
      | (.error _, _, none) => False
      | (r, c', some rest) => ∃ s1, Ends nx s1 rest e s' ∧ boolLoopP (onSource nx) (onState p) stop b (s, c) = some (got r, (s1, c')) := by
  induction h with
  | @stop s s' e hn =>
    intro b c
    simp only [boolSpec]
    rw [boolLoopP]
    by_cases he : e = .eoi <;> simp [onSource, hn, he]
  | @val s s1 s' v gs e hn h' ih =>
    intro b c
    simp only [boolSpec]
    rcases hf : p v c with ⟨q | b', c'⟩
    · refine ⟨s1, h', ?_⟩
      rw [boolLoopP]; simp [onSource, onState, hn, hf, got]
    · by_cases hb : b' = stop
      · simp only [hb, if_true]
        refine ⟨s1, h', ?_⟩
        rw [boolLoopP]; simp [onSource, onState, hn, hf, got, hb]
      · simp only [hb, if_false]
        have := ih b' c'
        have e1 : boolLoopP (onSource nx) (onState p) stop b (s, c) = boolLoopP (onSource nx) (onState p) stop b' (s1, c') := by
          rw [boolLoopP]; simp [onSource, onState, hn, hf, hb]
        rw [e1]
        exact this
  | @panic s s1 s' q gs e hn h' _ =>
    intro b c
    refine ⟨s1, h', ?_⟩
    rw [boolLoopP]; simp [onSource, hn, got]

/-- C142: ReduceToBool (AllMatch, AnyMatch, NoneMatch) calls its predicate once for each value, in order, up to the value that decides, or that makes it
panic; values after that are not read. -/
theorem c142_toBool (p : Fn P φ α Bool) (identity stop : Bool) (nx : PCall P σ α) (s s' : σ) (gs : List (Except P α)) (e : Err) (c : φ)
    (h : Ends nx s gs e s') :
    First nx e s' (boolSpec p stop identity gs c) (nextP (reduceToBoolP (onState p) identity stop (onSource nx)) (ofIter false, (s, c))) := by
  have this := bool_spec p stop nx s s' gs e h identity c
  have hc : reduceToBoolP (onState p) identity stop (onSource nx) (false, (s, c)) =
      nowDone (boolLoopP (onSource nx) (onState p) stop identity (s, c)) := by
    simp only [reduceToBoolP, Bool.false_eq_true, if_false]
    rw [boolLoopP]
    rcases onSource nx (s, c) with _ | ⟨v | e1 | q, w⟩
    · rfl
    · simp only
      rcases onState p v w with ⟨_ | b, _⟩
      · rfl
      · by_cases hb : b = stop <;> simp [hb, nowDone]
    · by_cases he : e1 = .eoi <;> simp [he, nowDone]
    · rfl
  rw [nextP_fresh, hc]
  rcases hs : boolSpec p stop identity gs c with ⟨q | r, c', _ | rest⟩
  · rw [hs] at this; exact absurd this id
  · rw [hs] at this
    obtain ⟨s1, k1, k2⟩ := this
    exact ⟨s1, k1, by rw [k2]; rfl⟩
  · rw [hs] at this
    simp only at this
    rw [this]
    by_cases he : e = .eoi <;> simp [First, he, nowDone, got]
  · rw [hs] at this
    obtain ⟨s1, k1, k2⟩ := this
    exact ⟨s1, k1, by rw [k2]; rfl⟩

/-- C142: a reducing transform gets one chance. Once its first Next has returned or panicked, all further calls return EOI and touch neither the source
nor anything else: after a panic no result, right or wrong, is reported. -/
theorem c142_once (zv : β) (f : β → Fn P η α β) (g : α → Fn P η α α) (idb : Option β) (ida : Option α) (p : Fn P η α Bool) (i st : Bool)
    (next : PCall P η α) (w : η) :
    nextP (reduceToP zv f idb next) (ofIter true, w) = some (.err .eoi, (stopped .eoi, w)) ∧
    nextP (reduceP g ida next) (ofIter true, w) = some (.err .eoi, (stopped .eoi, w)) ∧
    nextP (reduceToSliceP next) (ofIter true, w) = some (.err .eoi, (stopped .eoi, w)) ∧
    nextP (reduceToBoolP p i st next) (ofIter true, w) = some (.err .eoi, (stopped .eoi, w)) := ⟨rfl, rfl, rfl, rfl⟩

/-- Adds, and adds to a log; panics on 3. -/
private def adding : Nat → Fn String (List Nat) Nat Nat := fun b v log => (if v = 3 then .error "three" else .ok (b + v), log ++ [v])

/-- Non-vacuity: summing 1, 2, 3, 4 with a reducer that panics on 3. -/
example : ∃ s1, Ends listP s1 [.ok 4] .eoi [] ∧
    nextP (reduceToP 0 (onState2 adding) (some 0) (onSource listP))
      (ofIter false, ([.ok 1, .ok 2, .ok 3, .ok 4], [])) = some (.panic "three", (ofIter true, (s1, [1, 2, 3]))) :=
  c142_reduceTo 0 0 adding listP
    [.ok 1, .ok 2, .ok 3, .ok 4] [] [.ok 1, .ok 2, .ok 3, .ok 4] .eoi [] (listP_ends _)
example := (c142_reduce adding listP
    [.ok 1, .ok 2] [] [.ok 1, .ok 2] .eoi [] (listP_ends _)).2
example := c142_reduceTo_zero 0 adding listP
    [.ok 1, .ok 2] [] [.ok 1, .ok 2] .eoi [] (listP_ends _)
example := c142_toSlice listP [.ok 1, .error "source", .ok 2] [] [.ok 1, .error "source", .ok 2] .eoi () (listP_ends _)
example : ∃ s1, Ends listP s1 [.ok 9] .eoi [] ∧
    nextP (reduceToBoolP (onState even) false true (onSource listP)) (ofIter false, ([.ok 1, .ok 5, .ok 2, .ok 9], [])) =
      some (.val true, (ofIter true, (s1, [1, 5, 2]))) :=
  c142_toBool even false true listP [.ok 1, .ok 5, .ok 2, .ok 9] [] [.ok 1, .ok 5, .ok 2, .ok 9] .eoi [] (listP_ends _)

/-! ### Skip and Limit -/

/-- C142: Skip over a source that panics: a panic neither counts as a skipped value nor makes Skip start anew. -/
theorem c142_skip (nx : PCall P σ α) (m : Nat) (s s' : σ) (gs : List (Except P α)) (e : Err) (h : Ends nx s gs e s') :
    Ends (nextP (skipP nx)) (ofIter m, s) (skipSpec m gs) e (stopped e, s') := by
  induction h generalizing m with
  | stop hn =>
    cases m <;> exact .stop (by simp [nextP_fresh, skipP, skipP.go, hn])
  | @val s s1 s' v gs e hn _ ih =>
    cases m with
    | zero => exact .val (by simp [nextP_fresh, skipP, skipP.go, hn]; rfl) (by simpa [skipSpec] using ih 0)
    | succ m =>
      have hs : nextP (skipP nx) (ofIter (m + 1), s) = nextP (skipP nx) (ofIter m, s1) := by
        rw [nextP_fresh, nextP_fresh]
        simp [skipP, skipP.go, hn]
      simp only [skipSpec]
      have := ih m
      revert this
      generalize skipSpec m gs = outs
      intro k
      cases k with
      | stop k => exact .stop (hs.trans k)
      | val k k' => exact .val (hs.trans k) k'
      | panic k k' => exact .panic (hs.trans k) k'
  | panic hn _ ih =>
    cases m with
    | zero => exact .panic (by simp [nextP_fresh, skipP, skipP.go, hn]; rfl) (by simpa [skipSpec] using ih 0)
    | succ m => exact .panic (by simp [nextP_fresh, skipP, skipP.go, hn]) (ih (m + 1))

example : Ends (nextP (skipP listP)) (ofIter 2, [.ok 1, .error "source", .ok 2, .ok 3]) [.error "source", .ok 3] .eoi (stopped .eoi, []) :=
  c142_skip listP 2 _ _ _ _ (listP_ends [.ok 1, .error "source", .ok 2, .ok 3])

/-- C142: Limit over a source that panics: a panic does not count as a value; when the limit is reached the rest of the source is not touched. -/
theorem c142_limit (nx : PCall P σ α) (m : Nat) (s s' : σ) (gs : List (Except P α)) (e : Err) (h : Ends nx s gs e s') :
    match limitSpec m gs with
    | (outs, none) => Ends (nextP (limitP nx)) (ofIter m, s) outs e (stopped e, s')
    | (outs, some rest) => ∃ t, Ends nx t rest e s' ∧ Ends (nextP (limitP nx)) (ofIter m, s) outs .eoi (stopped .eoi, t) := by
  induction gs generalizing m s with
  | nil =>
    cases m with
    | zero => exact ⟨s, h, .stop (by simp [nextP_fresh, limitP])⟩
    | succ m =>
      cases h with
      | stop hn => exact .stop (by simp [nextP_fresh, limitP, hn])
  | cons g gs ih =>
    cases m with
    | zero => exact ⟨s, h, .stop (by simp [nextP_fresh, limitP])⟩
    | succ m =>
      cases h with
      | @val _ s1 _ v _ _ hn h' =>
        have hs : nextP (limitP nx) (ofIter (m + 1), s) = some (.val v, (ofIter m, s1)) := by simp [nextP_fresh, limitP, hn]
        have := ih m s1 h'
        simp only [limitSpec]
        rcases hl : limitSpec m gs with ⟨outs, _ | rest⟩
        · rw [hl] at this
          exact .val hs this
        · rw [hl] at this
          obtain ⟨t, k1, k2⟩ := this
          exact ⟨t, k1, .val hs k2⟩
      | @panic _ s1 _ p _ _ hn h' =>
        have hs : nextP (limitP nx) (ofIter (m + 1), s) = some (.panic p, (ofIter (m + 1), s1)) := by simp [nextP_fresh, limitP, hn]
        have := ih (m + 1) s1 h'
        simp only [limitSpec]
        rcases hl : limitSpec (m + 1) gs with ⟨outs, _ | rest⟩
        · rw [hl] at this
          exact .panic hs this
        · rw [hl] at this
          obtain ⟨t, k1, k2⟩ := this
          exact ⟨t, k1, .panic hs k2⟩

example : ∃ t, Ends listP t [.ok 4] .eoi [] ∧
    Ends (nextP (limitP listP)) (ofIter 2, [.ok 1, .error "source", .ok 3, .ok 4]) [.ok 1, .error "source", .ok 3] .eoi (stopped .eoi, t) :=
  c142_limit listP 2 _ _ _ _ (listP_ends [.ok 1, .error "source", .ok 3, .ok 4])

/-! ### Without panics and effects -/

/-- A function without effects that does not panic. -/
def plain (f : α → β) : Fn P φ α β := fun v c => (.ok (f v), c)

/-- C142: without panics and effects these are the usual functions on lists. -/
theorem c142_plain (xs : List α) (c : φ) :
    (∀ f : α → β, mapSpec (P := P) (plain f) (xs.map .ok) c = ((xs.map f).map .ok, c)) ∧
    (∀ p : α → Bool, filterSpec (P := P) (plain p) (xs.map .ok) c = ((xs.filter p).map .ok, c)) ∧
    (∀ (f : β → α → β) b, foldSpec (P := P) (fun b => plain (f b)) b (xs.map .ok) c = (.ok (xs.foldl f b), c, none)) ∧
    (∀ p : α → Bool, (boolSpec (P := P) (plain p) false true (xs.map .ok) c).1 = .ok (xs.all p) ∧
      (boolSpec (P := P) (plain p) true false (xs.map .ok) c).1 = .ok (xs.any p)) ∧
    (∀ n, skipSpec (P := P) n (xs.map .ok) = (xs.drop n).map .ok) ∧
    (∀ n, (limitSpec (P := P) n (xs.map .ok)).1 = (xs.take n).map .ok) := by
  refine ⟨fun f => ?_, fun p => ?_, fun f => ?_, fun p => ⟨?_, ?_⟩, ?_, ?_⟩
  · induction xs with
    | nil => rfl
    | cons x xs ih => simp [mapSpec, plain] at ih ⊢; simp [ih]
  · induction xs with
    | nil => rfl
    | cons x xs ih =>
      simp only [List.map_cons, filterSpec, plain] at ih ⊢
      cases hp : p x <;> simp [hp, ih]
  · induction xs with
    | nil => intro b; rfl
    | cons x xs ih => intro b; simpa [foldSpec, plain] using ih (f b x)
  · induction xs with
    | nil => rfl
    | cons x xs ih =>
      simp only [List.map_cons, boolSpec, plain] at ih ⊢
      cases hp : p x <;> simp [hp, ih]
  · induction xs with
    | nil => rfl
    | cons x xs ih =>
      simp only [List.map_cons, boolSpec, plain] at ih ⊢
      cases hp : p x <;> simp [hp, ih]
  · induction xs with
    | nil => intro n; cases n <;> rfl
    | cons x xs ih => intro n; cases n <;> simp [skipSpec, ih]
  · induction xs with
    | nil => intro n; cases n <;> rfl
    | cons x xs ih => intro n; cases n <;> simp [limitSpec, ih]

example := (c142_plain (P := String) [1, 2, 3] ()).1 (fun v => v * 2)

end Micro.Stream.Crash
