import Verif.Stream.Lemmas
import Verif.MathInt.Props
import Verif.Conv.Props
import Mathlib.Data.List.Induction
import Mathlib.Tactic.Linarith
set_option linter.unusedSimpArgs false
/-
C32-C40: stream transforms. In every theorem the source is an arbitrary iterator `next` in state `s`
yielding the values `xs` and then the error `e`; `It.next (xxxCall …)` with `ofIter` is the iterator
returned by the transform.
-/
namespace Micro.Stream
open Micro Micro.Iter

variable {σ α β : Type}

/-! ### C32 -/

/-- C32. Map. -/
theorem c32_map (f : α → β) (next : Call σ α) (s : σ) (xs : List α) (e : Err) (h : Yields next s xs e) :
    YieldsForever (It.next (mapCall f next)) (ofIter s) (xs.map f) e :=
  ofIter_forever (map_yields f h)

example := c32_map (· * 2) (It.next (sliceCall [1, 2, 3])) (ofIter 0) [1, 2, 3] .eoi (yields_of_forever (c26_slice _))

/-- C32. MapError: the images up to the first failure; then that error, or the source's. -/
theorem c32_mapError (f : α → Except Err β) (next : Call σ α) (s : σ) (xs : List α) (e : Err)
    (h : Yields next s xs e) :
    YieldsForever (It.next (mapErrorCall f next)) (ofIter s) (mapUntil f e xs).1 (mapUntil f e xs).2 :=
  ofIter_forever (mapError_yields f h)

example := c32_mapError (fun n : Nat => if n = 3 then .error (.user 1) else .ok (n * 10)) (It.next (sliceCall [1, 2, 3, 4])) (ofIter 0) [1, 2, 3, 4] .eoi
  (yields_of_forever (c26_slice _))

theorem keepBy_pure (p : α → Bool) (before xs : List α) : keepBy (fun _ => p) before xs = xs.filter p := by
  induction xs generalizing before with
  | nil => rfl
  | cons x xs ih => simp only [keepBy, List.filter_cons, ih]

/-- C32. Filter: exactly the elements that satisfy the predicate, in order. -/
theorem c32_filter (p : α → Bool) (next : Call σ α) (s : σ) (xs : List α) (e : Err) (h : Yields next s xs e) :
    YieldsForever (It.next (filterCall (pure p) next)) (ofIter (s, ())) (xs.filter p) e := by
  have := filter_yields (pure p) (fun _ _ => True) (fun _ => p) (fun _ _ _ _ => ⟨rfl, trivial⟩) h () [] trivial
  rw [keepBy_pure] at this
  exact ofIter_forever this

/-- C32. Peek passes everything through, and the side effect has been applied to exactly the values
returned so far, in order. -/
theorem c32_peek (next : Call σ α) (s : σ) :
    (∀ xs e log, Yields next s xs e → YieldsForever (It.next (peekCall next)) (ofIter (log, s)) xs e) ∧
    (∀ n vs s' log, takeN next n s = some (vs, s') →
      takeN (peekCall next) n (log, s) = some (vs, (log ++ vs, s'))) :=
  ⟨fun _ _ log h => ofIter_forever (peek_yields h log), fun _ _ _ log h => peek_log h log⟩

/-- Non-vacuity. -/
example : YieldsForever (It.next (filterCall (pure (fun n => n % 2 == 0)) (It.next (sliceCall [1, 2, 3, 4]))))
    (ofIter (ofIter 0, ())) [2, 4] .eoi := c32_filter _ _ _ _ _ (yields_of_forever (c26_slice [1, 2, 3, 4]))

example : mapUntil (fun n : Nat => if n = 3 then .error (.user 1) else .ok (n * 10)) .eoi [1, 2, 3, 4]
    = ([10, 20], .user 1) := rfl

/-- C32, laziness: Map needs from its source only as many values as it has returned, so it can be
applied to infinite iterators. -/
theorem c32_map_prefix (f : α → β) (next : Call σ α) (s s' : σ) (n : Nat) (vs : List α)
    (h : takeN next n s = some (vs, s')) : takeN (mapCall f next) n s = some (vs.map f, s') := by
  induction n generalizing s vs with
  | zero => simp [takeN] at h ⊢; obtain ⟨rfl, rfl⟩ := h; simp
  | succ n ih =>
    simp only [takeN] at h ⊢
    split at h
    · rename_i v s1 hs
      rcases ht : takeN next n s1 with _ | ⟨vs', s2⟩ <;> simp [ht] at h
      obtain ⟨rfl, rfl⟩ := h
      simp only [mapCall, hs, ih _ _ ht, Option.map_some, List.map_cons]
    · simp at h

/-- The first six Fibonacci numbers, doubled. -/
example := c32_map_prefix (· * 2) (infiniteCall fibStep) fibInit _ 6 [1, 1, 2, 3, 5, 8] rfl

/-! ### C33 -/

/-- C33. Reduce without identity: nothing for an empty source, else one value, the left fold from the
first element; an error of the source is passed on. -/
theorem c33_reduce (f : α → α → α) (next : Call σ α) (s : σ) (xs : List α) (e : Err) (h : Yields next s xs e) :
    YieldsForever (It.next (reduceCall f none next)) (ofIter (false, s))
      (match xs with | [] => [] | x :: t => if e = .eoi then [t.foldl f x] else [])
      e := by
  refine ofIter_forever ?_
  cases h with
  | @stop _ s' _ h => exact .stop (s' := (true, s')) (by simp [reduceCall, h])
  | @value _ s' x xs _ h h' =>
    obtain ⟨s'', hf⟩ := foldLoop_eq f h' x
    have hcall : reduceCall f none next (false, s) =
        some (if e = .eoi then .ok (xs.foldl f x) else .error e, (true, s'')) := by
      simp [reduceCall, h, hf, withState]
    obtain ⟨h1, h2⟩ := once_yields hcall (by intro s; simp [reduceCall])
    by_cases he : e = .eoi
    · simp only [he, if_true] at *; exact h1 _ rfl
    · simp only [he, if_false] at *; exact h2 _ rfl

/-- C33. Reduce with an identity: always exactly one value for a source that ends normally. -/
theorem c33_reduce_identity (f : α → α → α) (idv : α) (next : Call σ α) (s : σ) (xs : List α) (e : Err)
    (h : Yields next s xs e) :
    YieldsForever (It.next (reduceCall f (some idv) next)) (ofIter (false, s))
      (if e = .eoi then [xs.foldl f idv] else []) e := by
  refine ofIter_forever ?_
  have key : ∃ s'', reduceCall f (some idv) next (false, s) =
        some (if e = .eoi then .ok (xs.foldl f idv) else .error e, (true, s'')) := by
    cases h with
    | @stop _ s' _ h =>
      exact ⟨s', by by_cases he : e = .eoi <;> simp [reduceCall, h, he]⟩
    | @value _ s' x xs _ h h' =>
      obtain ⟨s'', hf⟩ := foldLoop_eq f h' (f idv x)
      exact ⟨s'', by simp [reduceCall, h, hf, withState]⟩
  obtain ⟨s'', hcall⟩ := key
  obtain ⟨h1, h2⟩ := once_yields hcall (by intro s; simp [reduceCall])
  by_cases he : e = .eoi
  · simp only [he, if_true] at *; exact h1 _ rfl
  · simp only [he, if_false] at *; exact h2 _ rfl

/-- C33. ReduceTo: as Reduce, the fold starting from the identity or the zero value. -/
theorem c33_reduceTo (zv : β) (f : β → α → β) (identity : Option β) (next : Call σ α) (s : σ) (xs : List α)
    (e : Err) (h : Yields next s xs e) :
    YieldsForever (It.next (reduceToCall zv f identity next)) (ofIter (false, s))
      (if e = .eoi ∧ (identity ≠ none ∨ xs ≠ []) then [xs.foldl f (identity.getD zv)] else []) e := by
  refine ofIter_forever ?_
  by_cases hid : identity = none ∧ xs = []
  · obtain ⟨rfl, rfl⟩ := hid
    cases h with
    | @stop _ s' _ h => exact by simpa using Yields.stop (s' := (true, s')) (by simp [reduceToCall, h])
  · have key : ∃ s'', reduceToCall zv f identity next (false, s) =
        some (if e = .eoi then .ok (xs.foldl f (identity.getD zv)) else .error e, (true, s'')) := by
      cases h with
      | @stop _ s' _ h =>
        cases identity with
        | none => simp at hid
        | some idv => exact ⟨s', by by_cases he : e = .eoi <;> simp [reduceToCall, h, he]⟩
      | @value _ s' x xs _ h h' =>
        obtain ⟨s'', hf⟩ := foldLoop_eq f h' (f (identity.getD zv) x)
        exact ⟨s'', by cases identity <;> simp_all [reduceToCall, withState]⟩
    have hid' : identity ≠ none ∨ xs ≠ [] := by
      by_cases h1 : identity = none
      · right; intro h2; exact hid ⟨h1, h2⟩
      · left; exact h1
    obtain ⟨s'', hcall⟩ := key
    obtain ⟨h1, h2⟩ := once_yields hcall (by intro s; simp [reduceToCall])
    by_cases he : e = .eoi
    · simp only [he, if_true, true_and, hid'] at *; exact h1 _ rfl
    · simp only [he, if_false, false_and] at *; exact h2 _ rfl

example := c33_reduceTo [] (fun (l : List Nat) n => n :: l) none (It.next (sliceCall [5, 7, 5])) (ofIter 0) [5, 7, 5] .eoi (yields_of_forever (c26_slice _))

/-- C33. Count is the length (as an int). -/
theorem c33_count (next : Call σ α) (s : σ) (xs : List α) (h : Yields next s xs .eoi) :
    YieldsForever (It.next (countCall next)) (ofIter (false, s)) [Kind.int.wrap xs.length] .eoi := by
  have hy := c33_reduceTo 0 (fun (c : Int) (_ : α) => Kind.int.wrap (c + 1)) (some 0) next s xs .eoi h
  simp only [Option.getD_some, ne_eq, reduceCtorEq, not_false_eq_true, true_or, and_self, if_true] at hy
  have gen : ∀ (xs : List α) (c : Int), xs.foldl (fun (c : Int) (_ : α) => Kind.int.wrap (c + 1)) (Kind.int.wrap c)
      = Kind.int.wrap (c + xs.length) := by
    intro xs
    induction xs with
    | nil => intro c; simp
    | cons x xs ih =>
      intro c
      have e1 : Kind.int.wrap (Kind.int.wrap c + 1) = Kind.int.wrap (c + 1) := by
        have := wrap_add_wrap c 1
        rwa [show Kind.int.wrap 1 = 1 from rfl] at this
      simp only [List.foldl_cons, e1, ih, List.length_cons]
      congr 1; push_cast; omega
  have := gen xs 0
  rw [show Kind.int.wrap 0 = 0 from rfl, Int.zero_add] at this
  rw [this] at hy
  exact hy

example := c33_count (It.next (sliceCall [5, 7, 5])) (ofIter 0) [5, 7, 5] (yields_of_forever (c26_slice _))

/-- C33. Max and Min: the largest / smallest element, nothing for an empty source. -/
theorem c33_max_min (next : Call σ Int) (s : σ) (x : Int) (xs : List Int) (h : Yields next s (x :: xs) .eoi) :
    (∃ m, YieldsForever (It.next (maxCall next)) (ofIter (false, s)) [m] .eoi ∧
      m ∈ x :: xs ∧ ∀ y ∈ x :: xs, y ≤ m) ∧
    (∃ m, YieldsForever (It.next (minCall next)) (ofIter (false, s)) [m] .eoi ∧
      m ∈ x :: xs ∧ ∀ y ∈ x :: xs, m ≤ y) := by
  have gen : ∀ (xs : List Int) (x : Int),
      (xs.foldl (fun a b => if a > b then a else b) x ∈ x :: xs ∧
       ∀ y ∈ x :: xs, y ≤ xs.foldl (fun a b => if a > b then a else b) x) ∧
      (xs.foldl (fun a b => if a < b then a else b) x ∈ x :: xs ∧
       ∀ y ∈ x :: xs, xs.foldl (fun a b => if a < b then a else b) x ≤ y) := by
    intro xs
    induction xs with
    | nil => intro x; simp
    | cons z xs ih =>
      intro x
      simp only [List.foldl_cons]
      obtain ⟨⟨m1, m2⟩, -⟩ := ih (if x > z then x else z)
      obtain ⟨-, ⟨m3, m4⟩⟩ := ih (if x < z then x else z)
      refine ⟨⟨?_, ?_⟩, ⟨?_, ?_⟩⟩
      · revert m1; split <;> simp <;> tauto
      · intro y hy
        have h0 := m2 (if x > z then x else z) (by simp)
        simp only [List.mem_cons] at hy
        rcases hy with rfl | rfl | hy
        · refine le_trans ?_ h0; split <;> omega
        · refine le_trans ?_ h0; split <;> omega
        · exact m2 y (by simp [hy])
      · revert m3; split <;> simp <;> tauto
      · intro y hy
        have h0 := m4 (if x < z then x else z) (by simp)
        simp only [List.mem_cons] at hy
        rcases hy with rfl | rfl | hy
        · refine le_trans h0 ?_; split <;> omega
        · refine le_trans h0 ?_; split <;> omega
        · exact m4 y (by simp [hy])
  exact ⟨⟨_, c33_reduce _ next s (x :: xs) .eoi h, (gen xs x).1⟩,
    ⟨_, c33_reduce _ next s (x :: xs) .eoi h, (gen xs x).2⟩⟩

/-- Non-vacuity: subtraction shows the fold is from the left. -/
example : YieldsForever (It.next (reduceCall (fun a b : Int => a - b) (some 100) (It.next (sliceCall [1, 2, 3]))))
    (ofIter (false, ofIter 0)) [94] .eoi :=
  c33_reduce_identity _ _ _ _ [1, 2, 3] .eoi (yields_of_forever (c26_slice [1, 2, 3]))

/-! ### C34 -/

theorem reduceToBool_yields (p : α → Bool) (stop : Bool) (next : Call σ α) (s : σ) (xs : List α) (e : Err)
    (h : Yields next s xs e) :
    YieldsForever (It.next (reduceToBoolCall p (!stop) stop next)) (ofIter (false, s))
      (if (∃ x ∈ xs, p x = stop) then [stop] else if e = .eoi then [!stop] else [])
      (if (∃ x ∈ xs, p x = stop) then .eoi else e) := by
  refine ofIter_forever ?_
  have key : ∃ s'', reduceToBoolCall p (!stop) stop next (false, s) =
        some (if (∃ x ∈ xs, p x = stop) then .ok stop else if e = .eoi then .ok (!stop) else .error e, (true, s'')) := by
    cases h with
    | @stop _ s' _ h =>
      exact ⟨s', by by_cases he : e = .eoi <;> simp [reduceToBoolCall, h, he]⟩
    | @value _ s' x xs _ h h' =>
      by_cases hx : p x = stop
      · exact ⟨s', by simp [reduceToBoolCall, h, hx]⟩
      · have hpx : p x = !stop := by cases h1 : p x <;> cases stop <;> simp_all
        obtain ⟨s'', hf⟩ := boolLoop_eq p stop (!stop) (by simp) h'
        refine ⟨s'', ?_⟩
        have e1 : ¬ ((!stop) = stop) := by cases stop <;> simp
        simp only [reduceToBoolCall, h, hpx, e1, if_false, hf, withState, Bool.false_eq_true, List.mem_cons,
          exists_eq_or_imp, false_or]
  obtain ⟨s'', hcall⟩ := key
  obtain ⟨h1, h2⟩ := once_yields hcall (by intro s; simp [reduceToBoolCall])
  by_cases hex : ∃ x ∈ xs, p x = stop
  · simp only [hex, if_true] at *; exact h1 _ rfl
  · by_cases he : e = .eoi
    · simp only [hex, he, if_true, if_false] at *; exact h1 _ rfl
    · simp only [hex, he, if_false] at *; exact h2 _ rfl

/-- C34. AllMatch is ∀, AnyMatch is ∃, NoneMatch is ∀ ¬ (for a source that ends normally; true, false,
true for an empty source). -/
theorem c34_quantifiers (p : α → Bool) (next : Call σ α) (s : σ) (xs : List α) (h : Yields next s xs .eoi) :
    YieldsForever (It.next (allMatchCall p next)) (ofIter (false, s)) [decide (∀ x ∈ xs, p x = true)] .eoi ∧
    YieldsForever (It.next (anyMatchCall p next)) (ofIter (false, s)) [decide (∃ x ∈ xs, p x = true)] .eoi ∧
    YieldsForever (It.next (noneMatchCall p next)) (ofIter (false, s)) [decide (∀ x ∈ xs, p x = false)] .eoi := by
  have a := reduceToBool_yields p false next s xs .eoi h
  have b := reduceToBool_yields p true next s xs .eoi h
  have c := reduceToBool_yields (fun t => !p t) false next s xs .eoi h
  refine ⟨?_, ?_, ?_⟩
  · by_cases hex : ∃ x ∈ xs, p x = false
    · have : ¬ ∀ x ∈ xs, p x = true := by rintro h; obtain ⟨x, hx, hp⟩ := hex; simp [h x hx] at hp
      simp only [hex, if_true] at a
      simpa [this, allMatchCall] using a
    · have : ∀ x ∈ xs, p x = true := by
        intro x hx; by_contra hp; exact hex ⟨x, hx, by simpa using hp⟩
      simp only [hex, if_true, if_false] at a
      rw [decide_eq_true this]
      simpa [allMatchCall] using a
  · by_cases hex : ∃ x ∈ xs, p x = true
    · simp only [hex, if_true] at b
      rw [decide_eq_true hex]
      simpa [anyMatchCall] using b
    · simp only [hex, if_true, if_false] at b
      rw [decide_eq_false hex]
      simpa [anyMatchCall] using b
  · by_cases hex : ∃ x ∈ xs, (!p x) = false
    · have : ¬ ∀ x ∈ xs, p x = false := by rintro h; obtain ⟨x, hx, hp⟩ := hex; simp [h x hx] at hp
      simp only [hex, if_true] at c
      rw [decide_eq_false this]
      simpa [noneMatchCall] using c
    · have : ∀ x ∈ xs, p x = false := by
        intro x hx; by_contra hp; exact hex ⟨x, hx, by simpa using hp⟩
      simp only [hex, if_true, if_false] at c
      rw [decide_eq_true this]
      simpa [noneMatchCall] using c

example := c34_quantifiers (fun n => n % 2 == 0) (It.next (sliceCall [1, 2, 3, 4])) (ofIter 0) [1, 2, 3, 4] (yields_of_forever (c26_slice _))

theorem bool_shortcut (p : α → Bool) (stop : Bool) (next : Call σ α) (n : Nat) (s s' s'' : σ) (vs : List α) (x : α)
    (h : takeN next n s = some (vs, s')) (hvs : ∀ v ∈ vs, p v ≠ stop) (hn : next s' = some (.ok x, s''))
    (hx : p x = stop) :
    reduceToBoolCall p (!stop) stop next (false, s) = some (.ok stop, (true, s'')) := by
  have loop : ∀ n s vs result, takeN next n s = some (vs, s') → (∀ v ∈ vs, p v ≠ stop) →
      boolLoop next p stop result s = some (.ok stop, s'') := by
    intro n
    induction n with
    | zero =>
      intro s vs result h _
      simp [takeN] at h; obtain ⟨rfl, rfl⟩ := h
      rw [boolLoop]; simp [hn, hx]
    | succ n ih =>
      intro s vs result h hvs
      simp only [takeN] at h
      split at h
      · rename_i v s1 hs
        rcases ht : takeN next n s1 with _ | ⟨vs', s2⟩ <;> simp [ht] at h
        obtain ⟨rfl, rfl⟩ := h
        rw [boolLoop]; simp only [hs]
        rw [if_neg (hvs v (by simp))]
        exact ih s1 vs' _ ht (fun v hv => hvs v (by simp [hv]))
      · simp at h
  cases n with
  | zero =>
    simp [takeN] at h; obtain ⟨rfl, rfl⟩ := h
    simp [reduceToBoolCall, hn, hx]
  | succ n =>
    simp only [takeN] at h
    split at h
    · rename_i v s1 hs
      rcases ht : takeN next n s1 with _ | ⟨vs', s2⟩ <;> simp [ht] at h
      obtain ⟨rfl, rfl⟩ := h
      have := loop n s1 vs' (p v) ht (fun v hv => hvs v (by simp [hv]))
      have hv := hvs v (by simp)
      simp [reduceToBoolCall, hs, hv, this, withState]
    · simp at h

/-- C34, short circuit: if the elements before x do not decide the answer and x does, the answer is
given after reading x: the source is left in the state after reading x, and nothing is assumed about
what it would do later (it may be infinite, fail or block). -/
theorem c34_short_circuit (p : α → Bool) (next : Call σ α) (n : Nat) (s s' s'' : σ) (vs : List α) (x : α)
    (h : takeN next n s = some (vs, s')) (hn : next s' = some (.ok x, s'')) :
    ((∀ v ∈ vs, p v = true) → p x = false →
      allMatchCall p next (false, s) = some (.ok false, (true, s''))) ∧
    ((∀ v ∈ vs, p v = false) → p x = true →
      anyMatchCall p next (false, s) = some (.ok true, (true, s'')) ∧
      noneMatchCall p next (false, s) = some (.ok false, (true, s''))) := by
  refine ⟨fun hvs hx => ?_, fun hvs hx => ⟨?_, ?_⟩⟩
  · exact bool_shortcut p false next n s s' s'' vs x h (fun v hv => by simp [hvs v hv]) hn hx
  · exact bool_shortcut p true next n s s' s'' vs x h (fun v hv => by simp [hvs v hv]) hn hx
  · exact bool_shortcut (fun t => !p t) false next n s s' s'' vs x h (fun v hv => by simp [hvs v hv]) hn (by simp [hx])

/-- Non-vacuity: AnyMatch on the infinite Fibonacci iterator. -/
example : ∃ st, anyMatchCall (fun n : Int => decide (n > 10)) (infiniteCall fibStep) (false, fibInit)
    = some (.ok true, st) :=
  ⟨_, ((c34_short_circuit (fun n : Int => decide (n > 10)) (infiniteCall fibStep) 6 fibInit _ _ [1, 1, 2, 3, 5, 8] 13
    rfl rfl).2 (by decide) (by decide)).1⟩

/-! ### C35 -/

/-- C35. Skip(n) drops the first n values. -/
theorem c35_skip (n : Nat) (next : Call σ α) (s : σ) (xs : List α) (e : Err) (h : Yields next s xs e) :
    YieldsForever (It.next (skipCall next)) (ofIter (n, s)) (xs.drop n) e :=
  ofIter_forever (skip_yields h n)

example := c35_skip 2 (It.next (sliceCall [1, 2, 3, 4])) (ofIter 0) [1, 2, 3, 4] .eoi (yields_of_forever (c26_slice _))

/-- C35. Limit(n) yields the first n values and then EOI; the source's error appears only if the
source ends before n values. -/
theorem c35_limit (n : Nat) (next : Call σ α) (s : σ) (xs : List α) (e : Err) (h : Yields next s xs e) :
    YieldsForever (It.next (limitCall next)) (ofIter (n, s)) (xs.take n) (if n ≤ xs.length then .eoi else e) := by
  refine ofIter_forever ?_
  split
  · rename_i hn
    obtain ⟨s', h1, _⟩ := takeN_of_yields h n hn
    exact limit_yields h1
  · rename_i hn
    rw [List.take_of_length_le (by omega)]
    exact limit_short h (by omega)

/-- C35. Limit(n) never reads more than n values: it works on any source that can deliver n values,
whatever the source would do at the next read (even if that read never returned). -/
theorem c35_limit_reads_at_most_n (n : Nat) (next : Call σ α) (s s' : σ) (vs : List α)
    (h : takeN next n s = some (vs, s')) :
    YieldsForever (It.next (limitCall next)) (ofIter (n, s)) vs .eoi :=
  ofIter_forever (limit_yields h)

/-- C35. The first n values followed by the others are all the values. -/
theorem c35_limit_then_skip (n : Nat) (next : Call σ α) (s : σ) (xs : List α) (h : Yields next s xs .eoi) :
    ∃ ys zs, YieldsForever (It.next (limitCall next)) (ofIter (n, s)) ys .eoi ∧
      YieldsForever (It.next (skipCall next)) (ofIter (n, s)) zs .eoi ∧ ys ++ zs = xs := by
  have := c35_limit n next s xs .eoi h
  rw [ite_self] at this
  exact ⟨_, _, this, c35_skip n next s xs .eoi h, List.take_append_drop n xs⟩

/-- Non-vacuity: a source that blocks forever after two values. -/
example : YieldsForever (It.next (limitCall (fun i : Nat => if i < 2 then some (.ok i, i + 1) else none)))
    (ofIter (2, 0)) [0, 1] .eoi := c35_limit_reads_at_most_n _ _ _ 2 _ rfl

/-! ### C36 -/

/-- C36. ReduceToSlice: one slice with all values. -/
theorem c36_reduceToSlice (next : Call σ α) (s : σ) (xs : List α) (e : Err) (h : Yields next s xs e) :
    YieldsForever (It.next (reduceToSliceCall next)) (ofIter (false, s)) (if e = .eoi then [xs] else []) e := by
  refine ofIter_forever ?_
  obtain ⟨s'', hf⟩ := foldLoop_eq (fun slc v => slc ++ [v]) h ([] : List α)
  have e1 : ∀ (xs : List α) (acc : List α), xs.foldl (fun slc v => slc ++ [v]) acc = acc ++ xs := by
    intro xs; induction xs with
    | nil => simp
    | cons x xs ih => intro acc; simp [ih]
  rw [e1] at hf
  have hcall : reduceToSliceCall next (false, s) =
        some (if e = .eoi then .ok xs else .error e, (true, s'')) := by
    simp only [reduceToSliceCall, hf, withState]; simp
  obtain ⟨h1, h2⟩ := once_yields hcall (by intro s; simp [reduceToSliceCall])
  by_cases he : e = .eoi
  · simp only [he, if_true] at *; exact h1 _ rfl
  · simp only [he, if_false] at *; exact h2 _ rfl

example := c36_reduceToSlice (It.next (sliceCall [1, 2, 3, 4])) (ofIter 0) [1, 2, 3, 4] .eoi (yields_of_forever (c26_slice _))

/-- C36. ExpandSlices: the concatenation of the slices; nil and empty ones contribute nothing. -/
theorem c36_expandSlices (next : Call σ (Option (List α))) (s : σ) (ls : List (Option (List α))) (e : Err)
    (h : Yields next s ls e) :
    YieldsForever (It.next (expandSlicesCall next)) (ofIter (none, 0, s)) (ls.map (·.getD [])).flatten e :=
  ofIter_forever (expand_yields ls.length (le_refl _) h none 0 (by simp))

/-- C36. ExpandSlices after ReduceToSlice is the original sequence. -/
theorem c36_inverse (next : Call σ α) (s : σ) (xs : List α) (h : Yields next s xs .eoi) :
    YieldsForever (It.next (expandSlicesCall (mapCall some (It.next (reduceToSliceCall next)))))
      (ofIter (none, 0, ofIter (false, s))) xs .eoi := by
  have h1 := c36_reduceToSlice next s xs .eoi h
  rw [if_pos rfl] at h1
  have := c36_expandSlices _ _ _ _ (map_yields some (yields_of_forever h1))
  simpa using this

example := c36_inverse (It.next (sliceCall [1, 2, 3, 4])) (ofIter 0) [1, 2, 3, 4] (yields_of_forever (c26_slice _))

/-- C36. ReduceIntoSlice: fills the front of the slice when there is room; on an error every element
of the slice is zeroed; it panics if the source has more values than the slice. -/
theorem c36_reduceIntoSlice (zv : α) (slc : List α) (next : Call σ α) (s : σ) (xs : List α) (e : Err)
    (h : Yields next s xs e) :
    ∃ s', intoLoop next zv slc 0 s = some (
      if xs.length ≤ slc.length then
        (if e = .eoi then .ok (xs ++ slc.drop xs.length) else .fail e (List.replicate slc.length zv))
      else .panic, s') := by
  suffices gen : ∀ (pre : List α), ∃ s', intoLoop next zv (pre ++ slc) pre.length s = some (
      if xs.length ≤ slc.length then
        (if e = .eoi then .ok (pre ++ xs ++ slc.drop xs.length) else .fail e (List.replicate (pre.length + slc.length) zv))
      else .panic, s') by simpa using gen []
  induction h generalizing slc with
  | @stop s s' e h =>
    intro pre
    refine ⟨s', ?_⟩
    rw [intoLoop]; simp only [h]
    by_cases he : e = .eoi
    · simp [he]
    · simp [he, List.map_const']
  | @value s s' x xs e h _ ih =>
    intro pre
    rw [intoLoop]; simp only [h]
    cases slc with
    | nil => exact ⟨s', by simp⟩
    | cons y slc =>
      have e1 : (pre ++ y :: slc).set pre.length x = (pre ++ [x]) ++ slc := by simp
      obtain ⟨s'', hi⟩ := ih slc (pre ++ [x])
      refine ⟨s'', ?_⟩
      rw [if_pos (by simp), e1, show pre.length + 1 = (pre ++ [x]).length by simp, hi]
      simp [Nat.add_assoc, Nat.add_comm 1]

/-- Non-vacuity. -/
example : YieldsForever (It.next (expandSlicesCall (It.next (sliceCall [some [1, 2], none, some [], some [3]]))))
    (ofIter (none, 0, ofIter 0)) [1, 2, 3] .eoi :=
  c36_expandSlices _ _ _ _ (yields_of_forever (c26_slice [some [1, 2], none, some [], some [3]]))

/-! ### C37 -/

/-- C37. ReduceToMap: one map binding each key to the last value paired with it. -/
theorem c37_reduceToMap {κ ν : Type} [DecidableEq κ] (next : Call σ (κ × ν)) (s : σ) (kvs : List (κ × ν))
    (h : Yields next s kvs .eoi) :
    ∃ m : κ → Option ν, YieldsForever (It.next (reduceToMapCall next)) (ofIter (false, s)) [m] .eoi ∧
      (∀ k v, m k = some v ↔ ∃ before after, kvs = before ++ (k, v) :: after ∧ ∀ kv ∈ after, kv.1 ≠ k) ∧
      (∀ k, m k = none ↔ ∀ kv ∈ kvs, kv.1 ≠ k) := by
  let up : (κ → Option ν) → κ × ν → (κ → Option ν) := fun m kv => fun k => if k = kv.1 then some kv.2 else m k
  obtain ⟨s'', hf⟩ := foldLoop_eq up h (fun _ => none)
  have hcall : reduceToMapCall next (false, s) = some (.ok (kvs.foldl up (fun _ => none)), (true, s'')) := by
    simp only [reduceToMapCall, Bool.false_eq_true, if_false]
    rw [show (fun (m : κ → Option ν) (kv : κ × ν) => fun k => if k = kv.1 then some kv.2 else m k) = up from rfl, hf]
    simp [withState]
  have hy := (once_yields hcall (by intro s; simp [reduceToMapCall])).1 _ rfl
  have char : ∀ (kvs : List (κ × ν)) (k : κ),
      (∀ v, kvs.foldl up (fun _ => none) k = some v ↔
        ∃ before after, kvs = before ++ (k, v) :: after ∧ ∀ kv ∈ after, kv.1 ≠ k) ∧
      (kvs.foldl up (fun _ => none) k = none ↔ ∀ kv ∈ kvs, kv.1 ≠ k) := by
    intro kvs k
    induction kvs using List.reverseRecOn with
    | nil => simp
    | append_singleton kvs kv ih =>
      rw [List.foldl_append]
      simp only [List.foldl_cons, List.foldl_nil, up]
      by_cases hk : k = kv.1
      · simp only [hk, if_true]
        constructor
        · intro v
          constructor
          · rintro h
            simp only [Option.some.injEq] at h
            exact ⟨kvs, [], by rw [← h], by simp⟩
          · rintro ⟨b, a, h1, h2⟩
            rcases List.eq_nil_or_concat a with rfl | ⟨a', l, rfl⟩
            · have := List.append_inj_right' h1 rfl
              simp only [List.cons.injEq, and_true] at this
              rw [this]
            · rw [List.concat_eq_append] at h1 h2
              have h1' : kvs ++ [kv] = (b ++ (kv.1, v) :: a') ++ [l] := by rw [h1]; simp
              have := List.append_inj_right' h1' rfl
              simp only [List.cons.injEq, and_true] at this
              exact absurd rfl (this ▸ h2 l (by simp))
        · constructor
          · intro h; simp at h
          · intro h; exact absurd rfl (h kv (by simp))
      · simp only [hk, if_false]
        constructor
        · intro v
          rw [show (kvs.foldl (fun m kv => fun k => if k = kv.1 then some kv.2 else m k) (fun _ => none) k)
            = kvs.foldl up (fun _ => none) k from rfl, ih.1 v]
          constructor
          · rintro ⟨b, a, rfl, h2⟩
            refine ⟨b, a ++ [kv], by simp, ?_⟩
            intro kv' hkv'
            simp only [List.mem_append, List.mem_singleton] at hkv'
            rcases hkv' with h | rfl
            · exact h2 kv' h
            · exact fun h => hk h.symm
          · rintro ⟨b, a, h1, h2⟩
            rcases List.eq_nil_or_concat a with rfl | ⟨a', l, rfl⟩
            · have := List.append_inj_right' h1 rfl
              simp only [List.cons.injEq, and_true] at this
              exact absurd (by rw [this]) hk
            · rw [List.concat_eq_append] at h1 h2
              have h1' : kvs ++ [kv] = (b ++ (k, v) :: a') ++ [l] := by rw [h1]; simp
              have := List.append_inj_left' h1' rfl
              exact ⟨b, a', this, fun kv hkv => h2 kv (by simp [hkv])⟩
        · rw [show (kvs.foldl (fun m kv => fun k => if k = kv.1 then some kv.2 else m k) (fun _ => none) k)
            = kvs.foldl up (fun _ => none) k from rfl, ih.2]
          constructor
          · intro h kv' hkv'
            simp only [List.mem_append, List.mem_singleton] at hkv'
            rcases hkv' with h' | rfl
            · exact h kv' h'
            · exact fun h => hk h.symm
          · intro h kv' hkv'; exact h kv' (by simp [hkv'])
  exact ⟨_, ofIter_forever hy, fun k v => (char kvs k).1 v, fun k => (char kvs k).2⟩

/-- Non-vacuity: a key given twice. -/
example : Yields (It.next (sliceCall [(1, 'a'), (2, 'b'), (1, 'c')])) (ofIter 0) [(1, 'a'), (2, 'b'), (1, 'c')] .eoi :=
  yields_of_forever (c26_slice _)

/-! ### C38 -/

/-- C38. Distinct yields the elements that do not occur before. -/
theorem c38_distinct [DecidableEq α] (next : Call σ α) (s : σ) (xs : List α) (e : Err) (h : Yields next s xs e) :
    YieldsForever (It.next (filterCall distinctPred next)) (ofIter (s, distinctInit))
      (keepBy (fun before x => decide (x ∉ before)) [] xs) e := by
  refine ofIter_forever (filter_yields distinctPred (fun seen before => ∀ w, seen w = true ↔ w ∈ before) _ ?_ h
    distinctInit [] (by simp [distinctInit]))
  intro c before v hrep
  constructor
  · have := hrep v
    simp only [distinctPred]
    by_cases hv : v ∈ before
    · simp [hv, this.mpr hv]
    · have : c v = false := by cases hc : c v <;> simp_all
      simp [hv, this]
  · intro w
    simp only [distinctPred]
    by_cases hv : c v = true
    · simp only [hv, if_true, hrep w, List.mem_append, List.mem_singleton]
      constructor
      · exact Or.inl
      · rintro (h | rfl)
        · exact h
        · exact (hrep w).mp hv
    · simp only [hv, if_false, List.mem_append, List.mem_singleton]
      by_cases hw : w = v
      · simp [hw]
      · simp [hw, hrep w]

example := c38_distinct (It.next (sliceCall [3, 1, 3, 2, 1, 3])) (ofIter 0) [3, 1, 3, 2, 1, 3] .eoi (yields_of_forever (c26_slice _))

theorem keepBy_mem (test : List α → α → Bool) (before xs : List α) (x : α) :
    x ∈ keepBy test before xs ↔ ∃ l r, xs = l ++ x :: r ∧ test (before ++ l) x = true := by
  induction xs generalizing before with
  | nil => simp [keepBy]
  | cons y ys ih =>
    have : x ∈ keepBy test before (y :: ys) ↔
        (x = y ∧ test before y = true) ∨ x ∈ keepBy test (before ++ [y]) ys := by
      simp only [keepBy]; split <;> simp_all
    rw [this, ih]
    constructor
    · rintro (⟨rfl, h⟩ | ⟨l, r, rfl, h⟩)
      · exact ⟨[], ys, rfl, by simpa using h⟩
      · exact ⟨y :: l, r, rfl, by simpa using h⟩
    · rintro ⟨l, r, h1, h2⟩
      cases l with
      | nil => simp at h1; obtain ⟨rfl, rfl⟩ := h1; left; exact ⟨rfl, by simpa using h2⟩
      | cons z l => simp at h1; obtain ⟨rfl, rfl⟩ := h1; right; exact ⟨l, r, rfl, by simpa using h2⟩

/-- C38. What Distinct yields has no repetitions and the same elements as the source, in the order of
first occurrence (it is a subsequence of it). -/
theorem c38_distinct_spec [DecidableEq α] (xs : List α) :
    let ys := keepBy (fun before x => decide (x ∉ before)) [] xs
    ys.Nodup ∧ (∀ x, x ∈ ys ↔ x ∈ xs) ∧ ys.Sublist xs := by
  have sub : ∀ (test : List α → α → Bool) (xs before : List α), (keepBy test before xs).Sublist xs := by
    intro test xs
    induction xs with
    | nil => intro before; simp [keepBy]
    | cons x xs ih =>
      intro before
      simp only [keepBy]
      split
      · exact (ih _).cons_cons x
      · exact (ih _).cons x
  have nd : ∀ (xs before : List α), (keepBy (fun before x => decide (x ∉ before)) before xs).Nodup ∧
      (∀ x ∈ keepBy (fun before x => decide (x ∉ before)) before xs, x ∉ before) := by
    intro xs
    induction xs with
    | nil => intro before; simp [keepBy]
    | cons x xs ih =>
      intro before
      obtain ⟨h1, h2⟩ := ih (before ++ [x])
      simp only [keepBy]
      split
      · rename_i hx
        simp only [decide_eq_true_eq] at hx
        refine ⟨List.nodup_cons.mpr ⟨fun hm => ?_, h1⟩, ?_⟩
        · have := h2 x hm; simp at this
        · intro y hy
          simp only [List.mem_cons] at hy
          rcases hy with rfl | hy
          · exact hx
          · have := h2 y hy; simp at this; exact this.1
      · refine ⟨h1, fun y hy => ?_⟩
        have := h2 y hy; simp at this; exact this.1
  refine ⟨(nd xs []).1, fun x => ⟨fun hx => (sub _ xs []).subset hx, fun hx => ?_⟩, sub _ xs []⟩
  rw [keepBy_mem]
  obtain ⟨l, r, h1, h2⟩ := List.eq_append_cons_of_mem hx
  exact ⟨l, r, h1, by simpa using h2⟩

/-- C38. Duplicate yields the elements that occur exactly once before (second occurrences). -/
theorem c38_duplicate [DecidableEq α] (next : Call σ α) (s : σ) (xs : List α) (e : Err) (h : Yields next s xs e) :
    YieldsForever (It.next (filterCall duplicatePred next)) (ofIter (s, duplicateInit))
      (keepBy (fun before x => decide (before.count x = 1)) [] xs) e := by
  refine ofIter_forever (filter_yields duplicatePred (fun vals before => ∀ w, vals w = min 3 (before.count w)) _ ?_ h
    duplicateInit [] (by simp [duplicateInit]))
  intro c before v hrep
  constructor
  · have := hrep v
    simp only [duplicatePred]
    congr 1
    apply propext
    split <;> omega
  · intro w
    have hv := hrep v
    have hw := hrep w
    simp only [duplicatePred, List.count_append, List.count_singleton]
    by_cases hwv : w = v
    · subst hwv
      simp only [beq_self_eq_true, if_true]
      split
      · simp; omega
      · omega
    · have : (v == w) = false := by simp [beq_eq_false_iff_ne]; exact fun h => hwv h.symm
      simp only [this, Bool.false_eq_true, if_false, Nat.add_zero, ← hw]
      split
      · simp [hwv]
      · rfl

example := c38_duplicate (It.next (sliceCall [3, 1, 3, 2, 1, 3])) (ofIter 0) [3, 1, 3, 2, 1, 3] .eoi (yields_of_forever (c26_slice _))

/-- C38. What Duplicate yields: each value that occurs at least twice, exactly once, in the order of
the second occurrences. -/
theorem c38_duplicate_spec [DecidableEq α] (xs : List α) :
    let ys := keepBy (fun before x => decide (before.count x = 1)) [] xs
    ys.Nodup ∧ (∀ x, x ∈ ys ↔ 2 ≤ xs.count x) ∧ ys.Sublist xs := by
  have sub : ∀ (test : List α → α → Bool) (xs before : List α), (keepBy test before xs).Sublist xs := by
    intro test xs
    induction xs with
    | nil => intro before; simp [keepBy]
    | cons x xs ih =>
      intro before
      simp only [keepBy]
      split
      · exact (ih _).cons_cons x
      · exact (ih _).cons x
  have nd : ∀ (xs before : List α), (keepBy (fun before x => decide (before.count x = 1)) before xs).Nodup ∧
      (∀ x ∈ keepBy (fun before x => decide (before.count x = 1)) before xs, before.count x ≤ 1) := by
    intro xs
    induction xs with
    | nil => intro before; simp [keepBy]
    | cons x xs ih =>
      intro before
      obtain ⟨h1, h2⟩ := ih (before ++ [x])
      have h3 : ∀ y ∈ keepBy (fun before x => decide (before.count x = 1)) (before ++ [x]) xs, before.count y ≤ 1 := by
        intro y hy
        have := h2 y hy
        rw [List.count_append] at this; omega
      simp only [keepBy]
      split
      · rename_i hx
        simp only [decide_eq_true_eq] at hx
        refine ⟨List.nodup_cons.mpr ⟨fun hm => ?_, h1⟩, ?_⟩
        · have := h2 x hm
          rw [List.count_append, List.count_singleton] at this
          simp at this; omega
        · intro y hy
          simp only [List.mem_cons] at hy
          rcases hy with rfl | hy
          · omega
          · exact h3 y hy
      · exact ⟨h1, h3⟩
  refine ⟨(nd xs []).1, fun x => ?_, sub _ xs []⟩
  rw [keepBy_mem]
  constructor
  · rintro ⟨l, r, rfl, h⟩
    simp at h
    rw [List.count_append, List.count_cons]; simp; omega
  · intro h2
    obtain ⟨l, r, h1, hl⟩ := List.eq_append_cons_of_mem (List.count_pos_iff.mp (by omega : 0 < xs.count x))
    subst h1
    rw [List.count_append, List.count_cons, List.count_eq_zero.mpr hl] at h2
    simp at h2
    obtain ⟨l', r', h1', hl'⟩ := List.eq_append_cons_of_mem h2
    refine ⟨l ++ x :: l', r', by rw [h1']; simp, ?_⟩
    simp [List.count_append, List.count_eq_zero.mpr hl, List.count_eq_zero.mpr hl']

/-- Non-vacuity. -/
example : keepBy (fun before x => decide (x ∉ before)) [] [3, 1, 3, 2, 1, 3] = [3, 1, 2] ∧
    keepBy (fun before x => decide (before.count x = 1)) [] [3, 1, 3, 2, 1, 3] = [3, 1] := by decide

/-! ### C39 -/

/-- C39. SliceReverse reverses. -/
theorem c39_sliceReverse (slc : List α) : sliceReverse slc = slc.reverse := sliceReverse_eq slc

/-- The first value of an iterator over a slice reduction. -/
theorem reduceToSlice_first (next : Call σ α) (s : σ) (xs : List α) (e : Err) (h : Yields next s xs e) :
    ∃ st, It.next (reduceToSliceCall next) (ofIter (false, s)) =
      some (if e = .eoi then .ok xs else .error e, st) := by
  have := yields_of_forever (c36_reduceToSlice next s xs e h)
  by_cases he : e = .eoi
  · simp only [he, if_true] at *
    cases this with
    | value h _ => exact ⟨_, h⟩
  · simp only [he, if_false] at *
    cases this with
    | stop h => exact ⟨_, h⟩

theorem anySlice_forever (xs : List α) : (anySlice xs).YieldsForever xs .eoi := c26_slice xs

theorem anyError_forever (e : Err) : (anyError (α := α) e).YieldsForever [] e :=
  c28_set_error _ _ [] .eoi e (yields_of_forever c26_empty)

/-- C39. Reverse yields the reversed sequence; if the source fails, nothing but its error. -/
theorem c39_reverse (next : Call σ α) (s : σ) (xs : List α) (e : Err) (h : Yields next s xs e) :
    ∃ it, reverse next s = some it ∧ it.YieldsForever (if e = .eoi then xs.reverse else []) e := by
  obtain ⟨st, hf⟩ := reduceToSlice_first next s xs e h
  by_cases he : e = .eoi
  · simp only [he, if_true] at *
    exact ⟨anySlice (sliceReverse xs), by simp only [reverse, hf], by rw [sliceReverse_eq]; exact anySlice_forever _⟩
  · simp only [he, if_false] at *
    exact ⟨anyError e, by simp only [reverse, hf], anyError_forever e⟩

example := c39_reverse (It.next (sliceCall [1, 2, 3])) (ofIter 0) [1, 2, 3] .eoi (yields_of_forever (c26_slice _))

/-- C39. Reversing twice is the identity. -/
theorem c39_reverse_twice (next : Call σ α) (s : σ) (xs : List α) (h : Yields next s xs .eoi) :
    ∃ it it', reverse next s = some it ∧ reverse it.call it.s = some it' ∧ it'.YieldsForever xs .eoi := by
  obtain ⟨it, h1, h2⟩ := c39_reverse next s xs .eoi h
  rw [if_pos rfl] at h2
  obtain ⟨it', h3, h4⟩ := c39_reverse it.call it.s xs.reverse .eoi (yields_of_forever h2)
  rw [if_pos rfl, List.reverse_reverse] at h4
  exact ⟨it, it', h1, h3, h4⟩

example := c39_reverse_twice (It.next (sliceCall [1, 2, 3])) (ofIter 0) [1, 2, 3] (yields_of_forever (c26_slice _))

/-- C39. SortBy and its variants yield what sort.Slice makes of the values: with a sorting function
that returns an ordered permutation, an ordered permutation of the source. -/
theorem c39_sort (sort : List α → List α) (le : α → α → Prop)
    (hsort : ∀ l, (sort l).Perm l ∧ (sort l).Pairwise le)
    (next : Call σ α) (s : σ) (xs : List α) (e : Err) (h : Yields next s xs e) :
    ∃ it ys, sortWith sort next s = some it ∧ it.YieldsForever ys e ∧
      (e = .eoi → ys.Perm xs ∧ ys.Pairwise le) ∧ (e ≠ .eoi → ys = []) := by
  obtain ⟨st, hf⟩ := reduceToSlice_first next s xs e h
  by_cases he : e = .eoi
  · simp only [he, if_true] at *
    exact ⟨anySlice (sort xs), sort xs, by simp only [sortWith, hf], anySlice_forever _, fun _ => hsort xs, by simp⟩
  · simp only [he, if_false] at *
    exact ⟨anyError e, [], by simp only [sortWith, hf], anyError_forever e, by simp, by simp⟩

/-- Non-vacuity: odd and even lengths. -/
example : sliceReverse [1, 2, 3, 4, 5] = [5, 4, 3, 2, 1] ∧ sliceReverse [1, 2, 3, 4] = [4, 3, 2, 1] := by
  constructor <;> rw [c39_sliceReverse] <;> rfl

/-! ### C40 -/

theorem addInt_spec (k : Kind) (hk : k.signed = true) (v s : Int) (hv : k.InRange v) (hs : k.InRange s) :
      (k.maxV < s + v → ∃ r, MathInt.addInt k v s = (r, some .overflow)) ∧
      (s + v < k.minV → ∃ r, MathInt.addInt k v s = (r, some .underflow)) ∧
      (k.InRange (s + v) → MathInt.addInt k v s = (s + v, none)) := by
  rw [MathInt.c15_addInt k v s hk hv hs, Int.add_comm v s]
  have hlt : k.minV ≤ k.maxV := by cases k <;> decide
  refine ⟨fun h => ⟨_, by rw [if_pos h]⟩, fun h => ⟨_, by rw [if_neg (by omega), if_pos h]⟩, fun h => ?_⟩
  rw [if_neg (by have := h.2; omega), if_neg (by have := h.1; omega)]

theorem addUint_spec (k : Kind) (hk : k.signed = false) (v s : Int) (hv : k.InRange v) (hs : k.InRange s) :
      (k.maxV < s + v → ∃ r, MathInt.addUint k v s = (r, some .overflow)) ∧
      (s + v < k.minV → ∃ r, MathInt.addUint k v s = (r, some .underflow)) ∧
      (k.InRange (s + v) → MathInt.addUint k v s = (s + v, none)) := by
  rw [MathInt.c15_addUint k v s hk hv hs, Int.add_comm v s]
  have hmin : k.minV = 0 := by cases k <;> simp [Kind.signed] at hk <;> rfl
  have := hv.1
  have := hs.1
  refine ⟨fun h => ⟨_, by rw [if_pos h]⟩, fun h => by omega, fun h => ?_⟩
  rw [if_neg (by have := h.2; omega)]

theorem avg_yields (add : Kind → Int → Int → Int × Option MathInt.MErr) (k c64 : Kind)
    (hadd : ∀ v s, k.InRange v → k.InRange s →
      (k.maxV < s + v → ∃ r, add k v s = (r, some .overflow)) ∧
      (s + v < k.minV → ∃ r, add k v s = (r, some .underflow)) ∧
      (k.InRange (s + v) → add k v s = (s + v, none)))
    {next : Call σ Int} {s : σ} {xs : List Int} {e : Err} (h : YieldsForever next s xs e)
    (hx : ∀ x ∈ xs, k.InRange x) (hc : c64.InRange xs.length) :
    YieldsForever (It.next (avgLoop add k c64 next 0 0)) (ofIter s)
      (if sumsOk k 0 xs = none ∧ e = .eoi ∧ xs ≠ [] then [avgResult k c64 xs.sum xs.length] else [])
      ((sumsOk k 0 xs).getD e) := by
  refine ofIter_forever ?_
  have hz : k.InRange 0 := by cases k <;> decide
  have hz64 : c64.minV ≤ 0 := by cases c64 <;> decide
  obtain ⟨s', hs', hres⟩ := avgLoop_eq add k c64 hadd h hx 0 0 hz (by omega) (by
    intro i hi
    have := hc.2
    exact ⟨by omega, by omega⟩)
  have hres := hres _ rfl
  cases hso : sumsOk k 0 xs with
  | some e' =>
    simp only [hso] at hres
    obtain ⟨s'', hr⟩ := hres.2 e' rfl
    simpa using Yields.stop hr
  | none =>
    simp only [hso] at hres
    by_cases he : e = .eoi
    · by_cases hxs : xs = []
      · subst hxs
        simp only [he, if_true, List.length_nil] at hres
        obtain ⟨s'', hr⟩ := hres.2 .eoi (by simp)
        simpa [he] using Yields.stop hr
      · have hlen : ¬ ((0 : Int) + xs.length = 0) := by
          have : 0 < xs.length := List.length_pos_iff.mpr hxs
          omega
        simp only [he, if_true, hlen, if_false] at hres
        have hr := hres.1 _ rfl
        simp only [he, hxs, ne_eq, not_false_eq_true, and_self, if_true, Option.getD_none]
        simp only [Int.zero_add] at hr
        refine .value hr ?_
        subst he
        obtain ⟨s1, g1, g2⟩ := forever_nil hs'
        exact .stop (s' := s1) (by rw [avgLoop]; simp only [g1]; simp)
    · simp only [he, if_false] at hres
      obtain ⟨s'', hr⟩ := hres.2 e rfl
      simpa [he] using Yields.stop hr

theorem sumsOk_inRange (k : Kind) (xs : List Int) (s : Int) (hs : k.InRange s) (h : sumsOk k s xs = none) :
    k.InRange (s + xs.sum) := by
  induction xs generalizing s with
  | nil => simpa using hs
  | cons x xs ih =>
    simp only [sumsOk] at h
    split at h
    · simp at h
    · split at h
      · simp at h
      · have := ih (s + x) ⟨by omega, by omega⟩ h
        rw [List.sum_cons, ← Int.add_assoc]; exact this

/-- The rounded quotient lies between 0 and the dividend. -/
theorem roundsTo_bound (n d q : Int) (hd : 0 < d) (h : MathInt.RoundsTo n d q) :
    (0 ≤ n → 0 ≤ q ∧ q ≤ n) ∧ (n ≤ 0 → n ≤ q ∧ q ≤ 0) := by
  obtain ⟨h1, -⟩ := h
  have a1 : 2 * (q * d - n) ≤ d := by omega
  have a2 : -d ≤ 2 * (q * d - n) := by omega
  refine ⟨fun hn => ⟨?_, ?_⟩, fun hn => ⟨?_, ?_⟩⟩
  · by_contra hq
    have : q ≤ -1 := by omega
    nlinarith
  · by_contra hq
    have : n + 1 ≤ q := by omega
    nlinarith
  · by_contra hq
    have : q + 1 ≤ n := by omega
    nlinarith
  · by_contra hq
    have : 1 ≤ q := by omega
    nlinarith

theorem roundsTo_inRange (k : Kind) (n d q : Int) (hd : 0 < d) (h : MathInt.RoundsTo n d q) (hn : k.InRange n) :
    k.InRange q := by
  obtain ⟨b1, b2⟩ := roundsTo_bound n d q hd h
  have hmin : k.minV ≤ 0 := by cases k <;> decide
  have hmax : 0 ≤ k.maxV := by cases k <;> decide
  obtain ⟨n1, n2⟩ := hn
  by_cases h0 : 0 ≤ n
  · have := b1 h0; exact ⟨by omega, by omega⟩
  · have := b2 (by omega); exact ⟨by omega, by omega⟩

/-- C40. AvgUint: the mean rounded half up, or the overflow error, or nothing. -/
theorem c40_avgUint (k : Kind) (hk : k.signed = false) (next : Call σ Int) (s : σ) (xs : List Int) (e : Err)
    (h : YieldsForever next s xs e) (hx : ∀ x ∈ xs, k.InRange x) (hc : xs.length < 2 ^ 64) :
    ∃ ys, YieldsForever (It.next (avgUintCall k next)) (ofIter s) ys ((sumsOk k 0 xs).getD e) ∧
      ((sumsOk k 0 xs = none ∧ e = .eoi ∧ xs ≠ []) →
        ∃ q, ys = [q] ∧ MathInt.RoundsTo xs.sum xs.length q) ∧
      (¬ (sumsOk k 0 xs = none ∧ e = .eoi ∧ xs ≠ []) → ys = []) := by
  have hcount : Kind.uint64.InRange (xs.length : Int) := by
    constructor
    · simp [Kind.minV, Kind.signed]
    · simp [Kind.maxV, Kind.signed, Kind.bits]; omega
  have hy := avg_yields MathInt.addUint k .uint64 (addUint_spec k hk) h hx hcount
  refine ⟨_, hy, ?_, fun hn => by rw [if_neg hn]⟩
  rintro hyp
  rw [if_pos hyp]
  refine ⟨_, rfl, ?_⟩
  obtain ⟨hso, -, hne⟩ := hyp
  have hsum : k.InRange xs.sum := by
    have := sumsOk_inRange k xs 0 (by cases k <;> decide) hso
    simpa using this
  have hsum64 : Kind.uint64.InRange xs.sum := by
    cases k <;> simp [Kind.signed] at hk <;> clear hy <;> kind_norm <;> omega
  have hlen : (xs.length : Int) ≠ 0 := by
    have : 0 < xs.length := List.length_pos_iff.mpr hne
    omega
  obtain ⟨q, hq, hr⟩ := MathInt.c18_div_unsigned .uint64 xs.sum xs.length 0 rfl hsum64 hcount hlen
  have hqk : k.InRange q ∧ Kind.uint64.InRange q :=
    ⟨roundsTo_inRange k _ _ q (by omega) hr hsum, roundsTo_inRange .uint64 _ _ q (by omega) hr hsum64⟩
  have : avgResult k .uint64 xs.sum xs.length = q := by
    simp only [avgResult, Conv.c21_to_exact k .uint64 _ _ hsum, if_pos hsum64, hq,
      Conv.c21_to_exact .uint64 k q _ hqk.2, if_pos hqk.1]
  rw [this]; exact hr

example := c40_avgUint .uint8 rfl (It.next (sliceCall [1, 2, 200])) (ofIter 0) [1, 2, 200] .eoi (c26_slice _) (by decide) (by decide)

/-- C40 is false for AvgInt: the mean of -1 and 0 comes out as +1 (the division rounds -1/2 to +1). -/
theorem c40_avgInt_refuted :
    YieldsForever (It.next (avgIntCall .int (It.next (sliceCall [-1, 0])))) (ofIter (ofIter 0)) [1] .eoi ∧
    ¬ MathInt.RoundsTo (-1 + 0) 2 1 := by
  refine ⟨?_, by unfold MathInt.RoundsTo; decide⟩
  have := avg_yields MathInt.addInt .int .int64 (addInt_spec .int rfl) (c26_slice [-1, 0]) (by decide) (by decide)
  exact this

/-- C40 for AvgInt, all sequences except those with a negative sum strictly between -n and -n/2
(inclusive), where the mean is rounded to +1 (see `MathInt.WrongSide` and c18). Missing: those. -/
theorem c40_avgInt_partial (k : Kind) (hk : k.signed = true) (next : Call σ Int) (s : σ) (xs : List Int) (e : Err)
    (h : YieldsForever next s xs e) (hx : ∀ x ∈ xs, k.InRange x) (hc : xs.length < 2 ^ 63)
    (hw : ¬ MathInt.WrongSide xs.sum xs.length) :
    ∃ ys, YieldsForever (It.next (avgIntCall k next)) (ofIter s) ys ((sumsOk k 0 xs).getD e) ∧
      ((sumsOk k 0 xs = none ∧ e = .eoi ∧ xs ≠ []) →
        ∃ q, ys = [q] ∧ MathInt.RoundsTo xs.sum xs.length q) ∧
      (¬ (sumsOk k 0 xs = none ∧ e = .eoi ∧ xs ≠ []) → ys = []) := by
  have hcount : Kind.int64.InRange (xs.length : Int) := by
    constructor
    · simp [Kind.minV, Kind.signed, Kind.bits]
    · simp [Kind.maxV, Kind.signed, Kind.bits]; omega
  have hy := avg_yields MathInt.addInt k .int64 (addInt_spec k hk) h hx hcount
  refine ⟨_, hy, ?_, fun hn => by rw [if_neg hn]⟩
  rintro hyp
  rw [if_pos hyp]
  refine ⟨_, rfl, ?_⟩
  obtain ⟨hso, -, hne⟩ := hyp
  have hsum : k.InRange xs.sum := by
    have := sumsOk_inRange k xs 0 (by cases k <;> decide) hso
    simpa using this
  have hsum64 : Kind.int64.InRange xs.sum := by
    cases k <;> simp [Kind.signed] at hk <;> clear hy hw <;> kind_norm <;> omega
  have hlen : (xs.length : Int) ≠ 0 := by
    have : 0 < xs.length := List.length_pos_iff.mpr hne
    omega
  obtain ⟨q, hq, hr⟩ := MathInt.c18_div_signed_partial .int64 xs.sum xs.length 0 rfl hsum64 hcount hlen hw (by omega)
  have hqk : k.InRange q ∧ Kind.int64.InRange q :=
    ⟨roundsTo_inRange k _ _ q (by omega) hr hsum, roundsTo_inRange .int64 _ _ q (by omega) hr hsum64⟩
  have : avgResult k .int64 xs.sum xs.length = q := by
    simp only [avgResult, Conv.c21_to_exact k .int64 _ _ hsum, if_pos hsum64, hq,
      Conv.c21_to_exact .int64 k q _ hqk.2, if_pos hqk.1]
  rw [this]; exact hr

/-- Non-vacuity: -1, 5 (mean 2) and an overflowing int8 sum. -/
example : sumsOk .int8 0 [-1, 5] = none ∧ ¬ MathInt.WrongSide 4 2 ∧ sumsOk .int8 0 [100, 27, 1] = some .overflow := by
  refine ⟨by decide, ?_, by decide⟩
  unfold MathInt.WrongSide; decide

end Micro.Stream
