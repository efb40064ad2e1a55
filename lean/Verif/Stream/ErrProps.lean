import Verif.Stream.Props

/-!
C33, C34, C37: reductions of a source that fails, and `ReduceToBool` with any identity and stopping value.
-/

namespace Micro.Stream

open Micro Iter

variable {σ α β : Type}

/-- C34. ReduceToBool(p, identity, stop), for every identity, stopping value, source and end of the source:
the answer for an empty source is the identity, whatever the stopping value; otherwise it is the stopping
value if some element gives it, and the other truth value if all elements were read and none gives it; an
error before the answer is known is returned instead of an answer. -/
theorem c34_reduceToBool (p : α → Bool) (identity stop : Bool) (next : Call σ α) (s : σ) (xs : List α) (e : Err)
    (h : Yields next s xs e) :
    (xs = [] → e = .eoi →
      YieldsForever (It.next (reduceToBoolCall p identity stop next)) (ofIter (false, s)) [identity] .eoi) ∧
    ((∃ x ∈ xs, p x = stop) →
      YieldsForever (It.next (reduceToBoolCall p identity stop next)) (ofIter (false, s)) [stop] .eoi) ∧
    (xs ≠ [] → (∀ x ∈ xs, p x ≠ stop) → e = .eoi →
      YieldsForever (It.next (reduceToBoolCall p identity stop next)) (ofIter (false, s)) [!stop] .eoi) ∧
    ((∀ x ∈ xs, p x ≠ stop) → e ≠ .eoi →
      YieldsForever (It.next (reduceToBoolCall p identity stop next)) (ofIter (false, s)) [] e) := by
  have again : ∀ s, reduceToBoolCall p identity stop next (true, s) = some (.error .eoi, (true, s)) := by
    intro s; simp [reduceToBoolCall]
  cases h with
  | @stop _ s' _ h =>
    refine ⟨fun _ he => ?_, by simp, by simp, fun _ he => ?_⟩
    · have hc : reduceToBoolCall p identity stop next (false, s) = some (.ok identity, (true, s')) := by
        simp [reduceToBoolCall, h, he]
      exact ofIter_forever ((once_yields hc again).1 _ rfl)
    · have hc : reduceToBoolCall p identity stop next (false, s) = some (.error e, (true, s')) := by
        simp [reduceToBoolCall, h, he]
      exact ofIter_forever ((once_yields hc again).2 _ rfl)
  | @value _ s' x xs _ h h' =>
    have key : ∃ s'', reduceToBoolCall p identity stop next (false, s) =
        some (if (∃ y ∈ x :: xs, p y = stop) then .ok stop else if e = .eoi then .ok (!stop) else .error e,
          (true, s'')) := by
      by_cases hx : p x = stop
      · exact ⟨s', by simp [reduceToBoolCall, h, hx]⟩
      · have hpx : p x = !stop := by cases h1 : p x <;> cases stop <;> simp_all
        obtain ⟨s'', hf⟩ := boolLoop_eq p stop (!stop) (by simp) h'
        refine ⟨s'', ?_⟩
        have e1 : ¬ ((!stop) = stop) := by cases stop <;> simp
        simp only [reduceToBoolCall, h, hpx, e1, if_false, hf, withState, Bool.false_eq_true, List.mem_cons,
          exists_eq_or_imp, false_or]
    obtain ⟨s'', hc⟩ := key
    refine ⟨by simp, fun hex => ?_, fun _ hno he => ?_, fun hno he => ?_⟩
    · rw [if_pos hex] at hc
      exact ofIter_forever ((once_yields hc again).1 _ rfl)
    · rw [if_neg (by rintro ⟨y, hy, hp⟩; exact hno y hy hp), if_pos he] at hc
      exact ofIter_forever ((once_yields hc again).1 _ rfl)
    · rw [if_neg (by rintro ⟨y, hy, hp⟩; exact hno y hy hp), if_neg he] at hc
      exact ofIter_forever ((once_yields hc again).2 _ rfl)

/-- A source that gives 1 and 2 and then fails. -/
def failing : Call Nat Nat := fun n =>
  if n < 2 then some (.ok (n + 1), n + 1) else some (.error (.user 7), n)

theorem failing_yields : Yields failing 0 [1, 2] (.user 7) :=
  .value (s' := 1) rfl (.value (s' := 2) rfl (.stop (s' := 2) rfl))

/-- Non-vacuity: identity and stopping value may be equal, and the source may fail. -/
example := (c34_reduceToBool (fun n => n == 3) true true (It.next (sliceCall [1, 2])) (ofIter 0) [1, 2] .eoi
  (yields_of_forever (c26_slice _))).2.2.1 (by simp) (by decide) rfl
example := (c34_reduceToBool (fun n => n == 3) false true failing 0 [1, 2] (.user 7) failing_yields).2.2.2
  (by decide) (by decide)

/-- C34. AllMatch, AnyMatch and NoneMatch of a source that fails: if an element decided the answer before the
failure, the answer is given as if the source had not failed; otherwise the result is the error and no answer. -/
theorem c34_error (p : α → Bool) (next : Call σ α) (s : σ) (xs : List α) (e : Err)
    (h : Yields next s xs e) (he : e ≠ .eoi) :
    ((∃ x ∈ xs, p x = false) → YieldsForever (It.next (allMatchCall p next)) (ofIter (false, s)) [false] .eoi) ∧
    ((∀ x ∈ xs, p x = true) → YieldsForever (It.next (allMatchCall p next)) (ofIter (false, s)) [] e) ∧
    ((∃ x ∈ xs, p x = true) →
      YieldsForever (It.next (anyMatchCall p next)) (ofIter (false, s)) [true] .eoi ∧
      YieldsForever (It.next (noneMatchCall p next)) (ofIter (false, s)) [false] .eoi) ∧
    ((∀ x ∈ xs, p x = false) →
      YieldsForever (It.next (anyMatchCall p next)) (ofIter (false, s)) [] e ∧
      YieldsForever (It.next (noneMatchCall p next)) (ofIter (false, s)) [] e) := by
  obtain ⟨-, a1, -, a2⟩ := c34_reduceToBool p true false next s xs e h
  obtain ⟨-, b1, -, b2⟩ := c34_reduceToBool p false true next s xs e h
  obtain ⟨-, c1, -, c2⟩ := c34_reduceToBool (fun t => !p t) true false next s xs e h
  refine ⟨a1, fun hx => a2 (fun x m => by simp [hx x m]) he, fun ⟨x, m, hx⟩ => ⟨b1 ⟨x, m, hx⟩, c1 ⟨x, m, by simp [hx]⟩⟩,
    fun hx => ⟨b2 (fun x m => by simp [hx x m]) he, c2 (fun x m => by simp [hx x m]) he⟩⟩

example := (c34_error (fun n => n == 2) failing 0 [1, 2] (.user 7) failing_yields (by decide)).2.2.1 ⟨2, by decide⟩
example := (c34_error (fun n => n == 3) failing 0 [1, 2] (.user 7) failing_yields (by decide)).2.2.2 (by decide)

/-- C33. Count of a source that fails is the error and no number. -/
theorem c33_count_error (next : Call σ α) (s : σ) (xs : List α) (e : Err) (h : Yields next s xs e) (he : e ≠ .eoi) :
    YieldsForever (It.next (countCall next)) (ofIter (false, s)) [] e := by
  have := c33_reduceTo 0 (fun (c : Int) (_ : α) => Kind.int.wrap (c + 1)) (some 0) next s xs e h
  simpa [he, countCall] using this

example := c33_count_error failing 0 [1, 2] (.user 7) failing_yields (by decide)

/-- C37. ReduceToMap of a source that fails is the error: no map, not even with the pairs read before. -/
theorem c37_error {κ ν : Type} [DecidableEq κ] (next : Call σ (κ × ν)) (s : σ) (kvs : List (κ × ν)) (e : Err)
    (h : Yields next s kvs e) (he : e ≠ .eoi) :
    YieldsForever (It.next (reduceToMapCall next)) (ofIter (false, s)) [] e := by
  obtain ⟨s'', hf⟩ := foldLoop_eq (fun (m : κ → Option ν) (kv : κ × ν) => fun k => if k = kv.1 then some kv.2 else m k)
    h (fun _ => none)
  have hc : reduceToMapCall next (false, s) = some (.error e, (true, s'')) := by
    simp only [reduceToMapCall, Bool.false_eq_true, if_false]
    rw [hf]
    simp [withState, he]
  exact ofIter_forever ((once_yields hc (by intro s; simp [reduceToMapCall])).2 _ rfl)

/-- Two pairs and then a failure. -/
def failingPairs : Call Nat (Nat × Char) := fun n =>
  if n < 2 then some (.ok (n, 'a'), n + 1) else some (.error (.user 7), n)

example := c37_error failingPairs 0 [(0, 'a'), (1, 'a')] (.user 7)
  (.value (s' := 1) rfl (.value (s' := 2) rfl (.stop (s' := 2) rfl))) (by decide)

end Micro.Stream
