import Verif.Stream.AlgebraProps
/-
C117: Filter and Concat.
-/
namespace Micro.Stream
open Micro Micro.Iter

variable {σ α : Type}

section
variable (p : α → Bool) (next : Call σ α)

/-- The filter over a concatenation, at its beginning or after some values. -/
def overConcat (srcs : List (Option σ)) : Option (Except Err α × (It (ConcatState σ) α × Unit)) :=
  filterCall (pure p) (It.next (concatCall next)) (ofIter ⟨srcs, .eoi⟩, ())

theorem overConcat_nil : overConcat p next [] = some (.error .eoi, (⟨none, [], some .eoi⟩, ())) := by
  unfold overConcat
  rw [filterCall, next_fresh]
  rfl

theorem overConcat_none (rest : List (Option σ)) : overConcat p next (none :: rest) = overConcat p next rest := by
  unfold overConcat
  have h : It.next (concatCall next) (ofIter ⟨none :: rest, .eoi⟩) = It.next (concatCall next) (ofIter ⟨rest, .eoi⟩) := by
    rw [next_fresh, next_fresh]; rfl
  rw [filterCall, filterCall, h]

/-- What the filter over the concatenation returns, if the filter over the first iterator returns r. -/
def afterFirst (rest : List (Option σ)) : Except Err α × (σ × Unit) → Option (Except Err α × (It (ConcatState σ) α × Unit))
  | (.ok v, s') => some (.ok v, (ofIter ⟨some s'.1 :: rest, .eoi⟩, ()))
  | (.error e, _) => if e ≠ .eoi then some (.error e, (⟨none, [], some e⟩, ())) else overConcat p next rest

/-- While the first iterator has values. -/
theorem overConcat_first (rest : List (Option σ)) (st : σ × Unit) (r : Except Err α × (σ × Unit)) (h : FilterRes (pure p) next st r) :
    overConcat p next (some st.1 :: rest) = afterFirst p next rest r := by
  induction h with
  | @error s c e s' h =>
    simp only [afterFirst]
    by_cases he : e = .eoi
    · subst he
      unfold overConcat
      have h2 : It.next (concatCall next) (ofIter ⟨some s :: rest, .eoi⟩) = It.next (concatCall next) (ofIter ⟨rest, .eoi⟩) := by
        rw [next_fresh, next_fresh]
        simp [concatCall, concatGo, h]
      rw [filterCall, h2]
      simp only [ne_eq, not_true_eq_false, if_false]
      rw [filterCall]
    · unfold overConcat
      rw [filterCall, next_fresh]
      simp [concatCall, concatGo, h, he]
  | @keep s c v s' h hb =>
    unfold overConcat
    rw [filterCall, next_fresh]
    simp only [pure] at hb
    simp [concatCall, concatGo, h, pure, hb, afterFirst]
  | @drop s c v s' r h hb _ ih =>
    rw [← ih]
    unfold overConcat
    rw [filterCall, next_fresh]
    simp only [pure] at hb
    simp [concatCall, concatGo, h, pure, hb]

/-- If the filter over the concatenation returns, so does the filter over the first iterator. -/
theorem overConcat_returns (rest : List (Option σ)) (s : σ) (r : Except Err α × (It (ConcatState σ) α × Unit)) (h : overConcat p next (some s :: rest) = some r) :
    ∃ r', filterCall (pure p) next (s, ()) = some r' := by
  unfold overConcat at h
  rw [filter_some_iff] at h
  generalize hst : ((ofIter ⟨some s :: rest, .eoi⟩ : It (ConcatState σ) α), ()) = st at h
  induction h generalizing s with
  | @error x c e x' h =>
    cases hst
    rw [filterCall]
    rw [next_fresh] at h
    rcases hn : next s with _ | ⟨e' | v, s'⟩
    · simp [concatCall, concatGo, hn] at h
    · exact ⟨_, rfl⟩
    · simp [concatCall, concatGo, hn] at h
  | @keep x c v x' h hb =>
    cases hst
    rw [filterCall]
    rw [next_fresh] at h
    rcases hn : next s with _ | ⟨e' | w, s'⟩
    · simp [concatCall, concatGo, hn] at h
    · exact ⟨_, rfl⟩
    · simp only [concatCall, concatGo, hn, Option.some.injEq, Prod.mk.injEq, Except.ok.injEq] at h
      obtain ⟨rfl, -⟩ := h
      simp only [pure] at hb
      exact ⟨(.ok w, (s', ())), by simp [pure, hb]⟩
  | @drop x c v x' r h hb _ ih =>
    cases hst
    rw [filterCall]
    rw [next_fresh] at h
    rcases hn : next s with _ | ⟨e' | w, s'⟩
    · simp [concatCall, concatGo, hn] at h
    · exact ⟨_, rfl⟩
    · simp only [concatCall, concatGo, hn, Option.some.injEq, Prod.mk.injEq, Except.ok.injEq] at h
      obtain ⟨rfl, rfl⟩ := h
      simp only [pure] at hb
      simp only [pure, hb, Bool.false_eq_true, if_false]
      exact ih s' rfl

end

/-- C117: filtering a concatenation is concatenating the filtered iterators. -/
theorem c117_filter_concat (p : α → Bool) (next : Call σ α) (srcs : List (Option σ)) :
    Same (It.next (filterCall (pure p) (It.next (concatCall next)))) (ofIter (ofIter ⟨srcs, .eoi⟩, ()))
      (It.next (concatCall (It.next (filterCall (pure p) next)))) (ofIter ⟨srcs.map (Option.map fun s => ofIter (s, ())), .eoi⟩) := by
  refine same_ofIter (fun x y => ∃ srcs, x = (ofIter ⟨srcs, .eoi⟩, ()) ∧ y = ⟨srcs.map (Option.map fun s => ofIter (s, ())), .eoi⟩) ?_ ⟨srcs, rfl, rfl⟩
  rintro x y ⟨srcs, rfl, rfl⟩
  change StepEq' _ (overConcat p next srcs) (concatGo (It.next (filterCall (pure p) next)) _ _)
  induction srcs with
  | nil => rw [overConcat_nil]; exact rfl
  | cons o rest ih =>
    cases o with
    | none => rw [overConcat_none]; exact ih
    | some s =>
      simp only [List.map_cons, Option.map_some, concatGo]
      rw [next_fresh]
      rcases hf : filterCall (pure p) next (s, ()) with _ | ⟨e | v, s'⟩
      · rcases ho : overConcat p next (some s :: rest) with _ | r
        · trivial
        · obtain ⟨r', hr'⟩ := overConcat_returns p next rest s r ho
          rw [hf] at hr'
          cases hr'
      · have h := overConcat_first p next rest (s, ()) _ ((filter_some_iff _ _ _ _).mp hf)
        simp only [afterFirst] at h
        rw [h]
        by_cases he : e = .eoi
        · subst he
          simpa using ih
        · simp only [ne_eq, he, not_false_eq_true, if_true]
          exact rfl
      · have h := overConcat_first p next rest (s, ()) _ ((filter_some_iff _ _ _ _).mp hf)
        simp only [afterFirst] at h
        rw [h]
        exact ⟨rfl, some s'.1 :: rest, rfl, rfl⟩

/-- Three iterators, the first without values that pass, the second nil, the third failing after three values. -/
example : ∃ next : Call (List Nat) Nat,
    results (It.next (filterCall (pure (fun n => n % 2 == 0)) (It.next (concatCall next)))) 3 (ofIter (ofIter ⟨[some [1, 3], none, some [2, 5, 4, 0]], .eoi⟩, ())) =
      some [.ok 2, .ok 4, .error (.user 7)] := by
  let next : Call (List Nat) Nat := fun l => match l with
    | [] => some (.error .eoi, [])
    | 0 :: l => some (.error (.user 7), l)
    | n :: l => some (.ok n, l)
  refine ⟨next, ?_⟩
  rw [c117_filter_concat (fun n => n % 2 == 0) next [some [1, 3], none, some [2, 5, 4, 0]] 3]
  simp [results, It.next, ofIter, concatCall, concatGo, filterCall, pure, next]

end Micro.Stream
