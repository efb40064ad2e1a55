import Verif.Stream.AlgebraLemmas
import Verif.Stream.Props
set_option linter.unusedSimpArgs false
/-
C117: pipelines may be rewritten. The source is arbitrary: it may end, fail, be endless, return values again after an
error, or not return from a call.
-/
namespace Micro.Stream
open Micro Micro.Iter

variable {σ τ α β γ φ ψ : Type}

theorem next_fresh (c : Call σ α) (s : σ) : It.next c (ofIter s) = match c s with
    | none => none
    | some (.ok v, s') => some (.ok v, ofIter s')
    | some (.error e, _) => some (.error e, ⟨none, [], some e⟩) := by
  rw [next_source c _ s rfl rfl]
  rcases c s with _ | ⟨_ | _, _⟩ <;> rfl

/-- `Same` is not trivial: it tells values, errors and lengths apart. -/
example : ¬ Same (It.next (sliceCall [1, 2])) (ofIter 0) (It.next (sliceCall [1, 3])) (ofIter 0) ∧
    ¬ Same (It.next (sliceCall [1, 2])) (ofIter 0) (It.next (sliceCall [1, 2, 3])) (ofIter 0) ∧
    ¬ Same (It.next (sliceCall ([] : List Nat))) (ofIter 0) (It.next (fun _ : Nat => some (.error (.user 1), 0))) (ofIter 0) := by
  refine ⟨fun h => ?_, fun h => ?_, fun h => ?_⟩
  · have := h 2; simp [results, It.next, ofIter, sliceCall] at this
  · have := h 3; simp [results, It.next, ofIter, sliceCall] at this
  · have := h 1; simp [results, It.next, ofIter, sliceCall] at this

/-- C117: transforming two sources that cannot be told apart gives iterators that cannot be told apart: so the laws below
may be applied anywhere in a longer pipeline. -/
theorem c117_congruence (next : Call σ α) (next' : Call τ α) (s : σ) (t : τ) (h : Same next s next' t) :
    (∀ f : α → β, Same (It.next (mapCall f next)) (ofIter s) (It.next (mapCall f next')) (ofIter t)) ∧
    (∀ f : α → Except Err β, Same (It.next (mapErrorCall f next)) (ofIter s) (It.next (mapErrorCall f next')) (ofIter t)) ∧
    (∀ (p : φ → α → Bool × φ) (c : φ), Same (It.next (filterCall p next)) (ofIter (s, c)) (It.next (filterCall p next')) (ofIter (t, c))) ∧
    (∀ n, Same (It.next (skipCall next)) (ofIter (n, s)) (It.next (skipCall next')) (ofIter (n, t))) ∧
    (∀ n, Same (It.next (limitCall next)) (ofIter (n, s)) (It.next (limitCall next')) (ofIter (n, t))) ∧
    (∀ l, Same (It.next (peekCall next)) (ofIter (l, s)) (It.next (peekCall next')) (ofIter (l, t))) := by
  refine ⟨fun f => ?_, fun f => ?_, fun p c => ?_, fun n => ?_, fun n => ?_, fun l => ?_⟩
  · refine same_ofIter (fun s t => Same next s next' t) (fun s t h => ?_) h
    have hs := h.step
    unfold mapCall
    rcases hc : next s with _ | ⟨_ | _, _⟩ <;> rcases hd : next' t with _ | ⟨_ | _, _⟩ <;> rw [hc, hd] at hs <;>
      first | trivial | exact hs.elim | skip
    · obtain ⟨he, h'⟩ := hs; cases he; exact rfl
    · obtain ⟨he, _⟩ := hs; cases he
    · obtain ⟨he, _⟩ := hs; cases he
    · obtain ⟨he, h'⟩ := hs; cases he; exact ⟨rfl, h'⟩
  · refine same_ofIter (fun s t => Same next s next' t) (fun s t h => ?_) h
    have hs := h.step
    unfold mapErrorCall
    rcases hc : next s with _ | ⟨_ | v, _⟩ <;> rcases hd : next' t with _ | ⟨_ | u, _⟩ <;> rw [hc, hd] at hs <;>
      first | trivial | exact hs.elim | skip
    · obtain ⟨he, h'⟩ := hs; cases he; exact rfl
    · obtain ⟨he, _⟩ := hs; cases he
    · obtain ⟨he, _⟩ := hs; cases he
    · obtain ⟨he, h'⟩ := hs
      cases he
      rcases hf : f v with _ | _ <;> simp only [hf]
      · exact rfl
      · exact ⟨rfl, h'⟩
  · refine same_ofIter (fun x y => Same next x.1 next' y.1 ∧ x.2 = y.2) (fun x y hxy => ?_) ⟨h, rfl⟩
    have := filter_sim p p next next' (fun a b => a = b) (fun x y => Same next x.1 next' y.1 ∧ x.2 = y.2)
      (fun s c t d hst => by
        obtain ⟨hst, rfl⟩ := hst
        have hs := hst.step
        simp only at hs
        rcases hc : next s with _ | ⟨_ | _, _⟩ <;> rcases hd : next' t with _ | ⟨_ | _, _⟩ <;> rw [hc, hd] at hs <;>
          first | trivial | exact hs.elim | skip
        · obtain ⟨he, h'⟩ := hs; cases he; exact rfl
        · obtain ⟨he, _⟩ := hs; cases he
        · obtain ⟨he, _⟩ := hs; cases he
        · obtain ⟨he, h'⟩ := hs; cases he; exact ⟨rfl, rfl, h', rfl⟩) x y hxy
    revert this
    rcases filterCall p next x with _ | ⟨_ | _, _⟩ <;> rcases filterCall p next' y with _ | ⟨_ | _, _⟩ <;> exact id
  · have key : ∀ n s t, Same next s next' t → StepEq' (fun x y => x.1 = y.1 ∧ Same next x.2 next' y.2) (skipLoop next n s) (skipLoop next' n t) := by
      intro n
      induction n with
      | zero =>
        intro s t h
        have hs := h.step
        unfold skipLoop
        rcases hc : next s with _ | ⟨_ | _, _⟩ <;> rcases hd : next' t with _ | ⟨_ | _, _⟩ <;> rw [hc, hd] at hs <;>
          first | trivial | exact hs.elim | skip
        · obtain ⟨he, h'⟩ := hs; cases he; exact rfl
        · obtain ⟨he, _⟩ := hs; cases he
        · obtain ⟨he, _⟩ := hs; cases he
        · obtain ⟨he, h'⟩ := hs; cases he; exact ⟨rfl, rfl, h'⟩
      | succ n ih =>
        intro s t h
        have hs := h.step
        unfold skipLoop
        rcases hc : next s with _ | ⟨_ | _, _⟩ <;> rcases hd : next' t with _ | ⟨_ | _, _⟩ <;> rw [hc, hd] at hs <;>
          first | trivial | exact hs.elim | skip
        · obtain ⟨he, h'⟩ := hs; cases he; exact rfl
        · obtain ⟨he, _⟩ := hs; cases he
        · obtain ⟨he, _⟩ := hs; cases he
        · obtain ⟨he, h'⟩ := hs; cases he; exact ih _ _ h'
    refine same_ofIter (fun x y => x.1 = y.1 ∧ Same next x.2 next' y.2) ?_ ⟨rfl, h⟩
    rintro ⟨n, s⟩ ⟨_, t⟩ ⟨rfl, h⟩
    exact key n s t h
  · refine same_ofIter (fun x y => x.1 = y.1 ∧ Same next x.2 next' y.2) ?_ ⟨rfl, h⟩
    rintro ⟨n, s⟩ ⟨_, t⟩ ⟨rfl, h⟩
    have hs := h.step
    unfold limitCall
    cases n with
    | zero => exact rfl
    | succ n =>
      simp only at hs ⊢
      rcases hc : next s with _ | ⟨_ | _, _⟩ <;> rcases hd : next' t with _ | ⟨_ | _, _⟩ <;> rw [hc, hd] at hs <;>
        first | trivial | exact hs.elim | skip
      · obtain ⟨he, h'⟩ := hs; cases he; exact rfl
      · obtain ⟨he, _⟩ := hs; cases he
      · obtain ⟨he, _⟩ := hs; cases he
      · obtain ⟨he, h'⟩ := hs; cases he; exact ⟨rfl, rfl, h'⟩
  · refine same_ofIter (fun x y => Same next x.2 next' y.2) ?_ h
    rintro ⟨l, s⟩ ⟨l', t⟩ h
    have hs := h.step
    unfold peekCall
    simp only at hs ⊢
    rcases hc : next s with _ | ⟨_ | _, _⟩ <;> rcases hd : next' t with _ | ⟨_ | _, _⟩ <;> rw [hc, hd] at hs <;>
      first | trivial | exact hs.elim | skip
    · obtain ⟨he, h'⟩ := hs; cases he; exact rfl
    · obtain ⟨he, _⟩ := hs; cases he
    · obtain ⟨he, _⟩ := hs; cases he
    · obtain ⟨he, h'⟩ := hs; cases he; exact ⟨rfl, h'⟩

/-- The hypothesis of `c117_congruence` is met by different programs: here a slice, and the same slice after dropping a
first element. -/
example : Same (It.next (skipCall (sliceCall [5, 6]))) (ofIter (0, 0)) (It.next (skipCall (sliceCall [4, 5, 6]))) (ofIter (0, 1)) := by
  refine (c117_congruence (β := Nat) (φ := Unit) _ _ _ _ ?_).2.2.2.1 0
  refine same_of_bisim (fun i j => j = i + 1 ∧ i ≤ 2) ?_ ⟨rfl, by omega⟩
  rintro i j ⟨rfl, hi⟩
  have : i = 0 ∨ i = 1 ∨ i = 2 := by omega
  rcases this with rfl | rfl | rfl
  · exact ⟨rfl, rfl, by omega⟩
  · exact ⟨rfl, rfl, by omega⟩
  · exact ⟨rfl, rfl, by omega⟩

/-- C117: iterators that Next cannot tell apart cannot be told apart by mixing Next and Unread either. -/
theorem c117_unread {c : Call σ α} {d : Call τ α} {s : σ} {t : τ}
    (h : Same (It.next c) (ofIter s) (It.next d) (ofIter t)) (ops : List (Op α)) :
    runOps c (ofIter s) ops = runOps d (ofIter t) ops :=
  same_runOps rfl rfl h [] ops

/-- C117: two Maps are one Map; two MapErrors are one that stops at the first failure of either. -/
theorem c117_map_map (next : Call σ α) (s : σ) :
    (∀ (f : α → β) (g : β → γ), Same (It.next (mapCall g (It.next (mapCall f next)))) (ofIter (ofIter s))
      (It.next (mapCall (fun x => g (f x)) next)) (ofIter s)) ∧
    (∀ (f : α → Except Err β) (g : β → Except Err γ),
      Same (It.next (mapErrorCall g (It.next (mapErrorCall f next)))) (ofIter (ofIter s))
        (It.next (mapErrorCall (fun x => f x >>= g) next)) (ofIter s)) := by
  constructor
  · intro f g
    refine same_ofIter (fun x s => x = ofIter s) (fun x s hx => ?_) rfl
    subst hx
    unfold mapCall
    rw [next_fresh]
    rcases next s with _ | ⟨_ | _, _⟩
    · trivial
    · exact rfl
    · exact ⟨rfl, rfl⟩
  · intro f g
    refine same_ofIter (fun x s => x = ofIter s) (fun x s hx => ?_) rfl
    subst hx
    unfold mapErrorCall
    rw [next_fresh]
    rcases next s with _ | ⟨_ | v, _⟩
    · trivial
    · exact rfl
    · simp only
      rcases hf : f v with _ | u
      · exact rfl
      · simp only [bind, Except.bind]
        rcases hg : g u with _ | _
        · exact rfl
        · exact ⟨rfl, rfl⟩

/-- C117: filtering after mapping is mapping after filtering. -/
theorem c117_filter_map (f : α → β) (p : β → Bool) (next : Call σ α) (s : σ) :
    Same (It.next (filterCall (pure p) (It.next (mapCall f next)))) (ofIter (ofIter s, ()))
      (It.next (mapCall f (It.next (filterCall (pure (fun x => p (f x))) next)))) (ofIter (ofIter (s, ()))) := by
  refine same_ofIter (fun x y => ∃ s, x = (ofIter s, ()) ∧ y = ofIter (s, ())) ?_ ⟨s, rfl, rfl⟩
  rintro x y ⟨s, rfl, rfl⟩
  have := filter_sim (pure p) (pure (fun x => p (f x))) (It.next (mapCall f next)) next (fun b a => b = f a)
    (fun x y => x.1 = ofIter y.1) (fun s c t d hst => by
      simp only at hst
      subst hst
      rw [next_fresh]
      unfold mapCall
      rcases next t with _ | ⟨_ | v, t'⟩
      · trivial
      · exact rfl
      · exact ⟨rfl, rfl, rfl⟩) (ofIter s, ()) (s, ()) rfl
  have hm : mapCall f (It.next (filterCall (pure (fun x => p (f x))) next)) (ofIter (s, ())) =
      match filterCall (pure (fun x => p (f x))) next (s, ()) with
      | none => none
      | some (.ok v, s') => some (.ok (f v), ofIter s')
      | some (.error e, _) => some (.error e, ⟨none, [], some e⟩) := by
    unfold mapCall
    rw [next_fresh]
    rcases filterCall (pure (fun x => p (f x))) next (s, ()) with _ | ⟨_ | _, _⟩ <;> rfl
  rw [hm]
  revert this
  rcases filterCall (pure p) (It.next (mapCall f next)) (ofIter s, ()) with _ | ⟨_ | _, x⟩ <;>
    rcases filterCall (pure (fun x => p (f x))) next (s, ()) with _ | ⟨_ | _, y⟩ <;> intro this <;>
    first | trivial | exact this.elim | exact this | skip
  obtain ⟨h1, h2⟩ := this
  exact ⟨h1, y.1, by ext <;> simp [← h2], rfl⟩

/-- The predicate that asks q and then, for the values q keeps, p; both may have captured state. -/
def bothPred (q : ψ → α → Bool × ψ) (p : φ → α → Bool × φ) : ψ × φ → α → Bool × (ψ × φ) := fun c v =>
  if (q c.1 v).1 then ((p c.2 v).1, ((q c.1 v).2, (p c.2 v).2)) else (false, ((q c.1 v).2, c.2))

/-- C117: two Filters are one, which asks the predicates in their order; also for predicates with captured state, as in
Distinct and Duplicate. -/
theorem c117_filter_filter (q : ψ → α → Bool × ψ) (p : φ → α → Bool × φ) (next : Call σ α) (s : σ) (cq : ψ) (cp : φ) :
    Same (It.next (filterCall p (It.next (filterCall q next)))) (ofIter (ofIter (s, cq), cp))
      (It.next (filterCall (bothPred q p) next)) (ofIter (s, (cq, cp))) := by
  refine same_ofIter (fun x y => x = (ofIter (y.1, y.2.1), y.2.2)) ?_ rfl
  rintro x ⟨s, cq, cp⟩ rfl
  simp only
  -- the nested loops and the single loop return together
  have fwd2 : ∀ st r, FilterRes q next st r → ∀ cp,
      (∀ e s', r = (.error e, s') → FilterRes (bothPred q p) next (st.1, (st.2, cp)) (.error e, (s'.1, (s'.2, cp)))) ∧
      (∀ v s', r = (.ok v, s') → (p cp v).1 = true → FilterRes (bothPred q p) next (st.1, (st.2, cp)) (.ok v, (s'.1, (s'.2, (p cp v).2)))) ∧
      (∀ v s' r', r = (.ok v, s') → (p cp v).1 = false → FilterRes (bothPred q p) next (s'.1, (s'.2, (p cp v).2)) r' →
        FilterRes (bothPred q p) next (st.1, (st.2, cp)) r') := by
    intro st r hr
    induction hr with
    | @error s c e s' h =>
      intro cp
      refine ⟨fun e' t ht => ?_, fun v t ht => ?_, fun v t r' ht => ?_⟩
      · cases ht; exact .error h
      · cases ht
      · cases ht
    | @keep s c v s' h hb =>
      intro cp
      refine ⟨fun e' t ht => ?_, fun v t ht hp => ?_, fun v t r' ht hp hr => ?_⟩
      · cases ht
      · cases ht
        have := FilterRes.keep (p := bothPred q p) (c := (c, cp)) h (by simp [bothPred, hb, hp])
        simpa [bothPred, hb] using this
      · cases ht
        exact .drop h (by simp [bothPred, hb, hp]) (by simpa [bothPred, hb] using hr)
    | @drop s c v s' r h hb _ ih =>
      intro cp
      obtain ⟨i1, i2, i3⟩ := ih cp
      refine ⟨fun e' t ht => ?_, fun v t ht hp => ?_, fun v t r' ht hp hr => ?_⟩
      · exact .drop h (by simp [bothPred, hb]) (by simpa [bothPred, hb] using i1 e' t ht)
      · exact .drop h (by simp [bothPred, hb]) (by simpa [bothPred, hb] using i2 v t ht hp)
      · exact .drop h (by simp [bothPred, hb]) (by simpa [bothPred, hb] using i3 v t r' ht hp hr)
  have inner : ∀ st, It.next (filterCall q next) (ofIter st) = match filterCall q next st with
      | none => none
      | some (.ok v, s') => some (.ok v, ofIter s')
      | some (.error e, _) => some (.error e, ⟨none, [], some e⟩) := by
    intro st
    rw [next_fresh]
    rcases filterCall q next st with _ | ⟨_ | _, _⟩ <;> rfl
  have fwd : ∀ x r, FilterRes p (It.next (filterCall q next)) x r → ∀ st, x.1 = ofIter st →
      ∃ r', FilterRes (bothPred q p) next (st.1, (st.2, x.2)) r' ∧
        StepEq' (fun x y => x = (ofIter (y.1, y.2.1), y.2.2)) (some r) (some r') := by
    intro x r hr
    induction hr with
    | @error i c e i' h =>
      rintro st rfl
      rw [inner] at h
      rcases hq : filterCall q next st with _ | ⟨_ | _, s'⟩ <;> rw [hq] at h <;> simp at h
      obtain ⟨rfl, rfl⟩ := h
      exact ⟨_, (fwd2 st _ ((filter_some_iff _ _ _ _).mp hq) c).1 _ _ rfl, rfl⟩
    | @keep i c v i' h hb =>
      rintro st rfl
      rw [inner] at h
      rcases hq : filterCall q next st with _ | ⟨_ | _, s'⟩ <;> rw [hq] at h <;> simp at h
      obtain ⟨rfl, rfl⟩ := h
      exact ⟨_, (fwd2 st _ ((filter_some_iff _ _ _ _).mp hq) c).2.1 _ _ rfl hb, rfl, rfl⟩
    | @drop i c v i' r h hb _ ih =>
      rintro st rfl
      rw [inner] at h
      rcases hq : filterCall q next st with _ | ⟨_ | _, s'⟩ <;> rw [hq] at h <;> simp at h
      obtain ⟨rfl, rfl⟩ := h
      obtain ⟨r', i1, i2⟩ := ih s' rfl
      exact ⟨r', (fwd2 st _ ((filter_some_iff _ _ _ _).mp hq) c).2.2 _ _ r' rfl hb i1, i2⟩
  have bwd : ∀ y r', FilterRes (bothPred q p) next y r' →
      ∃ r, filterCall p (It.next (filterCall q next)) (ofIter (y.1, y.2.1), y.2.2) = some r := by
    intro y r' hr
    induction hr with
    | @error s c e s' h =>
      refine ⟨_, (filter_some_iff _ _ _ _).mpr (.error (e := e) (s' := ⟨none, [], some e⟩) ?_)⟩
      rw [inner, filterCall]; simp [h]
    | @keep s c v s' h hb =>
      obtain ⟨c1, c2⟩ := c
      have hq : (q c1 v).1 = true := by
        by_contra hc; simp [bothPred, hc] at hb
      have hp : (p c2 v).1 = true := by simpa [bothPred, hq] using hb
      refine ⟨_, (filter_some_iff _ _ _ _).mpr (.keep (v := v) (s' := ofIter (s', (q c1 v).2)) ?_ hp)⟩
      rw [inner, filterCall]; simp [h, hq]
    | @drop s c v s' r h hb _ ih =>
      obtain ⟨c1, c2⟩ := c
      obtain ⟨r0, hr0⟩ := ih
      by_cases hq : (q c1 v).1 = true
      · have hp : (p c2 v).1 = false := by simpa [bothPred, hq] using hb
        refine ⟨r0, (filter_some_iff _ _ _ _).mpr (.drop (v := v) (s' := ofIter (s', (q c1 v).2)) ?_ hp ?_)⟩
        · rw [inner, filterCall]; simp [h, hq]
        · have := (filter_some_iff _ _ _ _).mp hr0
          simpa [bothPred, hq] using this
      · refine ⟨r0, ?_⟩
        have e1 : It.next (filterCall q next) (ofIter (s, c1)) = It.next (filterCall q next) (ofIter (s', (q c1 v).2)) := by
          rw [inner, inner]
          have : filterCall q next (s, c1) = filterCall q next (s', (q c1 v).2) := by
            conv_lhs => rw [filterCall]
            simp [h, hq]
          rw [this]
        have hq' : (q c1 v).1 = false := by simpa using hq
        simp only [bothPred, hq', Bool.false_eq_true, if_false] at hr0
        rw [filterCall] at hr0 ⊢
        simp only at hr0 ⊢
        rw [e1]
        exact hr0
  cases hA : filterCall p (It.next (filterCall q next)) (ofIter (s, cq), cp) with
  | none =>
    cases hB : filterCall (bothPred q p) next (s, (cq, cp)) with
    | none => trivial
    | some r' =>
      obtain ⟨r, hr⟩ := bwd _ r' ((filter_some_iff _ _ _ _).mp hB)
      rw [hr] at hA; cases hA
  | some r =>
    obtain ⟨r', h1, h2⟩ := fwd _ r ((filter_some_iff _ _ _ _).mp hA) (s, cq) rfl
    rw [(filter_some_iff _ _ _ _).mpr h1]
    exact h2

/-- Two filters on the same source whose predicates always answer alike. -/
theorem same_filter (p : φ → α → Bool × φ) (q : ψ → α → Bool × ψ) (next : Call σ α) (I : φ → ψ → Prop)
    (hI : ∀ c d v, I c d → (p c v).1 = (q d v).1 ∧ I (p c v).2 (q d v).2) (s : σ) (c : φ) (d : ψ) (h : I c d) :
    Same (It.next (filterCall p next)) (ofIter (s, c)) (It.next (filterCall q next)) (ofIter (s, d)) := by
  refine same_ofIter (fun x y => x.1 = y.1 ∧ I x.2 y.2) (fun x y hxy => ?_) ⟨rfl, h⟩
  have := filter_sim p q next next (fun a b => a = b) (fun x y => x.1 = y.1 ∧ I x.2 y.2)
    (fun s c t d hst => by
      obtain ⟨hst, hi⟩ := hst
      simp only at hst
      subst hst
      rcases next s with _ | ⟨_ | v, s'⟩
      · trivial
      · exact rfl
      · exact ⟨rfl, (hI c d v hi).1, rfl, (hI c d v hi).2⟩) x y hxy
  revert this
  rcases filterCall p next x with _ | ⟨_ | _, _⟩ <;> rcases filterCall q next y with _ | ⟨_ | _, _⟩ <;> exact id

/-- C117: two Filters with pure predicates are one with their conjunction, so their order does not matter. -/
theorem c117_filter_and (p q : α → Bool) (next : Call σ α) (s : σ) :
    Same (It.next (filterCall (pure p) (It.next (filterCall (pure q) next)))) (ofIter (ofIter (s, ()), ()))
      (It.next (filterCall (pure (fun x => q x && p x)) next)) (ofIter (s, ())) ∧
    Same (It.next (filterCall (pure p) (It.next (filterCall (pure q) next)))) (ofIter (ofIter (s, ()), ()))
      (It.next (filterCall (pure q) (It.next (filterCall (pure p) next)))) (ofIter (ofIter (s, ()), ())) := by
  have one : ∀ p q : α → Bool, Same (It.next (filterCall (pure p) (It.next (filterCall (pure q) next)))) (ofIter (ofIter (s, ()), ()))
      (It.next (filterCall (pure (fun x => q x && p x)) next)) (ofIter (s, ())) := fun p q =>
    (c117_filter_filter (pure q) (pure p) next s () ()).trans
      (same_filter _ _ next (fun _ _ => True) (fun c d v _ => by cases hq : q v <;> simp [bothPred, pure, hq]) s ((), ()) () trivial)
  refine ⟨one p q, (one p q).trans (Same.trans ?_ (one q p).symm)⟩
  exact same_filter _ _ next (fun _ _ => True) (fun c d v _ => by simp [pure, Bool.and_comm]) s () () trivial

/-- C117: Distinct twice is Distinct once, and Distinct and Filter may be swapped. -/
theorem c117_distinct [DecidableEq α] (p : α → Bool) (next : Call σ α) (s : σ) :
    Same (It.next (filterCall distinctPred (It.next (filterCall distinctPred next)))) (ofIter (ofIter (s, distinctInit), distinctInit))
      (It.next (filterCall distinctPred next)) (ofIter (s, distinctInit)) ∧
    Same (It.next (filterCall (pure p) (It.next (filterCall distinctPred next)))) (ofIter (ofIter (s, distinctInit), ()))
      (It.next (filterCall distinctPred (It.next (filterCall (pure p) next)))) (ofIter (ofIter (s, ()), distinctInit)) := by
  constructor
  · refine (c117_filter_filter distinctPred distinctPred next s distinctInit distinctInit).trans
      (same_filter _ _ next (fun c d => c.1 = d ∧ c.2 = d) ?_ s _ _ ⟨rfl, rfl⟩)
    rintro ⟨c1, c2⟩ d v ⟨h1, h2⟩
    simp only at h1 h2
    subst h1 h2
    cases hs : c2 v <;> simp [bothPred, distinctPred, hs]
  · refine (c117_filter_filter distinctPred (pure p) next s distinctInit ()).trans (Same.trans ?_
      (c117_filter_filter (pure p) distinctPred next s () distinctInit).symm)
    refine same_filter _ _ next (fun c d => ∀ w, p w = true → c.1 w = d.2 w) ?_ s _ _ (fun w _ => rfl)
    rintro ⟨c1, u⟩ ⟨u', d2⟩ v h
    simp only at h
    cases hp : p v with
    | false =>
      have hne : ∀ w, p w = true → w ≠ v := fun w hw hwv => by rw [hwv, hp] at hw; cases hw
      refine ⟨by simp [bothPred, pure, distinctPred, hp], ?_⟩
      intro w hw
      cases hc : c1 v <;> simp [bothPred, distinctPred, pure, hp, hc, h w hw, hne w hw]
    | true =>
      have hv := h v hp
      refine ⟨by cases hc : c1 v <;> simp [bothPred, distinctPred, pure, hp, hc, ← hv], ?_⟩
      intro w hw
      cases hc : c1 v
      · have hd : d2 v = false := by rw [← hv, hc]
        simp [bothPred, distinctPred, pure, hp, hc, hd, h w hw]
      · have hd : d2 v = true := by rw [← hv, hc]
        simp [bothPred, distinctPred, pure, hp, hc, hd, h w hw]

/-- C117: Map with the identity, Filter that keeps everything, Skip(0) and Peek give back the iterator they got. -/
theorem c117_identity (c : Call σ α) (s : σ) (log : List α) :
    Same (It.next (mapCall (fun x => x) (It.next c))) (ofIter (ofIter s)) (It.next c) (ofIter s) ∧
    Same (It.next (filterCall (pure (fun _ => true)) (It.next c))) (ofIter (ofIter s, ())) (It.next c) (ofIter s) ∧
    Same (It.next (skipCall (It.next c))) (ofIter (0, ofIter s)) (It.next c) (ofIter s) ∧
    Same (It.next (peekCall (It.next c))) (ofIter (log, ofIter s)) (It.next c) (ofIter s) := by
  refine ⟨?_, ?_, ?_, ?_⟩
  · refine same_ofIter (fun x s => x = ofIter s) (fun x s hx => ?_) rfl
    subst hx
    unfold mapCall
    rw [next_fresh]
    rcases c s with _ | ⟨_ | _, _⟩
    · trivial
    · exact rfl
    · exact ⟨rfl, rfl⟩
  · refine same_ofIter (fun x s => x = (ofIter s, ())) (fun x s hx => ?_) rfl
    subst hx
    rw [filterCall]
    simp only
    rw [next_fresh]
    rcases c s with _ | ⟨_ | _, _⟩
    · trivial
    · exact rfl
    · exact ⟨rfl, rfl⟩
  · refine same_ofIter (fun x s => x = (0, ofIter s)) (fun x s hx => ?_) rfl
    subst hx
    simp only [skipCall, skipLoop]
    rw [next_fresh]
    rcases c s with _ | ⟨_ | _, _⟩
    · trivial
    · exact rfl
    · exact ⟨rfl, rfl⟩
  · refine same_ofIter (fun x s => x.2 = ofIter s) ?_ rfl
    rintro ⟨l, x⟩ s hx
    simp only at hx
    subst hx
    simp only [peekCall]
    rw [next_fresh]
    rcases c s with _ | ⟨_ | _, _⟩
    · trivial
    · exact rfl
    · exact ⟨rfl, rfl⟩

/-- What skipping through a fresh iterator does. -/
theorem skipLoop_fresh (c : Call σ α) (n : Nat) (s : σ) : skipLoop (It.next c) n (ofIter s) =
    match skipLoop c n s with
    | none => none
    | some (.ok v, (_, s')) => some (.ok v, (0, ofIter s'))
    | some (.error e, _) => some (.error e, (0, ⟨none, [], some e⟩)) := by
  induction n generalizing s with
  | zero =>
    unfold skipLoop
    rw [next_fresh]
    rcases c s with _ | ⟨_ | _, _⟩ <;> rfl
  | succ n ih =>
    unfold skipLoop
    rw [next_fresh]
    rcases c s with _ | ⟨_ | _, s'⟩
    · rfl
    · rfl
    · simp only; rw [ih]

/-- The state after a value was returned has nothing left to skip. -/
theorem skipLoop_zero (c : Call σ α) (n : Nat) (s : σ) (r : Except Err α) (m : Nat) (s' : σ)
    (h : skipLoop c n s = some (r, (m, s'))) : m = 0 := by
  induction n generalizing s with
  | zero =>
    unfold skipLoop at h
    rcases hc : c s with _ | ⟨_, _⟩ <;> rw [hc] at h <;> simp at h
    exact h.2.1.symm
  | succ n ih =>
    unfold skipLoop at h
    rcases hc : c s with _ | ⟨_ | _, _⟩ <;> rw [hc] at h
    · simp at h
    · simp at h; exact h.2.1.symm
    · exact ih _ h

theorem skipLoop_skipLoop (c : Call σ α) (m n : Nat) (s : σ) :
    skipLoop (skipCall c) m (n, s) = match skipLoop c (n + m) s with
      | none => none
      | some (r, st) => some (r, (0, st)) := by
  induction m generalizing n s with
  | zero =>
    rw [skipLoop]
    simp only [skipCall, Nat.add_zero]
    rcases hc : skipLoop c n s with _ | ⟨r, st⟩ <;> rfl
  | succ m ih =>
    rw [skipLoop]
    have hz := skipLoop_zero c n s
    have hsplit : ∀ k s, skipLoop c (k + (m + 1)) s = match skipLoop c k s with
        | none => none
        | some (.ok _, (_, s')) => skipLoop c m s'
        | some (.error e, st) => some (.error e, st) := by
      intro k
      induction k with
      | zero =>
        intro s
        rw [Nat.zero_add, skipLoop, skipLoop]
        rcases c s with _ | ⟨_ | _, _⟩ <;> rfl
      | succ k ih =>
        intro s
        rw [show k + 1 + (m + 1) = (k + (m + 1)) + 1 by omega, skipLoop, skipLoop]
        rcases c s with _ | ⟨_ | _, _⟩
        · rfl
        · rfl
        · simp only; rw [ih]
    rw [hsplit n s]
    simp only [skipCall]
    rcases hc : skipLoop c n s with _ | ⟨_ | v, k, s'⟩
    · rfl
    · have := hz _ _ _ hc
      subst this
      rfl
    · have := hz _ _ _ hc
      subst this
      simp only
      have := ih 0 s'
      rw [Nat.zero_add] at this
      exact this

/-- C117: two Skips are one Skip of the sum. -/
theorem c117_skip_skip (m n : Nat) (next : Call σ α) (s : σ) :
    Same (It.next (skipCall (It.next (skipCall next)))) (ofIter (m, ofIter (n, s)))
      (It.next (skipCall next)) (ofIter (n + m, s)) := by
  refine same_ofIter (fun x y => ∃ m n s, x = (m, ofIter (n, s)) ∧ y = (n + m, s)) ?_ ⟨m, n, s, rfl, rfl⟩
  rintro x y ⟨m, n, s, rfl, rfl⟩
  simp only [skipCall]
  have e := skipLoop_fresh (skipCall next) m (n, s)
  rw [skipLoop_skipLoop] at e
  have hz := skipLoop_zero next (n + m) s
  change StepEq' _ (skipLoop (It.next (skipCall next)) m (ofIter (n, s))) _
  rw [e]
  rcases hc : skipLoop next (n + m) s with _ | ⟨_ | v, k, s'⟩
  · trivial
  · exact rfl
  · have := hz _ _ _ hc
    subst this
    exact ⟨rfl, 0, 0, s', rfl, rfl⟩

/-- C117: two Limits are one Limit of the smaller number. -/
theorem c117_limit_limit (m n : Nat) (next : Call σ α) (s : σ) :
    Same (It.next (limitCall (It.next (limitCall next)))) (ofIter (m, ofIter (n, s)))
      (It.next (limitCall next)) (ofIter (min m n, s)) := by
  refine same_ofIter (fun x y => ∃ m n s, x = (m, ofIter (n, s)) ∧ y = (min m n, s)) ?_ ⟨m, n, s, rfl, rfl⟩
  rintro x y ⟨m, n, s, rfl, rfl⟩
  cases m with
  | zero => simp only [limitCall, Nat.zero_min]; exact rfl
  | succ m =>
    unfold limitCall
    simp only
    rw [next_fresh]
    cases n with
    | zero => exact rfl
    | succ n =>
      rw [Nat.succ_min_succ]
      simp only
      rcases next s with _ | ⟨_ | v, s'⟩
      · trivial
      · exact rfl
      · exact ⟨rfl, m, n, s', rfl, rfl⟩

/-- C117: Map may be swapped with Skip and with Limit. -/
theorem c117_map_skip_limit (f : α → β) (n : Nat) (next : Call σ α) (s : σ) :
    Same (It.next (skipCall (It.next (mapCall f next)))) (ofIter (n, ofIter s))
      (It.next (mapCall f (It.next (skipCall next)))) (ofIter (ofIter (n, s))) ∧
    Same (It.next (limitCall (It.next (mapCall f next)))) (ofIter (n, ofIter s))
      (It.next (mapCall f (It.next (limitCall next)))) (ofIter (ofIter (n, s))) := by
  constructor
  · refine same_ofIter (fun x y => ∃ n s, x = (n, ofIter s) ∧ y = ofIter (n, s)) ?_ ⟨n, s, rfl, rfl⟩
    rintro x y ⟨n, s, rfl, rfl⟩
    have hm : ∀ n s, skipLoop (mapCall f next) n s = match skipLoop next n s with
        | none => none
        | some (.ok v, st) => some (.ok (f v), st)
        | some (.error e, st) => some (.error e, st) := by
      intro n
      induction n with
      | zero =>
        intro s
        unfold skipLoop mapCall
        rcases next s with _ | ⟨_ | _, _⟩ <;> rfl
      | succ n ih =>
        intro s
        rw [skipLoop, skipLoop]
        unfold mapCall
        rcases next s with _ | ⟨_ | _, _⟩
        · rfl
        · rfl
        · exact ih _
    unfold mapCall
    rw [next_fresh]
    simp only [skipCall]
    have e := skipLoop_fresh (mapCall f next) n s
    rw [hm] at e
    change StepEq' _ (skipLoop (It.next (mapCall f next)) n (ofIter s)) _
    rw [e]
    have hz := skipLoop_zero next n s
    rcases hc : skipLoop next n s with _ | ⟨_ | v, k, s'⟩
    · trivial
    · exact rfl
    · have := hz _ _ _ hc
      subst this
      exact ⟨rfl, 0, s', rfl, rfl⟩
  · refine same_ofIter (fun x y => ∃ n s, x = (n, ofIter s) ∧ y = ofIter (n, s)) ?_ ⟨n, s, rfl, rfl⟩
    rintro x y ⟨n, s, rfl, rfl⟩
    unfold mapCall
    rw [next_fresh]
    cases n with
    | zero => exact rfl
    | succ n =>
      simp only [limitCall]
      rw [next_fresh]
      rcases next s with _ | ⟨_ | v, s'⟩
      · trivial
      · exact rfl
      · exact ⟨rfl, n, s', rfl, rfl⟩

/-- C117: skipping m values and then taking n is taking m+n and then skipping m, if n is not zero. -/
theorem c117_limit_skip_partial (m n : Nat) (hn : 0 < n) (next : Call σ α) (s : σ) :
    Same (It.next (limitCall (It.next (skipCall next)))) (ofIter (n, ofIter (m, s)))
      (It.next (skipCall (It.next (limitCall next)))) (ofIter (m, ofIter (m + n, s))) := by
  refine same_ofIter (fun x y => ∃ m n s, x = (n, ofIter (m, s)) ∧ y = (m, ofIter (m + n, s)) ∧ (0 < n ∨ m = 0)) ?_
    ⟨m, n, s, rfl, rfl, .inl hn⟩
  rintro x y ⟨m, n, s, rfl, rfl, h⟩
  cases n with
  | zero =>
    have : m = 0 := by omega
    subst this
    simp only [limitCall, skipCall, skipLoop]
    rw [next_fresh]
    exact rfl
  | succ n =>
    have hm : ∀ m s, ∃ k, skipLoop (limitCall next) m (m + (n + 1), s) = match skipLoop next m s with
        | none => none
        | some (.ok v, (_, s')) => some (.ok v, (0, (n, s')))
        | some (.error e, (_, s')) => some (.error e, (0, (k, s'))) := by
      intro m
      induction m with
      | zero =>
        intro s
        refine ⟨n + 1, ?_⟩
        rw [Nat.zero_add]
        simp only [skipLoop, limitCall]
        rcases next s with _ | ⟨_ | _, _⟩ <;> rfl
      | succ m ih =>
        intro s
        rw [show m + 1 + (n + 1) = (m + (n + 1)) + 1 by omega]
        rcases hs : next s with _ | ⟨e | v, s'⟩
        · exact ⟨0, by rw [skipLoop, skipLoop]; simp [limitCall, hs]⟩
        · exact ⟨m + (n + 1) + 1, by rw [skipLoop, skipLoop]; simp [limitCall, hs]⟩
        · obtain ⟨k, hk⟩ := ih s'
          refine ⟨k, ?_⟩
          rw [skipLoop, skipLoop]
          have hl : limitCall next (m + (n + 1) + 1, s) = some (.ok v, (m + (n + 1), s')) := by simp [limitCall, hs]
          rw [hl, hs]
          exact hk
    obtain ⟨k, hm⟩ := hm m s
    simp only [limitCall]
    rw [next_fresh]
    simp only [skipCall]
    have e := skipLoop_fresh (limitCall next) m (m + (n + 1), s)
    rw [hm] at e
    change StepEq' _ _ (skipLoop (It.next (limitCall next)) m (ofIter (m + (n + 1), s)))
    rw [e]
    have hz := skipLoop_zero next m s
    rcases hc : skipLoop next m s with _ | ⟨_ | v, k, s'⟩
    · trivial
    · exact rfl
    · have := hz _ _ _ hc
      subst this
      exact ⟨rfl, 0, n, s', rfl, by rw [Nat.zero_add], .inr rfl⟩

/-- C117: for n = 0 the two orders differ: taking nothing does not touch the source, skipping does, and reports its error. -/
theorem c117_limit_skip_refuted : ∃ next : Call Unit Nat,
    ¬ Same (It.next (limitCall (It.next (skipCall next)))) (ofIter (0, ofIter (1, ())))
      (It.next (skipCall (It.next (limitCall next)))) (ofIter (1, ofIter (1 + 0, ()))) := by
  refine ⟨fun _ => some (.error (.user 7), ()), fun h => ?_⟩
  have := h 1
  simp [results, It.next, ofIter, limitCall, skipCall, skipLoop] at this

/-- C117: reducing mapped values is reducing with the mapping built in. -/
theorem c117_reduce_map (f : α → β) (zv : γ) (g : γ → β → γ) (identity : Option γ) (next : Call σ α) (s : σ) :
    Same (It.next (reduceToCall zv g identity (It.next (mapCall f next)))) (ofIter (false, ofIter s))
      (It.next (reduceToCall zv (fun a x => g a (f x)) identity next)) (ofIter (false, s)) := by
  refine same_ofIter (fun x y => x.1 = y.1 ∧ (x.1 = false → x.2 = ofIter y.2)) ?_ ⟨rfl, fun _ => rfl⟩
  rintro ⟨b, x⟩ ⟨b', t⟩ ⟨rfl, h⟩
  cases b with
  | true => exact rfl
  | false =>
    have hx : x = ofIter t := h rfl
    subst hx
    have lift : ∀ a t, StepEq' (fun (x : Bool × It σ β) (y : Bool × σ) => x.1 = y.1 ∧ (x.1 = false → x.2 = ofIter y.2))
        (withState (Prod.mk true) (foldLoop (It.next (mapCall f next)) g a (ofIter t)))
        (withState (Prod.mk true) (foldLoop next (fun a x => g a (f x)) a t)) := by
      intro a t
      have := fold_sim (It.next (mapCall f next)) next g (fun a x => g a (f x)) (fun a b => a = b) (fun x t => x = ofIter t)
        (fun x t hx => by
          subst hx
          rw [next_fresh]
          unfold mapCall
          rcases next t with _ | ⟨_ | _, _⟩
          · trivial
          · exact rfl
          · exact ⟨rfl, fun a b h => by rw [h]⟩) a a (ofIter t) t rfl rfl
      revert this
      rcases foldLoop (It.next (mapCall f next)) g a (ofIter t) with _ | ⟨_ | _, _⟩ <;>
        rcases foldLoop next (fun a x => g a (f x)) a t with _ | ⟨_ | _, _⟩ <;> intro this <;>
        first | trivial | exact this.elim | exact this | exact ⟨this, rfl, fun h => by cases h⟩
    have hn : It.next (mapCall f next) (ofIter t) = match next t with
        | none => none
        | some (.ok v, s') => some (.ok (f v), ofIter s')
        | some (.error e, _) => some (.error e, ⟨none, [], some e⟩) := by
      rw [next_fresh]; unfold mapCall
      rcases next t with _ | ⟨_ | _, _⟩ <;> rfl
    unfold reduceToCall
    simp only [Bool.false_eq_true, if_false]
    cases identity with
    | none =>
      simp only
      rw [hn]
      rcases next t with _ | ⟨_ | v, t'⟩
      · trivial
      · exact rfl
      · exact lift _ _
    | some idv =>
      simp only
      rw [hn]
      rcases next t with _ | ⟨e | v, t'⟩
      · trivial
      · simp only
        by_cases he : e = .eoi
        · simp only [he, if_true]; exact ⟨rfl, rfl, fun h => by cases h⟩
        · simp only [he, if_false]; exact rfl
      · exact lift _ _

/-- C117: counting mapped values is counting the values. -/
theorem c117_count_map (f : α → β) (next : Call σ α) (s : σ) :
    Same (It.next (countCall (It.next (mapCall f next)))) (ofIter (false, ofIter s))
      (It.next (countCall next)) (ofIter (false, s)) :=
  c117_reduce_map f 0 (fun c _ => Kind.int.wrap (c + 1)) (some 0) next s

/-- Two matching functions that go in step. -/
theorem same_match (next : Call σ α) (next' : Call τ β) (p : α → Bool) (q : β → Bool) (n : Bool → Bool) (hn : ∀ a b, n a = n b → a = b)
    (identity stop : Bool) (R : σ → τ → Prop)
    (hR : ∀ s t, R s t →
      match next s, next' t with
      | none, none => True
      | some (.ok v, s'), some (.ok u, t') => R s' t' ∧ n (p v) = q u
      | some (.error e, _), some (.error e', _) => e = e'
      | _, _ => False) (s : σ) (t : τ) (h : R s t) (b : Bool) :
    match reduceToBoolCall p identity stop next (b, s), reduceToBoolCall q (n identity) (n stop) next' (b, t) with
    | none, none => True
    | some (.ok v, x), some (.ok u, y) => n v = u ∧ x.1 = true ∧ y.1 = true
    | some (.error e, _), some (.error e', _) => e = e'
    | _, _ => False := by
  unfold reduceToBoolCall
  cases b with
  | true => simp
  | false =>
    simp only [Bool.false_eq_true, if_false]
    have := hR s t h
    rcases hs : next s with _ | ⟨e | v, s'⟩ <;> rcases ht : next' t with _ | ⟨e' | u, t'⟩ <;> rw [hs, ht] at this <;>
      first | trivial | exact this.elim | skip
    · simp only at this ⊢
      subst this
      by_cases he : e = .eoi
      · simp [he]
      · simp [he]
    · obtain ⟨h1, h2⟩ := this
      simp only
      by_cases hp : p v = stop
      · have hq : q u = n stop := by rw [← h2, hp]
        simp [hp, hq]
      · have hq : q u ≠ n stop := by rw [← h2]; exact fun hc => hp (hn _ _ hc)
        simp only [hp, hq, if_false]
        have := bool_sim next next' p q n hn stop R hR (p v) s' t' h1
        rw [h2] at this
        revert this
        rcases boolLoop next p stop (p v) s' with _ | ⟨_ | _, _⟩ <;>
          rcases boolLoop next' q (n stop) (q u) t' with _ | ⟨_ | _, _⟩ <;> intro this <;>
          first | trivial | exact this.elim | exact this | exact ⟨this, rfl, rfl⟩

/-- C117: the same for the operations that reduce a source to one value. -/
theorem c117_congruence_reduce (next : Call σ α) (next' : Call τ α) (s : σ) (t : τ) (h : Same next s next' t) :
    (∀ (f : α → α → α) (id? : Option α), Same (It.next (reduceCall f id? next)) (ofIter (false, s)) (It.next (reduceCall f id? next')) (ofIter (false, t))) ∧
    (∀ (zv : β) (f : β → α → β) (id? : Option β), Same (It.next (reduceToCall zv f id? next)) (ofIter (false, s)) (It.next (reduceToCall zv f id? next')) (ofIter (false, t))) ∧
    (∀ (p : α → Bool) (identity stop : Bool), Same (It.next (reduceToBoolCall p identity stop next)) (ofIter (false, s)) (It.next (reduceToBoolCall p identity stop next')) (ofIter (false, t))) ∧
    Same (It.next (reduceToSliceCall next)) (ofIter (false, s)) (It.next (reduceToSliceCall next')) (ofIter (false, t)) := by
  have lift : ∀ {γ : Type} (f : γ → α → γ) (a : γ) (s : σ) (t : τ), Same next s next' t →
      StepEq' (fun (x : Bool × σ) (y : Bool × τ) => x.1 = y.1 ∧ (x.1 = false → Same next x.2 next' y.2))
        (withState (Prod.mk true) (foldLoop next f a s)) (withState (Prod.mk true) (foldLoop next' f a t)) := by
    intro γ f a s t h
    have := fold_sim next next' f f (fun a b => a = b) (fun s t => Same next s next' t)
      (fun s t h => by
        have hs := h.step
        rcases hc : next s with _ | ⟨_ | _, _⟩ <;> rcases hd : next' t with _ | ⟨_ | _, _⟩ <;> rw [hc, hd] at hs <;>
          first | trivial | exact hs.elim | skip
        · obtain ⟨he, h'⟩ := hs; cases he; exact rfl
        · obtain ⟨he, _⟩ := hs; cases he
        · obtain ⟨he, _⟩ := hs; cases he
        · obtain ⟨he, h'⟩ := hs; cases he; exact ⟨h', fun a b hab => by rw [hab]⟩) a a s t rfl h
    revert this
    rcases foldLoop next f a s with _ | ⟨_ | _, _⟩ <;> rcases foldLoop next' f a t with _ | ⟨_ | _, _⟩ <;> intro this <;>
      first | trivial | exact this.elim | exact this | exact ⟨this, rfl, fun h => by cases h⟩
  refine ⟨fun f id? => ?_, fun zv f id? => ?_, fun p identity stop => ?_, ?_⟩
  · refine same_ofIter (fun x y => x.1 = y.1 ∧ (x.1 = false → Same next x.2 next' y.2)) ?_ ⟨rfl, fun _ => h⟩
    rintro ⟨b, s⟩ ⟨_, t⟩ ⟨rfl, h⟩
    cases b with
    | true => exact rfl
    | false =>
      have hs := (h rfl).step
      unfold reduceCall
      simp only [Bool.false_eq_true, if_false] at hs ⊢
      rcases hc : next s with _ | ⟨e | _, _⟩ <;> rcases hd : next' t with _ | ⟨_ | _, _⟩ <;> rw [hc, hd] at hs <;>
        first | exact hs.elim | skip
      · cases id? <;> trivial
      · obtain ⟨he, h'⟩ := hs
        cases he
        cases id? with
        | none => exact rfl
        | some v =>
          simp only
          by_cases he : e = .eoi
          · simp only [he, if_true]; exact ⟨rfl, rfl, fun h => by cases h⟩
          · simp only [he, if_false]; exact rfl
      · obtain ⟨he, _⟩ := hs; cases he
      · obtain ⟨he, _⟩ := hs; cases he
      · obtain ⟨he, h'⟩ := hs
        cases he
        cases id? with
        | none => exact lift _ _ _ _ h'
        | some v => exact lift _ _ _ _ h'
  · refine same_ofIter (fun x y => x.1 = y.1 ∧ (x.1 = false → Same next x.2 next' y.2)) ?_ ⟨rfl, fun _ => h⟩
    rintro ⟨b, s⟩ ⟨_, t⟩ ⟨rfl, h⟩
    cases b with
    | true => exact rfl
    | false =>
      have hs := (h rfl).step
      unfold reduceToCall
      simp only [Bool.false_eq_true, if_false] at hs ⊢
      rcases hc : next s with _ | ⟨e | _, _⟩ <;> rcases hd : next' t with _ | ⟨_ | _, _⟩ <;> rw [hc, hd] at hs <;>
        first | exact hs.elim | skip
      · cases id? <;> trivial
      · obtain ⟨he, h'⟩ := hs
        cases he
        cases id? with
        | none => exact rfl
        | some v =>
          simp only
          by_cases he : e = .eoi
          · simp only [he, if_true]; exact ⟨rfl, rfl, fun h => by cases h⟩
          · simp only [he, if_false]; exact rfl
      · obtain ⟨he, _⟩ := hs; cases he
      · obtain ⟨he, _⟩ := hs; cases he
      · obtain ⟨he, h'⟩ := hs
        cases he
        cases id? with
        | none => exact lift _ _ _ _ h'
        | some v => exact lift _ _ _ _ h'
  · refine same_ofIter (fun x y => x.1 = y.1 ∧ (x.1 = false → Same next x.2 next' y.2)) ?_ ⟨rfl, fun _ => h⟩
    rintro ⟨b, s⟩ ⟨_, t⟩ ⟨rfl, h⟩
    cases b with
    | true => exact rfl
    | false =>
      have := same_match next next' p p (fun b => b) (fun _ _ h => h) identity stop (fun s t => Same next s next' t)
        (fun s t h => by
          have hs := h.step
          rcases hc : next s with _ | ⟨_ | _, _⟩ <;> rcases hd : next' t with _ | ⟨_ | _, _⟩ <;> rw [hc, hd] at hs <;>
            first | trivial | exact hs.elim | skip
          · obtain ⟨he, h'⟩ := hs; cases he; exact rfl
          · obtain ⟨he, _⟩ := hs; cases he
          · obtain ⟨he, _⟩ := hs; cases he
          · obtain ⟨he, h'⟩ := hs; cases he; exact ⟨h', rfl⟩) s t (h rfl) false
      revert this
      rcases reduceToBoolCall p identity stop next (false, s) with _ | ⟨_ | _, x⟩ <;>
        rcases reduceToBoolCall p identity stop next' (false, t) with _ | ⟨_ | _, y⟩ <;> intro this <;>
        first | trivial | exact this.elim | exact this | exact ⟨this.1, by rw [this.2.1, this.2.2], fun h => by rw [this.2.1] at h; cases h⟩
  · refine same_ofIter (fun x y => x.1 = y.1 ∧ (x.1 = false → Same next x.2 next' y.2)) ?_ ⟨rfl, fun _ => h⟩
    rintro ⟨b, s⟩ ⟨_, t⟩ ⟨rfl, h⟩
    cases b with
    | true => exact rfl
    | false => exact lift _ _ _ _ (h rfl)

/-- C117: matching mapped values is matching the values with the mapping built in. -/
theorem c117_match_map (f : α → β) (p : β → Bool) (next : Call σ α) (s : σ) :
    Same (It.next (allMatchCall p (It.next (mapCall f next)))) (ofIter (false, ofIter s))
      (It.next (allMatchCall (fun x => p (f x)) next)) (ofIter (false, s)) ∧
    Same (It.next (anyMatchCall p (It.next (mapCall f next)))) (ofIter (false, ofIter s))
      (It.next (anyMatchCall (fun x => p (f x)) next)) (ofIter (false, s)) ∧
    Same (It.next (noneMatchCall p (It.next (mapCall f next)))) (ofIter (false, ofIter s))
      (It.next (noneMatchCall (fun x => p (f x)) next)) (ofIter (false, s)) := by
  have key : ∀ (p : β → Bool) identity stop, Same (It.next (reduceToBoolCall p identity stop (It.next (mapCall f next)))) (ofIter (false, ofIter s))
      (It.next (reduceToBoolCall (fun x => p (f x)) identity stop next)) (ofIter (false, s)) := by
    intro p identity stop
    refine same_ofIter (fun x y => x.1 = y.1 ∧ (x.1 = false → x.2 = ofIter y.2)) ?_ ⟨rfl, fun _ => rfl⟩
    rintro ⟨b, x⟩ ⟨b', t⟩ ⟨rfl, h⟩
    cases b with
    | true => exact rfl
    | false =>
      have hx : x = ofIter t := h rfl
      subst hx
      have := same_match (It.next (mapCall f next)) next p (fun x => p (f x)) (fun b => b) (fun _ _ h => h) identity stop (fun x t => x = ofIter t)
        (fun x t hx => by
          subst hx
          rw [next_fresh]
          unfold mapCall
          rcases next t with _ | ⟨_ | _, _⟩
          · trivial
          · exact rfl
          · exact ⟨rfl, rfl⟩) (ofIter t) t rfl false
      revert this
      rcases reduceToBoolCall p identity stop (It.next (mapCall f next)) (false, ofIter t) with _ | ⟨_ | _, x⟩ <;>
        rcases reduceToBoolCall (fun x => p (f x)) identity stop next (false, t) with _ | ⟨_ | _, y⟩ <;> intro this <;>
        first | trivial | exact this.elim | exact this | exact ⟨this.1, by rw [this.2.1, this.2.2], fun h => by rw [this.2.1] at h; cases h⟩
  exact ⟨key p true false, key p false true, key (fun t => !p t) true false⟩

/-- C117: not all is some that not: AllMatch(p) is the negation of AnyMatch(not p), and NoneMatch(p) that of AnyMatch(p). -/
theorem c117_de_morgan (p : α → Bool) (next : Call σ α) (s : σ) :
    Same (It.next (allMatchCall p next)) (ofIter (false, s))
      (It.next (mapCall (fun b => !b) (It.next (anyMatchCall (fun x => !p x) next)))) (ofIter (ofIter (false, s))) ∧
    Same (It.next (noneMatchCall p next)) (ofIter (false, s))
      (It.next (mapCall (fun b => !b) (It.next (anyMatchCall p next)))) (ofIter (ofIter (false, s))) := by
  have key : ∀ (p : α → Bool), Same (It.next (allMatchCall p next)) (ofIter (false, s))
      (It.next (mapCall (fun b => !b) (It.next (anyMatchCall (fun x => !p x) next)))) (ofIter (ofIter (false, s))) := by
    intro p
    refine same_ofIter (fun x y => ∃ b s t, x = (b, s) ∧ y = ofIter (b, t) ∧ (b = false → s = t)) ?_ ⟨false, s, s, rfl, rfl, fun _ => rfl⟩
    rintro x y ⟨b, s, t, rfl, rfl, h⟩
    have hm : mapCall (fun b => !b) (It.next (anyMatchCall (fun x => !p x) next)) (ofIter (b, t)) =
        match anyMatchCall (fun x => !p x) next (b, t) with
        | none => none
        | some (.ok v, s') => some (.ok (!v), ofIter s')
        | some (.error e, _) => some (.error e, ⟨none, [], some e⟩) := by
      unfold mapCall
      rw [next_fresh]
      rcases anyMatchCall (fun x => !p x) next (b, t) with _ | ⟨_ | _, _⟩ <;> rfl
    rw [hm]
    cases b with
    | true => exact rfl
    | false =>
      obtain rfl := h rfl
      have := same_match next next p (fun x => !p x) (fun b => !b) (fun a b h => by cases a <;> cases b <;> simp_all) true false (fun s t => s = t)
        (fun s t hst => by
          subst hst
          rcases next s with _ | ⟨_ | _, _⟩
          · trivial
          · exact rfl
          · exact ⟨rfl, rfl⟩) s s rfl false
      simp only [Bool.not_true, Bool.not_false] at this
      unfold allMatchCall anyMatchCall
      revert this
      rcases reduceToBoolCall p true false next (false, s) with _ | ⟨_ | v, x⟩ <;>
        rcases reduceToBoolCall (fun x => !p x) false true next (false, s) with _ | ⟨_ | u, y⟩ <;> intro this <;>
        first | trivial | exact this.elim | exact this | skip
      obtain ⟨h1, h2, h3⟩ := this
      subst h1
      obtain ⟨b, x⟩ := x
      obtain ⟨b', y⟩ := y
      simp only at h2 h3
      subst h2 h3
      exact ⟨by simp, true, x, y, rfl, rfl, fun h => by cases h⟩
  refine ⟨key p, ?_⟩
  have := key (fun x => !p x)
  simp only [Bool.not_not] at this
  exact this

/-- C117: mapping a concatenation is concatenating the mapped iterators. -/
theorem c117_map_concat (f : α → β) (next : Call σ α) (srcs : List (Option σ)) :
    Same (It.next (mapCall f (It.next (concatCall next)))) (ofIter (ofIter ⟨srcs, .eoi⟩))
      (It.next (concatCall (It.next (mapCall f next)))) (ofIter ⟨srcs.map (Option.map ofIter), .eoi⟩) := by
  refine same_ofIter (fun x y => ∃ srcs, x = ofIter ⟨srcs, .eoi⟩ ∧ y = ⟨srcs.map (Option.map ofIter), .eoi⟩) ?_ ⟨srcs, rfl, rfl⟩
  rintro x y ⟨srcs, rfl, rfl⟩
  unfold mapCall concatCall
  rw [next_fresh]
  simp only
  induction srcs with
  | nil => exact rfl
  | cons o rest ih =>
    cases o with
    | none => exact ih
    | some it =>
      simp only [List.map_cons, Option.map_some, concatGo]
      rw [next_fresh]
      rcases next it with _ | ⟨e | v, it'⟩
      · trivial
      · by_cases he : e = .eoi
        · subst he
          simpa using ih
        · simp only [he, ne_eq, not_false_eq_true, if_true]
          exact rfl
      · exact ⟨rfl, some it' :: rest, rfl, rfl⟩

/-- C117: a concatenation of concatenations is the concatenation of all their iterators. -/
theorem c117_concat_concat (next : Call σ α) (groups : List (List (Option σ))) :
    Same (It.next (concatCall (It.next (concatCall next)))) (ofIter ⟨groups.map (fun g => some (ofIter ⟨g, .eoi⟩)), .eoi⟩)
      (It.next (concatCall next)) (ofIter ⟨groups.flatten, .eoi⟩) := by
  refine same_ofIter (fun x y => ∃ groups, x = ⟨groups.map (fun g => some (ofIter ⟨g, .eoi⟩)), .eoi⟩ ∧ y = ⟨groups.flatten, .eoi⟩) ?_
    ⟨groups, rfl, rfl⟩
  rintro x y ⟨groups, rfl, rfl⟩
  change StepEq' _ (concatGo (It.next (concatCall next)) _ _) (concatGo next _ _)
  induction groups with
  | nil => exact rfl
  | cons g gs ih =>
    simp only [List.map_cons, List.flatten_cons, concatGo]
    rw [next_fresh]
    unfold concatCall
    simp only
    induction g with
    | nil =>
      simp only [concatGo, ne_eq, not_true, if_false, List.nil_append]
      exact ih
    | cons o rest ihg =>
      cases o with
      | none => simpa [concatGo] using ihg
      | some it =>
        simp only [List.cons_append, concatGo]
        rcases next it with _ | ⟨e | v, it'⟩
        · trivial
        · by_cases he : e = .eoi
          · subst he
            simpa using ihg
          · simp only [he, ne_eq, not_false_eq_true, if_true]
            exact rfl
        · exact ⟨rfl, (some it' :: rest) :: gs, rfl, rfl⟩

/-- The laws on a source that fails after two values: both pipelines give 6 and 7 and then the failure. -/
example : ∃ next : Call Nat Nat,
    results (It.next (mapCall (fun x => x + 1) (It.next (mapCall (fun x => x + 5) next)))) 3 (ofIter (ofIter 0)) =
      some [.ok 6, .ok 7, .error (.user 3)] ∧
    results (It.next (mapCall (fun x => x + 5 + 1) next)) 3 (ofIter 0) = some [.ok 6, .ok 7, .error (.user 3)] := by
  let next : Call Nat Nat := fun i => if i < 2 then some (.ok i, i + 1) else some (.error (.user 3), i)
  have h : results (It.next (mapCall (fun x => x + 5 + 1) next)) 3 (ofIter 0) = some [.ok 6, .ok 7, .error (.user 3)] := by
    simp [results, It.next, ofIter, mapCall, next]
  exact ⟨next, ((c117_map_map next 0).1 (fun x => x + 5) (fun x => x + 1) 3).trans h, h⟩

/-- The hypothesis of `c117_limit_skip_partial`, and what it says of 1 2 3 4 5 with m = 1, n = 2. -/
example : results (It.next (skipCall (It.next (limitCall (sliceCall [1, 2, 3, 4, 5]))))) 3 (ofIter (1, ofIter (1 + 2, 0))) =
    some [.ok 2, .ok 3, .error .eoi] := by
  rw [← c117_limit_skip_partial 1 2 (by omega) (sliceCall [1, 2, 3, 4, 5]) 0 3]
  simp [results, It.next, ofIter, limitCall, skipCall, skipLoop, sliceCall]

/-- The hypotheses of `c117_congruence_reduce` and `c117_unread` are met by two Skips in a row and the one Skip that does the same. -/
example := c117_congruence_reduce (β := Nat) _ _ _ _ (c117_skip_skip 1 2 (sliceCall [1, 2, 3, 4, 5]) 0)

example := c117_unread (c117_skip_skip 1 2 (sliceCall [1, 2, 3, 4, 5]) 0) [.next, .unread 7, .next, .next, .next]

end Micro.Stream
