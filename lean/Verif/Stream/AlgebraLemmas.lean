import Verif.Stream.Lemmas
set_option linter.unusedSimpArgs false
/-
C117: what it means that two pipelines cannot be told apart, and the proof principles for it.
-/
namespace Micro.Stream
open Micro Micro.Iter

variable {σ τ α β γ : Type}

/-- The results of n calls in a row; `none` if one of them does not return. -/
def results (call : Call σ α) : Nat → σ → Option (List (Except Err α))
  | 0, _ => some []
  | n + 1, s =>
    match call s with
    | none => none
    | some (r, s') => (results call n s').map (r :: ·)

/-- Two iterators that no sequence of calls of Next can tell apart: the same values, the same errors, and the same
calls that do not return. -/
def Same (c : Call σ α) (s : σ) (d : Call τ α) (t : τ) : Prop := ∀ n, results c n s = results d n t

/-- Two outcomes of one call that agree, with states related by R. -/
def StepEq (R : σ → τ → Prop) : Option (Except Err α × σ) → Option (Except Err α × τ) → Prop
  | none, none => True
  | some (a, s), some (b, t) => a = b ∧ R s t
  | _, _ => False

/-- The same, where the states do not matter after an error (OfIter does not call the function again). -/
def StepEq' (R : σ → τ → Prop) : Option (Except Err α × σ) → Option (Except Err α × τ) → Prop
  | none, none => True
  | some (.ok a, s), some (.ok b, t) => a = b ∧ R s t
  | some (.error a, _), some (.error b, _) => a = b
  | _, _ => False

theorem same_of_bisim {c : Call σ α} {d : Call τ α} (R : σ → τ → Prop)
    (hR : ∀ s t, R s t → StepEq R (c s) (d t)) {s : σ} {t : τ} (h : R s t) : Same c s d t := by
  intro n
  induction n generalizing s t with
  | zero => rfl
  | succ n ih =>
    have := hR s t h
    unfold results
    cases hc : c s with
    | none =>
      cases hd : d t with
      | none => rfl
      | some y => rw [hc, hd] at this; exact this.elim
    | some x =>
      cases hd : d t with
      | none => rw [hc, hd] at this; exact this.elim
      | some y =>
        rw [hc, hd] at this
        obtain ⟨a, s'⟩ := x
        obtain ⟨b, t'⟩ := y
        obtain ⟨rfl, h'⟩ := this
        simp only [ih h']

theorem Same.step {c : Call σ α} {d : Call τ α} {s : σ} {t : τ} (h : Same c s d t) :
    StepEq (fun s t => Same c s d t) (c s) (d t) := by
  have h1 := h 1
  cases hc : c s with
  | none =>
    cases hd : d t with
    | none => trivial
    | some y => simp [results, hc, hd] at h1
  | some x =>
    cases hd : d t with
    | none => simp [results, hc, hd] at h1
    | some y =>
      obtain ⟨a, s'⟩ := x
      obtain ⟨b, t'⟩ := y
      simp [results, hc, hd] at h1
      refine ⟨h1, fun n => ?_⟩
      have h2 := h (n + 1)
      simp only [results, hc, hd, h1] at h2
      cases hx : results c n s' with
      | none =>
        cases hy : results d n t' with
        | none => rfl
        | some y => rw [hx, hy] at h2; simp at h2
      | some x =>
        cases hy : results d n t' with
        | none => rw [hx, hy] at h2; simp at h2
        | some y => rw [hx, hy] at h2; simp at h2; rw [h2]

theorem Same.refl (c : Call σ α) (s : σ) : Same c s c s := fun _ => rfl

theorem Same.symm {c : Call σ α} {d : Call τ α} {s : σ} {t : τ} (h : Same c s d t) : Same d t c s := fun n => (h n).symm

theorem Same.trans {υ : Type} {c : Call σ α} {d : Call τ α} {e : Call υ α} {s : σ} {t : τ} {u : υ}
    (h : Same c s d t) (h' : Same d t e u) : Same c s e u := fun n => (h n).trans (h' n)

/-- The state of an iterator nobody has put anything back into. -/
def itRel (R : σ → τ → Prop) (x : It σ α) (y : It τ α) : Prop :=
  (∃ s t, x = ofIter s ∧ y = ofIter t ∧ R s t) ∨ (∃ e, x = ⟨none, [], some e⟩ ∧ y = ⟨none, [], some e⟩)

/-- Two iterators made by OfIter from functions that go in step. -/
theorem same_ofIter {c : Call σ α} {d : Call τ α} (R : σ → τ → Prop)
    (hR : ∀ s t, R s t → StepEq' R (c s) (d t)) {s : σ} {t : τ} (h : R s t) :
    Same (It.next c) (ofIter s) (It.next d) (ofIter t) := by
  refine same_of_bisim (itRel R) ?_ (.inl ⟨s, t, rfl, rfl, h⟩)
  rintro x y (⟨s, t, rfl, rfl, h⟩ | ⟨e, rfl, rfl⟩)
  · have := hR s t h
    rw [next_source c _ s rfl rfl, next_source d _ t rfl rfl]
    revert this
    rcases c s with _ | ⟨_ | _, _⟩ <;> rcases d t with _ | ⟨_ | _, _⟩ <;> intro this <;>
      first | exact this.elim | trivial | skip
    · obtain rfl := this
      exact ⟨rfl, .inr ⟨_, rfl, rfl⟩⟩
    · obtain ⟨rfl, h'⟩ := this
      exact ⟨rfl, .inl ⟨_, _, rfl, rfl, h'⟩⟩
  · rw [next_stopped c _ e rfl rfl rfl, next_stopped d _ e rfl rfl rfl]
    exact ⟨rfl, .inr ⟨e, rfl, rfl⟩⟩

/-- Iterators that Next cannot tell apart cannot be told apart with Unread either. -/
theorem same_runOps {c : Call σ α} {d : Call τ α} {x : It σ α} {y : It τ α}
    (hx : x.buffer = []) (hy : y.buffer = []) (h : Same (It.next c) x (It.next d) y) (b : List α) (ops : List (Op α)) :
    runOps c { x with buffer := b } ops = runOps d { y with buffer := b } ops := by
  induction ops generalizing x y b with
  | nil => rfl
  | cons op ops ih =>
    cases op with
    | unread v => exact ih hx hy h (b ++ [v])
    | next =>
      unfold runOps
      rcases List.eq_nil_or_concat b with rfl | ⟨b', v, rfl⟩
      · have ex : ({ x with buffer := [] } : It σ α) = x := by cases x; simp_all
        have ey : ({ y with buffer := [] } : It τ α) = y := by cases y; simp_all
        rw [ex, ey]
        have hst := h.step
        have keep : ∀ {ρ : Type} (k : Call ρ α) (z z' : It ρ α) (r), z.buffer = [] → It.next k z = some (r, z') → z'.buffer = [] := by
          intro ρ k z z' r hz hz'
          unfold It.next It.stopped at hz'
          rw [hz] at hz'
          simp only [List.getLast?_nil] at hz'
          split at hz'
          · split at hz'
            · cases hz'
            · cases hz'; rfl
            · cases hz'; rfl
          · split at hz'
            · cases hz'; exact hz
            · cases hz'
        cases hc : It.next c x with
        | none =>
          cases hd : It.next d y with
          | none => rfl
          | some q => rw [hc, hd] at hst; exact hst.elim
        | some p =>
          cases hd : It.next d y with
          | none => rw [hc, hd] at hst; exact hst.elim
          | some q =>
            rw [hc, hd] at hst
            obtain ⟨a, x'⟩ := p
            obtain ⟨a', y'⟩ := q
            obtain ⟨rfl, h'⟩ := hst
            have bx := keep c x x' _ hx hc
            have b_y := keep d y y' _ hy hd
            have := ih bx b_y h' []
            have ex' : ({ x' with buffer := [] } : It σ α) = x' := by cases x'; simp_all
            have ey' : ({ y' with buffer := [] } : It τ α) = y' := by cases y'; simp_all
            rw [ex', ey'] at this
            simp only [this]
      · rw [next_buffer c _ b' v (by simp), next_buffer d _ b' v (by simp)]
        simp only
        rw [ih hx hy h b']

/-! ### The loops -/

/-- One outcome of Filter. -/
inductive FilterRes {φ : Type} (p : φ → α → Bool × φ) (next : Call σ α) : σ × φ → Except Err α × (σ × φ) → Prop
  | error {s c e s'} : next s = some (.error e, s') → FilterRes p next (s, c) (.error e, (s', c))
  | keep {s c v s'} : next s = some (.ok v, s') → (p c v).1 = true → FilterRes p next (s, c) (.ok v, (s', (p c v).2))
  | drop {s c v s' r} : next s = some (.ok v, s') → (p c v).1 = false → FilterRes p next (s', (p c v).2) r → FilterRes p next (s, c) r

theorem filter_some_iff {φ : Type} (p : φ → α → Bool × φ) (next : Call σ α) (st : σ × φ) (r : Except Err α × (σ × φ)) :
    filterCall p next st = some r ↔ FilterRes p next st r := by
  constructor
  · intro h
    refine filterCall.partial_correctness p next (fun st r => FilterRes p next st r) ?_ st r h
    rintro F ih ⟨s, c⟩ r hr
    cases hn : next s with
    | none => simp [hn] at hr
    | some x =>
      obtain ⟨_ | v, s'⟩ := x
      · simp only [hn, Option.some.injEq] at hr
        subst hr
        exact .error hn
      · simp only [hn] at hr
        by_cases hb : (p c v).1 = true
        · simp only [hb, if_true, Option.some.injEq] at hr
          subst hr
          exact .keep hn hb
        · simp only [hb, if_false] at hr
          exact .drop hn (by simpa using hb) (ih _ _ hr)
  · intro h
    induction h with
    | error h => rw [filterCall]; simp [h]
    | keep h hb => rw [filterCall]; simp [h, hb]
    | drop h hb _ ih => rw [filterCall]; simp [h, hb, ih]

/-- Two filters that go in step. `V` relates their values. -/
theorem filter_sim {φ ψ : Type} (p : φ → α → Bool × φ) (q : ψ → β → Bool × ψ) (next : Call σ α) (next' : Call τ β)
    (V : α → β → Prop) (R : σ × φ → τ × ψ → Prop)
    (hR : ∀ s c t d, R (s, c) (t, d) →
      match next s, next' t with
      | none, none => True
      | some (.ok v, s'), some (.ok u, t') => V v u ∧ (p c v).1 = (q d u).1 ∧ R (s', (p c v).2) (t', (q d u).2)
      | some (.error e, _), some (.error e', _) => e = e'
      | _, _ => False)
    (st : σ × φ) (tt : τ × ψ) (h : R st tt) :
    match filterCall p next st, filterCall q next' tt with
    | none, none => True
    | some (.ok v, s'), some (.ok u, t') => V v u ∧ R s' t'
    | some (.error e, _), some (.error e', _) => e = e'
    | _, _ => False := by
  have fwd : ∀ st r, FilterRes p next st r → ∀ tt, R st tt → ∃ r', FilterRes q next' tt r' ∧
      match r, r' with
      | (.ok v, s'), (.ok u, t') => V v u ∧ R s' t'
      | (.error e, _), (.error e', _) => e = e'
      | _, _ => False := by
    intro st r hr
    induction hr with
    | @error s c e s' h1 =>
      rintro ⟨t, d⟩ h
      have := hR s c t d h
      rw [h1] at this
      rcases hn : next' t with _ | ⟨_ | _, t'⟩ <;> rw [hn] at this
      · exact this.elim
      · exact ⟨_, .error hn, this⟩
      · exact this.elim
    | @keep s c v s' h1 hb =>
      rintro ⟨t, d⟩ h
      have := hR s c t d h
      rw [h1] at this
      rcases hn : next' t with _ | ⟨_ | u, t'⟩ <;> rw [hn] at this
      · exact this.elim
      · exact this.elim
      · exact ⟨_, .keep hn (this.2.1 ▸ hb), this.1, this.2.2⟩
    | @drop s c v s' r h1 hb _ ih =>
      rintro ⟨t, d⟩ h
      have := hR s c t d h
      rw [h1] at this
      rcases hn : next' t with _ | ⟨_ | u, t'⟩ <;> rw [hn] at this
      · exact this.elim
      · exact this.elim
      · obtain ⟨r', i1, i2⟩ := ih _ this.2.2
        exact ⟨r', .drop hn (this.2.1 ▸ hb) i1, i2⟩
  have bwd : ∀ tt r', FilterRes q next' tt r' → ∀ st, R st tt → ∃ r, FilterRes p next st r := by
    intro tt r' hr
    induction hr with
    | @error t d e t' h1 =>
      rintro ⟨s, c⟩ h
      have := hR s c t d h
      rw [h1] at this
      rcases hn : next s with _ | ⟨_ | _, s'⟩ <;> rw [hn] at this
      · exact this.elim
      · exact ⟨_, .error hn⟩
      · exact this.elim
    | @keep t d u t' h1 hb =>
      rintro ⟨s, c⟩ h
      have := hR s c t d h
      rw [h1] at this
      rcases hn : next s with _ | ⟨_ | v, s'⟩ <;> rw [hn] at this
      · exact this.elim
      · exact this.elim
      · exact ⟨_, .keep hn (this.2.1 ▸ hb)⟩
    | @drop t d u t' r h1 hb _ ih =>
      rintro ⟨s, c⟩ h
      have := hR s c t d h
      rw [h1] at this
      rcases hn : next s with _ | ⟨_ | v, s'⟩ <;> rw [hn] at this
      · exact this.elim
      · exact this.elim
      · obtain ⟨r, i1⟩ := ih _ this.2.2
        exact ⟨r, .drop hn (this.2.1 ▸ hb) i1⟩
  cases hp : filterCall p next st with
  | none =>
    cases hq : filterCall q next' tt with
    | none => trivial
    | some r' =>
      obtain ⟨r, hr⟩ := bwd tt r' ((filter_some_iff _ _ _ _).mp hq) st h
      rw [(filter_some_iff _ _ _ _).mpr hr] at hp; cases hp
  | some r =>
    obtain ⟨r', h1, h2⟩ := fwd st r ((filter_some_iff _ _ _ _).mp hp) tt h
    rw [(filter_some_iff _ _ _ _).mpr h1]
    obtain ⟨_ | _, _⟩ := r <;> obtain ⟨_ | _, _⟩ := r' <;> exact h2

/-- One outcome of the loop of the reductions. -/
inductive FoldRes (next : Call σ α) (f : β → α → β) : β → σ → Except Err β × σ → Prop
  | eoi {acc s s'} : next s = some (.error .eoi, s') → FoldRes next f acc s (.ok acc, s')
  | error {acc s e s'} : next s = some (.error e, s') → e ≠ .eoi → FoldRes next f acc s (.error e, s')
  | value {acc s v s' r} : next s = some (.ok v, s') → FoldRes next f (f acc v) s' r → FoldRes next f acc s r

theorem fold_some_iff (next : Call σ α) (f : β → α → β) (acc : β) (s : σ) (r : Except Err β × σ) :
    foldLoop next f acc s = some r ↔ FoldRes next f acc s r := by
  constructor
  · intro h
    refine foldLoop.partial_correctness next f (fun acc s r => FoldRes next f acc s r) ?_ acc s r h
    intro F ih acc s r hr
    cases hn : next s with
    | none => simp [hn] at hr
    | some x =>
      obtain ⟨e | v, s'⟩ := x
      · simp only [hn] at hr
        by_cases he : e = .eoi
        · subst he
          simp only [if_true, Option.some.injEq] at hr
          subst hr; exact .eoi hn
        · simp only [he, if_false, Option.some.injEq] at hr
          subst hr; exact .error hn he
      · simp only [hn] at hr
        exact .value hn (ih _ _ _ hr)
  · intro h
    induction h with
    | eoi h => rw [foldLoop]; simp [h]
    | error h he => rw [foldLoop]; simp [h, he]
    | value h _ ih => rw [foldLoop]; simp [h, ih]

/-- Two reductions that go in step. -/
theorem fold_sim {δ : Type} (next : Call σ α) (next' : Call τ β) (f : γ → α → γ) (g : δ → β → δ) (A : γ → δ → Prop) (R : σ → τ → Prop)
    (hR : ∀ s t, R s t →
      match next s, next' t with
      | none, none => True
      | some (.ok v, s'), some (.ok u, t') => R s' t' ∧ ∀ a b, A a b → A (f a v) (g b u)
      | some (.error e, _), some (.error e', _) => e = e'
      | _, _ => False)
    (a : γ) (b : δ) (s : σ) (t : τ) (hab : A a b) (h : R s t) :
    match foldLoop next f a s, foldLoop next' g b t with
    | none, none => True
    | some (.ok v, _), some (.ok u, _) => A v u
    | some (.error e, _), some (.error e', _) => e = e'
    | _, _ => False := by
  have fwd : ∀ a s r, FoldRes next f a s r → ∀ b t, A a b → R s t → ∃ r', FoldRes next' g b t r' ∧
      match r, r' with
      | (.ok v, _), (.ok u, _) => A v u
      | (.error e, _), (.error e', _) => e = e'
      | _, _ => False := by
    intro a s r hr
    induction hr with
    | @eoi a s s' h1 =>
      intro b t hab h
      have := hR s t h
      rw [h1] at this
      rcases hn : next' t with _ | ⟨e | _, t'⟩ <;> rw [hn] at this
      · exact this.elim
      · have : e = .eoi := this.symm
        subst this
        exact ⟨_, .eoi hn, hab⟩
      · exact this.elim
    | @error a s e s' h1 he =>
      intro b t hab h
      have := hR s t h
      rw [h1] at this
      rcases hn : next' t with _ | ⟨e' | _, t'⟩ <;> rw [hn] at this
      · exact this.elim
      · have : e' = e := this.symm
        subst this
        exact ⟨_, .error hn he, rfl⟩
      · exact this.elim
    | @value a s v s' r h1 _ ih =>
      intro b t hab h
      have := hR s t h
      rw [h1] at this
      rcases hn : next' t with _ | ⟨_ | u, t'⟩ <;> rw [hn] at this
      · exact this.elim
      · exact this.elim
      · obtain ⟨r', i1, i2⟩ := ih _ _ (this.2 _ _ hab) this.1
        exact ⟨r', .value hn i1, i2⟩
  have bwd : ∀ b t r', FoldRes next' g b t r' → ∀ a s, R s t → ∃ r, FoldRes next f a s r := by
    intro b t r' hr
    induction hr with
    | @eoi b t t' h1 =>
      intro a s h
      have := hR s t h
      rw [h1] at this
      rcases hn : next s with _ | ⟨e | _, s'⟩ <;> rw [hn] at this
      · exact this.elim
      · have : e = .eoi := this
        subst this
        exact ⟨_, .eoi hn⟩
      · exact this.elim
    | @error b t e t' h1 he =>
      intro a s h
      have := hR s t h
      rw [h1] at this
      rcases hn : next s with _ | ⟨e' | _, s'⟩ <;> rw [hn] at this
      · exact this.elim
      · have : e' = e := this
        subst this
        exact ⟨_, .error hn he⟩
      · exact this.elim
    | @value b t u t' r h1 _ ih =>
      intro a s h
      have := hR s t h
      rw [h1] at this
      rcases hn : next s with _ | ⟨_ | v, s'⟩ <;> rw [hn] at this
      · exact this.elim
      · exact this.elim
      · obtain ⟨r, i1⟩ := ih (f a v) _ this.1
        exact ⟨r, .value hn i1⟩
  cases hp : foldLoop next f a s with
  | none =>
    cases hq : foldLoop next' g b t with
    | none => trivial
    | some r' =>
      obtain ⟨r, hr⟩ := bwd b t r' ((fold_some_iff _ _ _ _ _).mp hq) a s h
      rw [(fold_some_iff _ _ _ _ _).mpr hr] at hp; cases hp
  | some r =>
    obtain ⟨r', h1, h2⟩ := fwd a s r ((fold_some_iff _ _ _ _ _).mp hp) b t hab h
    rw [(fold_some_iff _ _ _ _ _).mpr h1]
    obtain ⟨_ | _, _⟩ := r <;> obtain ⟨_ | _, _⟩ := r' <;> exact h2

/-- One outcome of the loop of the matching functions. -/
inductive BoolRes (next : Call σ α) (p : α → Bool) (stop : Bool) : Bool → σ → Except Err Bool × σ → Prop
  | eoi {res s s'} : next s = some (.error .eoi, s') → BoolRes next p stop res s (.ok res, s')
  | error {res s e s'} : next s = some (.error e, s') → e ≠ .eoi → BoolRes next p stop res s (.error e, s')
  | stop {res s v s'} : next s = some (.ok v, s') → p v = stop → BoolRes next p stop res s (.ok (p v), s')
  | go {res s v s' r} : next s = some (.ok v, s') → p v ≠ stop → BoolRes next p stop (p v) s' r → BoolRes next p stop res s r

theorem bool_some_iff (next : Call σ α) (p : α → Bool) (stop res : Bool) (s : σ) (r : Except Err Bool × σ) :
    boolLoop next p stop res s = some r ↔ BoolRes next p stop res s r := by
  constructor
  · intro h
    refine boolLoop.partial_correctness next p stop (fun res s r => BoolRes next p stop res s r) ?_ res s r h
    intro F ih res s r hr
    cases hn : next s with
    | none => simp [hn] at hr
    | some x =>
      obtain ⟨e | v, s'⟩ := x
      · simp only [hn] at hr
        by_cases he : e = .eoi
        · subst he
          simp only [if_true, Option.some.injEq] at hr
          subst hr; exact .eoi hn
        · simp only [he, if_false, Option.some.injEq] at hr
          subst hr; exact .error hn he
      · simp only [hn] at hr
        by_cases hp : p v = stop
        · simp only [hp, if_true, Option.some.injEq] at hr
          subst hr
          have := BoolRes.stop (res := res) hn hp
          rwa [hp] at this
        · simp only [hp, if_false] at hr
          exact .go hn hp (ih _ _ _ hr)
  · intro h
    induction h with
    | eoi h => rw [boolLoop]; simp [h]
    | error h he => rw [boolLoop]; simp [h, he]
    | stop h hp => rw [boolLoop]; simp [h, hp]
    | go h hp _ ih => rw [boolLoop]; simp [h, hp, ih]

/-- Two matching loops that go in step: p and q agree up to `n`, a function of Bool (identity or negation). -/
theorem bool_sim (next : Call σ α) (next' : Call τ β) (p : α → Bool) (q : β → Bool) (n : Bool → Bool) (hn : ∀ a b, n a = n b → a = b)
    (stop : Bool) (R : σ → τ → Prop)
    (hR : ∀ s t, R s t →
      match next s, next' t with
      | none, none => True
      | some (.ok v, s'), some (.ok u, t') => R s' t' ∧ n (p v) = q u
      | some (.error e, _), some (.error e', _) => e = e'
      | _, _ => False)
    (res : Bool) (s : σ) (t : τ) (h : R s t) :
    match boolLoop next p stop res s, boolLoop next' q (n stop) (n res) t with
    | none, none => True
    | some (.ok v, _), some (.ok u, _) => n v = u
    | some (.error e, _), some (.error e', _) => e = e'
    | _, _ => False := by
  have fwd : ∀ res s r, BoolRes next p stop res s r → ∀ t, R s t → ∃ r', BoolRes next' q (n stop) (n res) t r' ∧
      match r, r' with
      | (.ok v, _), (.ok u, _) => n v = u
      | (.error e, _), (.error e', _) => e = e'
      | _, _ => False := by
    intro res s r hr
    induction hr with
    | @eoi res s s' h1 =>
      intro t h
      have := hR s t h
      rw [h1] at this
      rcases hn : next' t with _ | ⟨e | _, t'⟩ <;> rw [hn] at this
      · exact this.elim
      · have : e = .eoi := this.symm
        subst this
        exact ⟨_, .eoi hn, rfl⟩
      · exact this.elim
    | @error res s e s' h1 he =>
      intro t h
      have := hR s t h
      rw [h1] at this
      rcases hn : next' t with _ | ⟨e' | _, t'⟩ <;> rw [hn] at this
      · exact this.elim
      · have : e' = e := this.symm
        subst this
        exact ⟨_, .error hn he, rfl⟩
      · exact this.elim
    | @stop res s v s' h1 hp =>
      intro t h
      have := hR s t h
      rw [h1] at this
      rcases hn : next' t with _ | ⟨e' | u, t'⟩ <;> rw [hn] at this
      · exact this.elim
      · exact this.elim
      · exact ⟨_, .stop hn (by rw [← this.2, hp]), this.2⟩
    | @go res s v s' r h1 hp _ ih =>
      intro t h
      have := hR s t h
      rw [h1] at this
      rcases hn' : next' t with _ | ⟨_ | u, t'⟩ <;> rw [hn'] at this
      · exact this.elim
      · exact this.elim
      · obtain ⟨r', i1, i2⟩ := ih _ this.1
        rw [this.2] at i1
        exact ⟨r', .go hn' (by rw [← this.2]; exact fun hc => hp (hn _ _ hc)) i1, i2⟩
  have bwd : ∀ stop' res' t r', BoolRes next' q stop' res' t r' → stop' = n stop → ∀ res s, R s t → ∃ r, BoolRes next p stop res s r := by
    intro stop' res' t r' hr
    induction hr with
    | @eoi b t t' h1 =>
      intro _ a s h
      have := hR s t h
      rw [h1] at this
      rcases hn : next s with _ | ⟨e | _, s'⟩ <;> rw [hn] at this
      · exact this.elim
      · have : e = .eoi := this
        subst this
        exact ⟨_, .eoi hn⟩
      · exact this.elim
    | @error b t e t' h1 he =>
      intro _ a s h
      have := hR s t h
      rw [h1] at this
      rcases hn : next s with _ | ⟨e' | _, s'⟩ <;> rw [hn] at this
      · exact this.elim
      · have : e' = e := this
        subst this
        exact ⟨_, .error hn he⟩
      · exact this.elim
    | @stop b t u t' h1 hq =>
      intro hs a s h
      have := hR s t h
      rw [h1] at this
      rcases hn' : next s with _ | ⟨_ | v, s'⟩ <;> rw [hn'] at this
      · exact this.elim
      · exact this.elim
      · exact ⟨_, .stop hn' (hn _ _ (by rw [this.2, hq, hs]))⟩
    | @go b t u t' r h1 hq _ ih =>
      intro hs a s h
      have := hR s t h
      rw [h1] at this
      rcases hn' : next s with _ | ⟨_ | v, s'⟩ <;> rw [hn'] at this
      · exact this.elim
      · exact this.elim
      · obtain ⟨r, i1⟩ := ih hs (p v) _ this.1
        exact ⟨r, .go hn' (fun hc => hq (by rw [← this.2, hc, hs])) i1⟩
  cases hp : boolLoop next p stop res s with
  | none =>
    cases hq : boolLoop next' q (n stop) (n res) t with
    | none => trivial
    | some r' =>
      obtain ⟨r, hr⟩ := bwd _ _ t r' ((bool_some_iff _ _ _ _ _ _).mp hq) rfl res s h
      rw [(bool_some_iff _ _ _ _ _ _).mpr hr] at hp; cases hp
  | some r =>
    obtain ⟨r', h1, h2⟩ := fwd res s r ((bool_some_iff _ _ _ _ _ _).mp hp) t h
    rw [(bool_some_iff _ _ _ _ _ _).mpr h1]
    obtain ⟨_ | _, _⟩ := r <;> obtain ⟨_ | _, _⟩ := r' <;> exact h2

end Micro.Stream
