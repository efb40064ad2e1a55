import Verif.Stream.Props
import Mathlib.Order.Monotone.Basic
import Mathlib.Order.Nat
set_option linter.unusedSimpArgs false
/-
C116: endless sources. The transformations are lazy: each result needs only a finite part of the source, and what needs the whole source does not
return.
-/
namespace Micro.Stream
open Micro Micro.Iter

variable {σ α β : Type}

/-- The source never ends: its n-th value is `f n`, and `st n` is its state after exactly n reads. -/
def Endless (call : Call σ α) (s : σ) (f : ℕ → α) (st : ℕ → σ) : Prop :=
  st 0 = s ∧ ∀ i, call (st i) = some (.ok (f i), st (i + 1))

theorem Endless.ofIter {call : Call σ α} {s : σ} {f : ℕ → α} {st : ℕ → σ} (h : Endless call s f st) :
    Endless (It.next call) (Iter.ofIter s) f (fun i => Iter.ofIter (st i)) := by
  refine ⟨by simp [h.1], fun i => ?_⟩
  rw [next_source call _ (st i) rfl rfl, h.2 i]
  rfl

theorem Endless.takeN {call : Call σ α} {s : σ} {f : ℕ → α} {st : ℕ → σ} (h : Endless call s f st) (n : ℕ) :
    takeN call n s = some ((List.range n).map f, st n) := by
  have : ∀ n k, Iter.takeN call n (st k) = some ((List.range n).map (fun i => f (k + i)), st (k + n)) := by
    intro n
    induction n with
    | zero => intro k; simp [Iter.takeN]
    | succ n ih =>
      intro k
      simp only [Iter.takeN, h.2 k, ih (k + 1), Option.map_some, Option.some.injEq, Prod.mk.injEq]
      constructor
      · rw [List.range_succ_eq_map]
        simp only [List.map_cons, Nat.add_zero, List.map_map, List.cons.injEq, true_and]
        apply List.map_congr_left
        intro i _
        simp only [Function.comp_apply]; congr 1; omega
      · congr 1; omega
  have := this n 0
  simpa [h.1] using this

/-- The naturals, for the examples. -/
def natsCall : Call ℕ ℕ := fun n => some (.ok n, n + 1)

theorem nats_endless : Endless natsCall 0 (fun n => n) (fun n => n) := ⟨rfl, fun _ => rfl⟩

/-- C116: Map, and MapError while the function does not fail, give the mapped endless sequence; after n results the source has been read n times. -/
theorem c116_map (g : α → β) (ge : α → Except Err β) (next : Call σ α) (s : σ) (f : ℕ → α) (st : ℕ → σ) (h : Endless next s f st) :
    Endless (It.next (mapCall g next)) (ofIter s) (fun i => g (f i)) (fun i => ofIter (st i)) ∧
    ((∀ i, ge (f i) = .ok (g (f i))) → Endless (It.next (mapErrorCall ge next)) (ofIter s) (fun i => g (f i)) (fun i => ofIter (st i))) ∧
    (∀ n e, (∀ i < n, ge (f i) = .ok (g (f i))) → ge (f n) = .error e →
      YieldsForever (It.next (mapErrorCall ge next)) (ofIter s) ((List.range n).map (fun i => g (f i))) e) := by
  refine ⟨Endless.ofIter ⟨h.1, fun i => by simp [mapCall, h.2 i]⟩, fun hg => Endless.ofIter ⟨h.1, fun i => by simp [mapErrorCall, h.2 i, hg i]⟩, ?_⟩
  intro n e hg he
  refine ofIter_forever ?_
  have : ∀ m k, k + m = n → Yields (mapErrorCall ge next) (st k) ((List.range m).map (fun i => g (f (k + i)))) e := by
    intro m
    induction m with
    | zero =>
      intro k hk
      have : k = n := by omega
      subst this
      exact .stop (s' := st (k + 1)) (by simp [mapErrorCall, h.2 k, he])
    | succ m ih =>
      intro k hk
      have h1 := ih (k + 1) (by omega)
      rw [List.range_succ_eq_map]
      simp only [List.map_cons, Nat.add_zero, List.map_map]
      refine .value (s' := st (k + 1)) (by simp [mapErrorCall, h.2 k, hg k (by omega)]) ?_
      have e1 : (fun i => g (f (k + 1 + i))) = ((fun i => g (f (k + i))) ∘ Nat.succ) := by
        funext i; simp only [Function.comp_apply]; congr 2; omega
      rwa [e1] at h1
  have := this n 0 (by omega)
  simpa [h.1] using this

/-- C116: Peek passes the values through, and has shown its function exactly the n values given out. -/
theorem c116_peek (next : Call σ α) (s : σ) (f : ℕ → α) (st : ℕ → σ) (h : Endless next s f st) :
    Endless (It.next (peekCall next)) (ofIter ([], s)) f (fun i => ofIter ((List.range i).map f, st i)) :=
  Endless.ofIter (f := f) (st := fun i => ((List.range i).map f, st i)) ⟨by simp [h.1], fun i => by
    simp [peekCall, h.2 i, List.range_succ]⟩

example := c116_peek natsCall 0 _ _ nats_endless

/-- C116: Limit(n) ends after n values of an endless source, and Skip(n) drops n values of it. -/
theorem c116_limit_skip (n : ℕ) (next : Call σ α) (s : σ) (f : ℕ → α) (st : ℕ → σ) (h : Endless next s f st) :
    YieldsForever (It.next (limitCall next)) (ofIter (n, s)) ((List.range n).map f) .eoi ∧
    (∃ st', Endless (It.next (skipCall next)) (ofIter (n, s)) (fun i => f (n + i)) st' ∧
      ∀ i, 0 < i → st' i = ofIter (0, st (n + i))) := by
  refine ⟨c35_limit_reads_at_most_n n next s (st n) _ (h.takeN n), ?_⟩
  have hs : ∀ n k, skipLoop next n (st k) = some (.ok (f (k + n)), (0, st (k + n + 1))) := by
    intro n
    induction n with
    | zero => intro k; simp [skipLoop, h.2 k]
    | succ n ih =>
      intro k
      simp only [skipLoop, h.2 k, ih (k + 1)]
      rw [show k + 1 + n = k + (n + 1) by omega]
  refine ⟨fun i => ofIter (if i = 0 then (n, s) else (0, st (n + i))), Endless.ofIter (st := fun i => if i = 0 then (n, s) else (0, st (n + i)))
    ⟨by simp, fun i => ?_⟩, fun i hi => by simp only; rw [if_neg (by omega)]⟩
  by_cases hi : i = 0
  · subst hi
    have := hs n 0
    rw [h.1] at this
    simp only [if_true, skipCall, this]
    simp
  · simp only [hi, if_false, skipCall, Nat.add_eq_zero_iff, one_ne_zero, and_false]
    rw [hs 0 (n + i)]
    simp [Nat.add_assoc]

/-- The states a predicate with memory goes through. -/
def predState {φ : Type} (p : φ → α → Bool × φ) (c : φ) (f : ℕ → α) : ℕ → φ
  | 0 => c
  | n + 1 => (p (predState p c f n) (f n)).2

theorem filter_step {φ : Type} (p : φ → α → Bool × φ) (c : φ) (next : Call σ α) (s : σ) (f : ℕ → α) (st : ℕ → σ) (h : Endless next s f st) :
    ∀ d n, (∀ j < d, (p (predState p c f (n + j)) (f (n + j))).1 = false) → (p (predState p c f (n + d)) (f (n + d))).1 = true →
      filterCall p next (st n, predState p c f n) = some (.ok (f (n + d)), (st (n + d + 1), predState p c f (n + d + 1))) := by
  intro d
  induction d with
  | zero =>
    intro n _ hp
    rw [filterCall, h.2 n]
    simp only [Nat.add_zero] at hp ⊢
    simp only [hp, if_true, predState]
  | succ d ih =>
    intro n hno hp
    rw [filterCall, h.2 n]
    have h0 := hno 0 (by omega)
    simp only [Nat.add_zero] at h0
    simp only [h0, Bool.false_eq_true, if_false]
    have := ih (n + 1) (fun j hj => by have := hno (j + 1) (by omega); rwa [show n + (j + 1) = n + 1 + j by omega] at this)
      (by rwa [show n + 1 + d = n + (d + 1) by omega])
    rw [show n + 1 + d = n + (d + 1) by omega] at this
    exact this

theorem filter_endless {φ : Type} (p : φ → α → Bool × φ) (c : φ) (next : Call σ α) (s : σ) (f : ℕ → α) (st : ℕ → σ) (h : Endless next s f st)
    (g : ℕ → ℕ) (hg : StrictMono g) (hp : ∀ m, (p (predState p c f m) (f m)).1 = true ↔ ∃ i, g i = m) :
    ∃ c' : ℕ → φ, Endless (It.next (filterCall p next)) (ofIter (s, c)) (fun i => f (g i)) (fun i => ofIter (st (if i = 0 then 0 else g (i - 1) + 1), c' i)) := by
  set k : ℕ → ℕ := fun i => if i = 0 then 0 else g (i - 1) + 1 with hk
  have hkg : ∀ i, k i ≤ g i := by
    intro i
    by_cases hi : i = 0
    · simp [hk, hi]
    · simp only [hk, hi, if_false]; exact hg (by omega)
  have hno : ∀ i m, k i ≤ m → m < g i → (p (predState p c f m) (f m)).1 = false := by
    intro i m h1 h2
    by_contra hc
    simp only [Bool.not_eq_false] at hc
    obtain ⟨j, rfl⟩ := (hp m).1 hc
    have hj : j < i := hg.lt_iff_lt.1 h2
    by_cases hi : i = 0
    · omega
    · simp only [hk, hi, if_false] at h1
      have : g j ≤ g (i - 1) := hg.monotone (by omega)
      omega
  refine ⟨fun i => predState p c f (k i), Endless.ofIter (st := fun i => (st (k i), predState p c f (k i))) ⟨by simp [hk, h.1, predState], fun i => ?_⟩⟩
  have := filter_step p c next s f st h (g i - k i) (k i) (fun j hj => hno i _ (by omega) (by omega))
    (by rw [Nat.add_sub_cancel' (hkg i)]; exact (hp (g i)).2 ⟨i, rfl⟩)
  rw [Nat.add_sub_cancel' (hkg i)] at this
  have hk1 : k (i + 1) = g i + 1 := by simp [hk]
  rw [this]
  simp only [hk1]

/-- C116: Filter gives the values that match, in order, as long as there always is another one: `g i` is the position of the i-th one; a result is
given out as soon as it has been read. -/
theorem c116_filter (p : α → Bool) (next : Call σ α) (s : σ) (f : ℕ → α) (st : ℕ → σ) (h : Endless next s f st)
    (g : ℕ → ℕ) (hg : StrictMono g) (hp : ∀ m, p (f m) = true ↔ ∃ i, g i = m) :
    Endless (It.next (filterCall (pure p) next)) (ofIter (s, ())) (fun i => f (g i))
      (fun i => ofIter (st (if i = 0 then 0 else g (i - 1) + 1), ())) := by
  obtain ⟨c', hc⟩ := filter_endless (pure p) () next s f st h g hg hp
  exact hc

example : StrictMono (fun i : ℕ => 2 * i) ∧ ∀ m, (fun m => decide (m % 2 = 0)) m = true ↔ ∃ i, (fun i : ℕ => 2 * i) i = m := by
  refine ⟨fun a b h => by simp only; omega, fun m => ?_⟩
  simp only [decide_eq_true_eq]
  exact ⟨fun h => ⟨m / 2, by omega⟩, by rintro ⟨i, rfl⟩; omega⟩

/-- C116: Distinct gives the first occurrences, Duplicate the second ones. -/
theorem c116_distinct [DecidableEq α] (next : Call σ α) (s : σ) (f : ℕ → α) (st : ℕ → σ) (h : Endless next s f st) (g : ℕ → ℕ) (hg : StrictMono g) :
    ((∀ m, (∀ j < m, f j ≠ f m) ↔ ∃ i, g i = m) →
      ∃ st', Endless (It.next (filterCall distinctPred next)) (ofIter (s, distinctInit)) (fun i => f (g i)) st') ∧
    ((∀ m, ((List.range m).map f).count (f m) = 1 ↔ ∃ i, g i = m) →
      ∃ st', Endless (It.next (filterCall duplicatePred next)) (ofIter (s, duplicateInit)) (fun i => f (g i)) st') := by
  constructor
  · intro hp
    have hs : ∀ n v, predState distinctPred distinctInit f n v = true ↔ ∃ j < n, f j = v := by
      intro n
      induction n with
      | zero => intro v; simp [predState, distinctInit]
      | succ n ih =>
        intro v
        simp only [predState, distinctPred]
        split
        · rename_i hc
          rw [ih]
          constructor
          · rintro ⟨j, hj, rfl⟩; exact ⟨j, by omega, rfl⟩
          · rintro ⟨j, hj, rfl⟩
            by_cases hjn : j = n
            · subst hjn; exact (ih _).1 hc
            · exact ⟨j, by omega, rfl⟩
        · by_cases hv : v = f n
          · subst hv; simp only [if_true, true_iff]; exact ⟨n, by omega, rfl⟩
          · simp only [hv, if_false]
            rw [ih]
            constructor
            · rintro ⟨j, hj, rfl⟩; exact ⟨j, by omega, rfl⟩
            · rintro ⟨j, hj, rfl⟩
              by_cases hjn : j = n
              · subst hjn; exact absurd rfl hv
              · exact ⟨j, by omega, rfl⟩
    obtain ⟨c', hc⟩ := filter_endless distinctPred distinctInit next s f st h g hg (by
      intro m
      rw [← hp m]
      simp only [distinctPred]
      constructor
      · intro hb j hj he
        have := (hs m (f m)).2 ⟨j, hj, he⟩
        rw [this] at hb; simp at hb
      · intro hb
        cases hc : predState distinctPred distinctInit f m (f m) with
        | false => rfl
        | true =>
          obtain ⟨j, hj, he⟩ := (hs m (f m)).1 hc
          exact absurd he (hb j hj))
    exact ⟨_, hc⟩
  · intro hp
    have hs : ∀ n v, predState duplicatePred duplicateInit f n v = min 3 (((List.range n).map f).count v) := by
      intro n
      induction n with
      | zero => intro v; simp [predState, duplicateInit]
      | succ n ih =>
        intro v
        have hcnt : ((List.range (n + 1)).map f).count v = ((List.range n).map f).count v + if f n = v then 1 else 0 := by
          rw [List.range_succ, List.map_append, List.count_append]
          simp only [List.map_cons, List.map_nil, List.count_singleton, beq_iff_eq]
        rw [hcnt]
        have hi := ih v
        have hn := ih (f n)
        simp only [predState, duplicatePred]
        by_cases hv : f n = v
        · subst hv
          simp only [if_true]
          split
          · simp only [if_true]; omega
          · omega
        · have hv' : v ≠ f n := fun h => hv h.symm
          rw [if_neg hv, Nat.add_zero]
          split
          · simp only [hv', if_false]; exact hi
          · exact hi
    obtain ⟨c', hc⟩ := filter_endless duplicatePred duplicateInit next s f st h g hg (by
      intro m
      rw [← hp m]
      simp only [duplicatePred, decide_eq_true_eq, hs m (f m)]
      split <;> omega)
    exact ⟨_, hc⟩

example : ∀ m : ℕ, (∀ j < m, (fun n : ℕ => n / 2) j ≠ (fun n : ℕ => n / 2) m) ↔ ∃ i, (fun i : ℕ => 2 * i) i = m := by
  intro m
  simp only
  constructor
  · intro h
    refine ⟨m / 2, ?_⟩
    by_contra hc
    exact h (m - 1) (by omega) (by omega)
  · rintro ⟨i, rfl⟩ j hj; omega

/-- C116: AnyMatch, AllMatch and NoneMatch answer as soon as a value decides, having read no more than that value. -/
theorem c116_match (p : α → Bool) (next : Call σ α) (s : σ) (f : ℕ → α) (st : ℕ → σ) (h : Endless next s f st) (n : ℕ) :
    ((∀ i < n, p (f i) = false) → p (f n) = true →
      anyMatchCall p next (false, s) = some (.ok true, (true, st (n + 1))) ∧ noneMatchCall p next (false, s) = some (.ok false, (true, st (n + 1)))) ∧
    ((∀ i < n, p (f i) = true) → p (f n) = false → allMatchCall p next (false, s) = some (.ok false, (true, st (n + 1)))) := by
  have := c34_short_circuit p next n s (st n) (st (n + 1)) _ (f n) (h.takeN n) (h.2 n)
  constructor
  · intro h1 h2
    exact this.2 (by intro v hv; simp only [List.mem_map, List.mem_range] at hv; obtain ⟨i, hi, rfl⟩ := hv; exact h1 i hi) h2
  · intro h1 h2
    exact this.1 (by intro v hv; simp only [List.mem_map, List.mem_range] at hv; obtain ⟨i, hi, rfl⟩ := hv; exact h1 i hi) h2

example := c116_match (fun n => decide (n < 3)) natsCall 0 _ _ nats_endless 3

/-! #### What does not return -/

theorem foldLoop_hangs (next : Call σ α) (s : σ) (f : ℕ → α) (st : ℕ → σ) (h : Endless next s f st) (g : β → α → β) (acc : β) (n : ℕ) :
    foldLoop next g acc (st n) = none := by
  cases hr : foldLoop next g acc (st n) with
  | none => rfl
  | some r =>
    exfalso
    refine foldLoop.partial_correctness next g (fun _ s' _ => (∃ n, s' = st n) → False) ?_ acc (st n) r hr ⟨n, rfl⟩
    rintro F ih acc' s' r' hr' ⟨n, rfl⟩
    rw [h.2 n] at hr'
    exact ih _ _ _ hr' ⟨n + 1, rfl⟩

theorem boolLoop_hangs (next : Call σ α) (s : σ) (f : ℕ → α) (st : ℕ → σ) (h : Endless next s f st) (p : α → Bool) (stop : Bool)
    (hp : ∀ i, p (f i) ≠ stop) (res : Bool) (n : ℕ) : boolLoop next p stop res (st n) = none := by
  cases hr : boolLoop next p stop res (st n) with
  | none => rfl
  | some r =>
    exfalso
    refine boolLoop.partial_correctness next p stop (fun _ s' _ => (∃ n, s' = st n) → False) ?_ res (st n) r hr ⟨n, rfl⟩
    rintro F ih acc' s' r' hr' ⟨n, rfl⟩
    rw [h.2 n] at hr'
    simp only [hp n, if_false] at hr'
    exact ih _ _ _ hr' ⟨n + 1, rfl⟩

/-- C116: whatever needs the whole source does not return: the reductions (Reduce, ReduceTo, and so Count, Max, Min, Sum, with or without identity),
collecting into a slice or a map, Reverse and sorting. -/
theorem c116_reduce_hangs {κ ν : Type} [DecidableEq κ] (next : Call σ α) (s : σ) (f : ℕ → α) (st : ℕ → σ) (h : Endless next s f st)
    (r : α → α → α) (r' : β → α → β) (zv : β) (id1 : Option α) (id2 : Option β) (sort : List α → List α)
    (nextKV : Call σ (κ × ν)) (fkv : ℕ → κ × ν) (hkv : Endless nextKV s fkv st) :
    It.next (reduceCall r id1 next) (ofIter (false, s)) = none ∧ It.next (reduceToCall zv r' id2 next) (ofIter (false, s)) = none ∧
    It.next (reduceToSliceCall next) (ofIter (false, s)) = none ∧ It.next (reduceToMapCall nextKV) (ofIter (false, s)) = none ∧
    reverse next s = none ∧ sortWith sort next s = none := by
  have key : ∀ {τ γ : Type} (c : Call τ γ) (s : τ), c s = none → It.next c (ofIter s) = none := by
    intro τ γ c s hc
    rw [next_source c _ s rfl rfl, hc]
  have hsl : It.next (reduceToSliceCall next) (ofIter (false, s)) = none := by
    apply key
    simp only [reduceToSliceCall, Bool.false_eq_true, if_false, ← h.1, foldLoop_hangs next s f st h, withState]
  have h0 := h.2 0
  rw [h.1] at h0
  refine ⟨?_, ?_, hsl, ?_, ?_, ?_⟩
  · apply key
    simp only [reduceCall, Bool.false_eq_true, if_false, h0]
    cases id1 <;> simp only [foldLoop_hangs next s f st h, withState]
  · apply key
    simp only [reduceToCall, Bool.false_eq_true, if_false, h0]
    cases id2 <;> simp only [foldLoop_hangs next s f st h, withState]
  · apply key
    simp only [reduceToMapCall, Bool.false_eq_true, if_false, ← hkv.1, foldLoop_hangs nextKV s fkv st hkv, withState]
  · simp only [reverse, hsl]
  · simp only [sortWith, hsl]

example := c116_reduce_hangs natsCall 0 _ _ nats_endless (· + ·) (fun (n : ℕ) _ => n + 1) 0 none none id (fun n => some (.ok (n % 3, n), n + 1)) (fun n => (n % 3, n)) ⟨rfl, fun _ => rfl⟩

/-- C116: Filter does not return when no further value matches, nor does a quantifier that no value decides. -/
theorem c116_search_hangs (p : α → Bool) (next : Call σ α) (s : σ) (f : ℕ → α) (st : ℕ → σ) (h : Endless next s f st) :
    (∀ n, (∀ m, n ≤ m → p (f m) = false) → It.next (filterCall (pure p) next) (ofIter (st n, ())) = none) ∧
    ((∀ m, p (f m) = false) → anyMatchCall p next (false, s) = none ∧ noneMatchCall p next (false, s) = none) ∧
    ((∀ m, p (f m) = true) → allMatchCall p next (false, s) = none) := by
  have h0 := h.2 0
  rw [h.1] at h0
  refine ⟨?_, ?_, ?_⟩
  · intro n hn
    rw [next_source _ _ (st n, ()) rfl rfl]
    cases hr : filterCall (pure p) next (st n, ()) with
    | none => rfl
    | some r =>
      exfalso
      refine filterCall.partial_correctness (pure p) next (fun s' _ => (∃ m, n ≤ m ∧ s' = (st m, ())) → False) ?_ (st n, ()) r hr ⟨n, le_refl _, rfl⟩
      rintro F ih s' r' hr' ⟨m, hm, rfl⟩
      rw [h.2 m] at hr'
      simp only [pure, hn m hm, Bool.false_eq_true, if_false] at hr'
      exact ih _ _ hr' ⟨m + 1, by omega, rfl⟩
  · intro hp
    constructor
    · simp only [anyMatchCall, reduceToBoolCall, Bool.false_eq_true, if_false, h0, hp 0]
      rw [boolLoop_hangs next s f st h p true (by simp [hp])]; rfl
    · simp only [noneMatchCall, reduceToBoolCall, Bool.false_eq_true, if_false, h0, hp 0, Bool.not_false, Bool.true_eq_false]
      rw [boolLoop_hangs next s f st h (fun t => !p t) false (by simp [hp])]; rfl
  · intro hp
    simp only [allMatchCall, reduceToBoolCall, Bool.false_eq_true, if_false, h0, hp 0, Bool.true_eq_false]
    rw [boolLoop_hangs next s f st h p false (by simp [hp])]; rfl

example := c116_search_hangs (fun n => decide (n < 3)) natsCall 0 _ _ nats_endless

/-- C116: iter.OfIter(InfiniteIterGen(...)) is endless: the literals, then the iterated function. -/
theorem c116_infinite {γ : Type} (it : α → γ → α × γ) (zero : α) (c : γ) (ls : List α) (seed : α) :
    ∃ f st, Endless (infiniteCall it) (infiniteInit zero c (ls ++ [seed])) f st ∧
      ∀ n, (List.range (ls.length + n)).map f = ls ++ (List.range n).map (fun i => (iterN it (i + 1) (seed, c)).1) := by
  have tot : ∀ s : InfState γ α, ∃ v s', infiniteCall it s = some (.ok v, s') := by
    intro s
    unfold infiniteCall
    split
    · exact ⟨_, _, rfl⟩
    · exact ⟨_, _, rfl⟩
  choose v s' hs using tot
  let st : ℕ → InfState γ α := fun n => Nat.rec (infiniteInit zero c (ls ++ [seed])) (fun _ s => s' s) n
  have he : Endless (infiniteCall it) (infiniteInit zero c (ls ++ [seed])) (fun n => v (st n)) st := ⟨rfl, fun i => hs (st i)⟩
  refine ⟨_, st, he, fun n => ?_⟩
  have h1 := he.takeN (ls.length + n)
  have h2 := c26_infinite it zero c ls seed n
  rw [h1] at h2
  simpa using h2

/-- C116: Concat goes on with an endless iterator after finite ones, and never reaches what follows it. -/
theorem c116_concat {ι : Type} (next : Call ι α) (i : ι) (f : ℕ → α) (st : ℕ → ι) (h : Endless next i f st) (rest : List (Option ι)) :
    ∃ st', Endless (It.next (concatCall next)) (ofIter ⟨some i :: rest, .eoi⟩) f st' := by
  refine ⟨_, Endless.ofIter (f := f) (st := fun n => ⟨some (st n) :: rest, .eoi⟩) ⟨by simp [h.1], fun n => ?_⟩⟩
  simp [concatCall, concatGo, h.2 n]

example := c116_concat natsCall 0 _ _ nats_endless [some 5, none]

/-- The elements of a slice, none for nil. -/
def sliceElems (l : Option (List α)) : List α := l.getD []

theorem takeN_ofIter {call : Call σ α} : ∀ n (s s' : σ) l, takeN call n s = some (l, s') →
    takeN (It.next call) n (Iter.ofIter s) = some (l, Iter.ofIter s') := by
  intro n
  induction n with
  | zero => intro s s' l h; simp only [takeN, Option.some.injEq, Prod.mk.injEq] at h ⊢; exact ⟨h.1, by rw [h.2]⟩
  | succ n ih =>
    intro s s' l h
    simp only [takeN] at h ⊢
    rw [next_source call _ s rfl rfl]
    cases hc : call s with
    | none => simp [hc] at h
    | some r =>
      obtain ⟨r, s1⟩ := r
      cases r with
      | error e => simp [hc] at h
      | ok v =>
        simp only [hc, Option.map_eq_some_iff, Prod.mk.injEq, Prod.exists] at h
        obtain ⟨l1, s2, h1, rfl, rfl⟩ := h
        have := ih _ _ _ h1
        simp only [Iter.ofIter] at this ⊢
        rw [this]; rfl

/-- C116: ExpandSlices of an endless source of slices: the elements of the first n slices are its first results; it does not return when only nil and
empty slices follow. -/
theorem c116_expand (next : Call σ (Option (List α))) (s : σ) (f : ℕ → Option (List α)) (st : ℕ → σ) (h : Endless next s f st) :
    (∀ n, ∃ s', takeN (It.next (expandSlicesCall next)) ((List.range n).flatMap (fun i => sliceElems (f i))).length (ofIter (none, 0, s)) =
      some ((List.range n).flatMap (fun i => sliceElems (f i)), s')) ∧
    ((∀ i, sliceElems (f i) = []) → It.next (expandSlicesCall next) (ofIter (none, 0, s)) = none) := by
  constructor
  · -- the elements left in the current slice, then those of n more slices
    have rest : ∀ (l : List α) (idx : ℕ) (t : σ) (m : ℕ) r s', idx ≤ l.length →
        takeN (expandSlicesCall next) m (some l, l.length, t) = some (r, s') →
        takeN (expandSlicesCall next) (l.length - idx + m) (some l, idx, t) = some (l.drop idx ++ r, s') := by
      intro l idx t m r s' hidx hm
      obtain ⟨d, hd⟩ : ∃ d, l.length - idx = d := ⟨_, rfl⟩
      induction d generalizing idx with
      | zero =>
        have : idx = l.length := by omega
        subst this
        simpa using hm
      | succ d ih =>
        have hlt : idx < l.length := by omega
        rw [show l.length - idx + m = (l.length - (idx + 1) + m) + 1 by omega]
        simp only [takeN]
        have : expandSlicesCall next (some l, idx, t) = some (.ok l[idx], (some l, idx + 1, t)) := by simp [expandSlicesCall, hlt]
        rw [this]
        simp only [ih (idx + 1) (by omega) (by omega), Option.map_some]
        rw [List.drop_eq_getElem_cons hlt]; rfl
    have hfetch : ∀ l k, expandSlicesCall next (some l, l.length, st k) = expandSlicesCall next (none, l.length, st k) := by
      intro l k; simp [expandSlicesCall]
    have main : ∀ n k (cur : Option (List α)) idx, (∀ l, cur = some l → idx = l.length) →
        ∃ s', takeN (expandSlicesCall next) ((List.range n).flatMap (fun i => sliceElems (f (k + i)))).length (cur, idx, st k) =
          some ((List.range n).flatMap (fun i => sliceElems (f (k + i))), s') := by
      intro n
      induction n with
      | zero => intro k cur idx _; exact ⟨(cur, idx, st k), by simp [takeN]⟩
      | succ n ih =>
        intro k cur idx hcur
        have e1 : (List.range (n + 1)).flatMap (fun i => sliceElems (f (k + i))) =
            sliceElems (f k) ++ (List.range n).flatMap (fun i => sliceElems (f (k + 1 + i))) := by
          rw [List.range_succ_eq_map]
          simp only [List.flatMap_cons, Nat.add_zero, List.flatMap_map, Function.comp_def]
          congr 2
          funext i
          rw [show k + Nat.succ i = k + 1 + i by omega]
        rw [e1]
        -- the call made here is a fetch
        have hf : expandSlicesCall next (cur, idx, st k) = expandSlicesCall next (none, idx, st k) := by
          cases cur with
          | none => rfl
          | some l => rw [hcur l rfl]; exact hfetch l k
        cases hs : sliceElems (f k) with
        | nil =>
          obtain ⟨s', hs'⟩ := ih (k + 1) none idx (by simp)
          simp only [List.nil_append]
          cases hl : (List.range n).flatMap (fun i => sliceElems (f (k + 1 + i))) with
          | nil => exact ⟨_, rfl⟩
          | cons v vs =>
            rw [hl] at hs'
            refine ⟨s', ?_⟩
            have hstep : expandSlicesCall next (none, idx, st k) = expandSlicesCall next (none, idx, st (k + 1)) := by
              have : nextSlice next (st k) = nextSlice next (st (k + 1)) := by
                rw [nextSlice, h.2 k]
                cases hfk : f k with
                | none => rfl
                | some l => cases l with
                  | nil => rfl
                  | cons a b => simp [sliceElems, hfk] at hs
              simp only [expandSlicesCall, this]
            simp only [List.length_cons, takeN] at hs' ⊢
            rw [hf, hstep]
            exact hs'
        | cons v vs =>
          have hfk : f k = some (v :: vs) := by
            cases hfk : f k with
            | none => simp [sliceElems, hfk] at hs
            | some l => simp [sliceElems, hfk] at hs; rw [hs]
          obtain ⟨s', hs'⟩ := ih (k + 1) (some (v :: vs)) (v :: vs).length (by simp)
          have hr := rest (v :: vs) 1 (st (k + 1)) _ _ s' (by simp) hs'
          refine ⟨s', ?_⟩
          have hc : expandSlicesCall next (none, idx, st k) = some (.ok v, (some (v :: vs), 1, st (k + 1))) := by
            simp only [expandSlicesCall]
            rw [nextSlice, h.2 k, hfk]
          simp only [List.cons_append, List.length_cons, takeN, List.length_append]
          rw [hf, hc]
          simp only [List.length_cons, Nat.add_sub_cancel, List.drop_succ_cons, List.drop_zero] at hr
          simp only [hr, Option.map_some]
    intro n
    obtain ⟨s', hs'⟩ := main n 0 none 0 (by simp)
    simp only [Nat.zero_add, h.1] at hs'
    exact ⟨_, takeN_ofIter _ _ _ _ hs'⟩
  · intro he
    have hn : nextSlice next s = none := by
      cases hr : nextSlice next s with
      | none => rfl
      | some r =>
        exfalso
        refine nextSlice.partial_correctness next (fun s' _ => (∃ n, s' = st n) → False) ?_ s r hr ⟨0, h.1.symm⟩
        rintro F ih s' r' hr' ⟨n, rfl⟩
        have hen := he n
        rw [h.2 n] at hr'
        cases hfn : f n with
        | none => rw [hfn] at hr'; exact ih _ _ hr' ⟨n + 1, rfl⟩
        | some l => cases l with
          | nil => rw [hfn] at hr'; exact ih _ _ hr' ⟨n + 1, rfl⟩
          | cons a b => simp [sliceElems, hfn] at hen
    rw [next_source _ _ (none, 0, s) rfl rfl]
    simp only [expandSlicesCall, hn]

/-- The parts fit together: the first three squares of even numbers. -/
example : YieldsForever (It.next (limitCall (It.next (mapCall (fun n => n * n) (It.next (filterCall (pure fun m => decide (m % 2 = 0)) natsCall))))))
    (ofIter (3, ofIter (ofIter (0, ())))) [0, 4, 16] .eoi := by
  have h1 := c116_filter (fun m => decide (m % 2 = 0)) natsCall 0 _ _ nats_endless (fun i => 2 * i) (fun a b h => by simp only; omega) (by
    intro m
    simp only [decide_eq_true_eq]
    exact ⟨fun h => ⟨m / 2, by omega⟩, by rintro ⟨i, rfl⟩; omega⟩)
  have h2 := (c116_map (fun n => n * n) (fun n => .ok n) _ _ _ _ h1).1
  exact (c116_limit_skip 3 _ _ _ _ h2).1

end Micro.Stream
