import Verif.Stream.GenRaceModel
/-
C148. Generator and goroutines. It is documented not to be thread safe; here is what that means: a call may be given the function of another one.
-/
namespace Micro.Stream.GenRace

/-- The function that `fn` holds after these events: the one stored last. -/
def lastStore : List Ev → Option Nat
  | [] => none
  | .store _ f :: es => (lastStore es).or (some f)
  | _ :: es => lastStore es

def IsStore : Ev → Prop
  | .store _ _ => True
  | _ => False

theorem lastStore_append (a b : List Ev) : lastStore (a ++ b) = (lastStore b).or (lastStore a) := by
  induction a with
  | nil => simp [lastStore]
  | cons e a ih => cases e <;> simp [lastStore, ih, Option.or_assoc]

theorem lastStore_none {es : List Ev} (h : ∀ e ∈ es, ¬ IsStore e) : lastStore es = none := by
  induction es with
  | nil => rfl
  | cons e es ih =>
    have h1 := h e (by simp)
    have h2 := ih (fun e he => h e (by simp [he]))
    cases e <;> simp_all [lastStore, IsStore]

theorem lastStore_mem {es : List Ev} {f : Nat} (h : lastStore es = some f) : ∃ k, Ev.store k f ∈ es := by
  induction es with
  | nil => simp [lastStore] at h
  | cons e es ih =>
    cases e with
    | store k g =>
      simp only [lastStore] at h
      cases hl : lastStore es with
      | none => simp [hl] at h; subst h; exact ⟨k, by simp⟩
      | some x => simp [hl] at h; subst h; obtain ⟨j, hj⟩ := ih hl; exact ⟨j, by simp [hj]⟩
    | made k g => obtain ⟨j, hj⟩ := ih h; exact ⟨j, by simp [hj]⟩
    | read k g => obtain ⟨j, hj⟩ := ih h; exact ⟨j, by simp [hj]⟩

/-- How the trace and the state belong together. -/
structure Inv (it : Nat → Option Nat) (s : St) : Prop where
  cur : s.currentIter = none
  fn : s.fn = lastStore s.trace
  /-- what a read gave, is what had been stored last -/
  reads : ∀ pre k g post, s.trace = pre ++ .read k g :: post → g = lastStore pre
  small : ∀ k f, (.made k f ∈ s.trace) → f < s.gens
  all : ∀ f, f < s.gens → ∃ k, .made k f ∈ s.trace
  madeInj : ∀ k j f, .made k f ∈ s.trace → .made j f ∈ s.trace → k = j
  madeOne : ∀ k f g, .made k f ∈ s.trace → .made k g ∈ s.trace → f = g
  stores : ∀ k f, .store k f ∈ s.trace → .made k f ∈ s.trace
  storeOne : ∀ a b k f g, s.trace = a ++ .store k f :: b → .store k g ∉ a ∧ .store k g ∉ b
  /-- a call reads when it has stored -/
  order : ∀ pre k g post, s.trace = pre ++ .read k g :: post → it k ≠ none → ∃ f, .store k f ∈ pre
  readOne : ∀ a b k f g, s.trace = a ++ .read k f :: b → .read k g ∉ a ∧ .read k g ∉ b
  pcEarly : ∀ k, s.pc k = .start ∨ s.pc k = .differs → (∀ f, .made k f ∉ s.trace) ∧ ∀ g, .read k g ∉ s.trace
  pcMade : ∀ k f, s.pc k = .made f → .made k f ∈ s.trace ∧ (∀ g, .store k g ∉ s.trace) ∧ ∀ g, .read k g ∉ s.trace
  pcReady : ∀ k, s.pc k = .ready → (it k ≠ none → ∃ f, .store k f ∈ s.trace) ∧ ∀ g, .read k g ∉ s.trace

/-- An event in the middle of a list that has one more at its end. -/
theorem split_snoc {es a b : List Ev} {e x : Ev} (h : es ++ [e] = a ++ x :: b) : (es = a ∧ e = x ∧ b = []) ∨ ∃ b', b = b' ++ [e] ∧ es = a ++ x :: b' := by
  rcases List.eq_nil_or_concat b with rfl | ⟨b', y, rfl⟩
  · left
    have := List.append_inj' h rfl
    simp_all
  · right
    have h' : es ++ [e] = (a ++ x :: b') ++ [y] := by simpa using h
    have := List.append_inj' h' rfl
    refine ⟨b', ?_, this.1⟩
    have := this.2
    simp_all

theorem inv_init (it : Nat → Option Nat) : Inv it .init := by
  constructor <;> simp [St.init, lastStore]

theorem inv_step {it : Nat → Option Nat} {s : St} (h : Inv it s) (k : Nat) : Inv it (s.step it k) := by
  cases hp : s.pc k with
  | start =>
    by_cases hc : s.currentIter ≠ it k
    · simp only [St.step, hp, if_pos hc]
      have hk := h.pcEarly k (.inl hp)
      refine { h with pcEarly := ?_, pcMade := ?_, pcReady := ?_ }
      · intro j hj
        by_cases e : j = k
        · subst e; exact hk
        · simp only [if_neg e] at hj; exact h.pcEarly j hj
      · intro j f hj
        by_cases e : j = k
        · simp [e] at hj
        · simp only [if_neg e] at hj; exact h.pcMade j f hj
      · intro j hj
        by_cases e : j = k
        · simp [e] at hj
        · simp only [if_neg e] at hj; exact h.pcReady j hj
    · simp only [St.step, hp, if_neg hc]
      have hk := h.pcEarly k (.inl hp)
      have hi : it k = none := by rw [h.cur] at hc; simpa using (not_not.mp hc).symm
      refine { h with pcEarly := ?_, pcMade := ?_, pcReady := ?_ }
      · intro j hj
        by_cases e : j = k
        · simp [e] at hj
        · simp only [if_neg e] at hj; exact h.pcEarly j hj
      · intro j f hj
        by_cases e : j = k
        · simp [e] at hj
        · simp only [if_neg e] at hj; exact h.pcMade j f hj
      · intro j hj
        by_cases e : j = k
        · subst e; exact ⟨fun hn => absurd hi hn, hk.2⟩
        · simp only [if_neg e] at hj; exact h.pcReady j hj
  | differs =>
    simp only [St.step, hp]
    have hk := h.pcEarly k (.inr hp)
    constructor
    · exact h.cur
    · simp [lastStore_append, lastStore, h.fn]
    · intro pre j g post e
      rcases split_snoc e with ⟨_, h2, _⟩ | ⟨b, rfl, h2⟩
      · simp at h2
      · exact h.reads _ _ _ _ h2
    · intro j f hm
      simp only [List.mem_append, List.mem_singleton, Ev.made.injEq] at hm
      rcases hm with hm | ⟨rfl, rfl⟩
      · have := h.small j f hm; simp; omega
      · simp
    · intro f hf
      simp only at hf
      by_cases e : f = s.gens
      · subst e; exact ⟨k, by simp⟩
      · obtain ⟨j, hj⟩ := h.all f (by omega)
        exact ⟨j, by simp [hj]⟩
    · intro i j f h1 h2
      simp only [List.mem_append, List.mem_singleton, Ev.made.injEq] at h1 h2
      rcases h1 with h1 | ⟨rfl, rfl⟩ <;> rcases h2 with h2 | ⟨rfl, h3⟩
      · exact h.madeInj i j f h1 h2
      · subst h3; have := h.small _ _ h1; omega
      · have := h.small _ _ h2; omega
      · rfl
    · intro i f g h1 h2
      simp only [List.mem_append, List.mem_singleton, Ev.made.injEq] at h1 h2
      rcases h1 with h1 | ⟨rfl, rfl⟩ <;> rcases h2 with h2 | ⟨h4, h3⟩
      · exact h.madeOne i f g h1 h2
      · subst h4; exact absurd h1 (hk.1 f)
      · exact absurd h2 (hk.1 g)
      · exact h3.symm
    · intro j f hm
      simp only [List.mem_append, List.mem_singleton, reduceCtorEq, or_false] at hm
      simp [h.stores j f hm]
    · intro a b j f g e
      rcases split_snoc e with ⟨_, h2, _⟩ | ⟨b', rfl, h2⟩
      · simp at h2
      · have := h.storeOne _ _ _ _ g h2; simpa using this
    · intro pre j g post e hn
      rcases split_snoc e with ⟨_, h2, _⟩ | ⟨b', rfl, h2⟩
      · simp at h2
      · exact h.order _ _ _ _ h2 hn
    · intro a b j f g e
      rcases split_snoc e with ⟨_, h2, _⟩ | ⟨b', rfl, h2⟩
      · simp at h2
      · have := h.readOne _ _ _ _ g h2; simpa using this
    · intro j hj
      by_cases e : j = k
      · simp [e] at hj
      · simp only [if_neg e] at hj
        have := h.pcEarly j hj
        simpa [e] using this
    · intro j f hj
      by_cases e : j = k
      · subst e
        simp only [if_true, PC.made.injEq] at hj
        subst hj
        refine ⟨by simp, fun g hg => ?_, fun g hg => ?_⟩
        · simp only [List.mem_append, List.mem_singleton, reduceCtorEq, or_false] at hg
          exact hk.1 g (h.stores _ _ hg)
        · simp only [List.mem_append, List.mem_singleton, reduceCtorEq, or_false] at hg
          exact hk.2 g hg
      · simp only [if_neg e] at hj
        have := h.pcMade j f hj
        simpa [e] using this
    · intro j hj
      by_cases e : j = k
      · simp [e] at hj
      · simp only [if_neg e] at hj
        have := h.pcReady j hj
        simpa using this
  | made f =>
    simp only [St.step, hp]
    obtain ⟨hm, hs, hr⟩ := h.pcMade k f hp
    constructor
    · exact h.cur
    · simp [lastStore_append, lastStore]
    · intro pre j g post e
      rcases split_snoc e with ⟨_, h2, _⟩ | ⟨b, rfl, h2⟩
      · simp at h2
      · exact h.reads _ _ _ _ h2
    · intro j f hm
      simp only [List.mem_append, List.mem_singleton, reduceCtorEq, or_false] at hm
      exact h.small j f hm
    · intro f hf
      obtain ⟨j, hj⟩ := h.all f hf
      exact ⟨j, by simp [hj]⟩
    · intro i j f h1 h2
      simp only [List.mem_append, List.mem_singleton, reduceCtorEq, or_false] at h1 h2
      exact h.madeInj i j f h1 h2
    · intro i f g h1 h2
      simp only [List.mem_append, List.mem_singleton, reduceCtorEq, or_false] at h1 h2
      exact h.madeOne i f g h1 h2
    · intro j g hg
      simp only [List.mem_append, List.mem_singleton, Ev.store.injEq] at hg
      rcases hg with hg | ⟨rfl, rfl⟩
      · simp [h.stores j g hg]
      · simp [hm]
    · intro a b j f' g e
      rcases split_snoc e with ⟨rfl, h2, rfl⟩ | ⟨b', rfl, h2⟩
      · simp only [Ev.store.injEq] at h2
        obtain ⟨rfl, rfl⟩ := h2
        exact ⟨hs g, by simp⟩
      · have h3 := h.storeOne _ _ _ _ g h2
        refine ⟨h3.1, ?_⟩
        simp only [List.mem_append, List.mem_singleton, Ev.store.injEq, not_or, not_and]
        refine ⟨h3.2, fun hj => ?_⟩
        subst hj
        exact absurd (show Ev.store j f' ∈ s.trace by rw [h2]; simp) (hs f')
    · intro pre j g post e hn
      rcases split_snoc e with ⟨_, h2, _⟩ | ⟨b', rfl, h2⟩
      · simp at h2
      · exact h.order _ _ _ _ h2 hn
    · intro a b j f g e
      rcases split_snoc e with ⟨_, h2, _⟩ | ⟨b', rfl, h2⟩
      · simp at h2
      · have := h.readOne _ _ _ _ g h2; simpa using this
    · intro j hj
      by_cases e : j = k
      · simp [e] at hj
      · simp only [if_neg e] at hj
        have := h.pcEarly j hj
        simpa using this
    · intro j g hj
      by_cases e : j = k
      · simp [e] at hj
      · simp only [if_neg e] at hj
        have := h.pcMade j g hj
        simpa [e] using this
    · intro j hj
      by_cases e : j = k
      · subst e
        refine ⟨fun _ => ⟨f, by simp⟩, ?_⟩
        simpa using hr
      · simp only [if_neg e] at hj
        have := h.pcReady j hj
        refine ⟨fun hn => ?_, by simpa using this.2⟩
        obtain ⟨g, hg⟩ := this.1 hn
        exact ⟨g, by simp [hg]⟩
  | ready =>
    simp only [St.step, hp]
    obtain ⟨hs, hr⟩ := h.pcReady k hp
    constructor
    · exact h.cur
    · simp [lastStore_append, lastStore, h.fn]
    · intro pre j g post e
      rcases split_snoc e with ⟨rfl, h2, _⟩ | ⟨b, rfl, h2⟩
      · simp only [Ev.read.injEq] at h2
        rw [← h2.2]; exact h.fn
      · exact h.reads _ _ _ _ h2
    · intro j f hm
      simp only [List.mem_append, List.mem_singleton, reduceCtorEq, or_false] at hm
      exact h.small j f hm
    · intro f hf
      obtain ⟨j, hj⟩ := h.all f hf
      exact ⟨j, by simp [hj]⟩
    · intro i j f h1 h2
      simp only [List.mem_append, List.mem_singleton, reduceCtorEq, or_false] at h1 h2
      exact h.madeInj i j f h1 h2
    · intro i f g h1 h2
      simp only [List.mem_append, List.mem_singleton, reduceCtorEq, or_false] at h1 h2
      exact h.madeOne i f g h1 h2
    · intro j g hg
      simp only [List.mem_append, List.mem_singleton, reduceCtorEq, or_false] at hg
      simp [h.stores j g hg]
    · intro a b j f g e
      rcases split_snoc e with ⟨_, h2, _⟩ | ⟨b', rfl, h2⟩
      · simp at h2
      · have := h.storeOne _ _ _ _ g h2; simpa using this
    · intro pre j g post e hn
      rcases split_snoc e with ⟨rfl, h2, _⟩ | ⟨b', rfl, h2⟩
      · simp only [Ev.read.injEq] at h2
        obtain ⟨rfl, _⟩ := h2
        exact hs hn
      · exact h.order _ _ _ _ h2 hn
    · intro a b j f g e
      rcases split_snoc e with ⟨rfl, h2, rfl⟩ | ⟨b', rfl, h2⟩
      · simp only [Ev.read.injEq] at h2
        obtain ⟨rfl, rfl⟩ := h2
        exact ⟨hr g, by simp⟩
      · have h3 := h.readOne _ _ _ _ g h2
        refine ⟨h3.1, ?_⟩
        simp only [List.mem_append, List.mem_singleton, Ev.read.injEq, not_or, not_and]
        refine ⟨h3.2, fun hj => ?_⟩
        subst hj
        exact absurd (show Ev.read j f ∈ s.trace by rw [h2]; simp) (hr f)
    · intro j hj
      by_cases e : j = k
      · simp [e] at hj
      · simp only [if_neg e] at hj
        have := h.pcEarly j hj
        simpa [e] using this
    · intro j f hj
      by_cases e : j = k
      · simp [e] at hj
      · simp only [if_neg e] at hj
        have := h.pcMade j f hj
        simpa [e] using this
    · intro j hj
      by_cases e : j = k
      · simp [e] at hj
      · simp only [if_neg e] at hj
        have := h.pcReady j hj
        simpa [e] using this
  | done => simpa only [St.step, hp] using h

theorem inv_run (it : Nat → Option Nat) (sched : List Nat) : Inv it (run it sched) := by
  have gen : ∀ (sched : List Nat) (s : St), Inv it s → Inv it (sched.foldl (St.step it) s) := by
    intro sched
    induction sched with
    | nil => exact fun _ h => h
    | cons k sched ih => exact fun s h => ih _ (inv_step h k)
  exact gen sched _ (inv_init it)

/-- C148. Whatever the schedule: the generator is called once for each call (at most: calls may be unfinished), for no two calls does it return the same function,
and what a call stores is the function it was given. -/
theorem c148_generated (it : Nat → Option Nat) (sched : List Nat) :
    (∀ f, f < (run it sched).gens ↔ ∃ k, .made k f ∈ (run it sched).trace) ∧
    (∀ k j f, .made k f ∈ (run it sched).trace → .made j f ∈ (run it sched).trace → k = j) ∧
    (∀ k f g, .made k f ∈ (run it sched).trace → .made k g ∈ (run it sched).trace → f = g) ∧
    (∀ k f, .store k f ∈ (run it sched).trace → .made k f ∈ (run it sched).trace) := by
  have h := inv_run it sched
  exact ⟨fun f => ⟨h.all f, fun ⟨k, hk⟩ => h.small k f hk⟩, h.madeInj, h.madeOne, h.stores⟩

/-- C148. A call on an iterator that is not nil always gets a function (it does not panic): the one of the call that stored last, and it has itself stored before. -/
theorem c148_last (it : Nat → Option Nat) (sched : List Nat) (pre post : List Ev) (k : Nat) (g : Option Nat)
    (h : (run it sched).trace = pre ++ .read k g :: post) (hk : it k ≠ none) :
    g = lastStore pre ∧ g ≠ none ∧ ∃ f, .store k f ∈ pre := by
  have hi := inv_run it sched
  obtain ⟨f, hf⟩ := hi.order _ _ _ _ h hk
  have hg := hi.reads _ _ _ _ h
  refine ⟨hg, ?_, f, hf⟩
  obtain ⟨a, b, rfl⟩ := List.append_of_mem hf
  rw [hg, lastStore_append, lastStore]
  cases lastStore b <;> simp

/-- C148. A call gets its own function, the one the generator returned to it, exactly if no other call has stored one in between. -/
theorem c148_own_iff (it : Nat → Option Nat) (sched : List Nat) (a b post : List Ev) (k f : Nat) (g : Option Nat)
    (h : (run it sched).trace = a ++ .store k f :: b ++ .read k g :: post) :
    g = some f ↔ ∀ e ∈ b, ¬ IsStore e := by
  have hi := inv_run it sched
  have hg := hi.reads _ _ _ _ h
  have hone := hi.storeOne a (b ++ .read k g :: post) k f
  rw [hg, lastStore_append]
  constructor
  · intro he
    cases hb : lastStore b with
    | none =>
      intro e heb hes
      cases e with
      | store j x =>
        obtain ⟨u, v, rfl⟩ := List.append_of_mem heb
        rw [lastStore_append, lastStore] at hb
        cases hv : lastStore v <;> simp [hv] at hb
      | made _ _ => exact hes
      | read _ _ => exact hes
    | some x =>
      exfalso
      simp only [lastStore, hb, Option.some_or, Option.some.injEq] at he
      subst he
      obtain ⟨j, hj⟩ := lastStore_mem hb
      have h1 : Ev.store j x ∈ (run it sched).trace := by rw [h]; simp [hj]
      have h2 : Ev.store k x ∈ (run it sched).trace := by rw [h]; simp
      have := hi.madeInj _ _ _ (hi.stores _ _ h1) (hi.stores _ _ h2)
      subst this
      exact (hone x (by rw [h]; simp)).2 (by simp [hj])
  · intro hb
    simp [lastStore, lastStore_none hb]

/-- C148. Two calls share a function, so that the state of one transform serves two data sets, exactly if no call has stored one between their reads. -/
theorem c148_shared_iff (it : Nat → Option Nat) (sched : List Nat) (a b post : List Ev) (j k : Nat) (f g : Option Nat)
    (h : (run it sched).trace = a ++ .read j f :: b ++ .read k g :: post) :
    f = g ↔ ∀ e ∈ b, ¬ IsStore e := by
  have hi := inv_run it sched
  have hf := hi.reads a j f (b ++ .read k g :: post) (by rw [h]; simp)
  have hg := hi.reads _ _ _ _ h
  rw [lastStore_append] at hg
  simp only [lastStore] at hg
  constructor
  · intro he e heb hes
    cases e with
    | store i x =>
      obtain ⟨u, v, rfl⟩ := List.append_of_mem heb
      have hb : ∃ y, lastStore (u ++ Ev.store i x :: v) = some y := by
        rw [lastStore_append, lastStore]
        cases lastStore v <;> simp
      obtain ⟨y, hy⟩ := hb
      rw [hy, Option.some_or] at hg
      obtain ⟨n, hn⟩ := lastStore_mem hy
      have ha : lastStore a = some y := by rw [← hf, he, hg]
      obtain ⟨m, hm⟩ := lastStore_mem ha
      have h1 : Ev.store m y ∈ (run it sched).trace := by rw [h]; simp [hm]
      have h2 : Ev.store n y ∈ (run it sched).trace := by
        rw [h]; simp only [List.mem_append, List.mem_cons] at hn ⊢; tauto
      have := hi.madeInj _ _ _ (hi.stores _ _ h1) (hi.stores _ _ h2)
      subst this
      obtain ⟨c, d, rfl⟩ := List.append_of_mem hm
      refine (hi.storeOne c (d ++ .read j f :: (u ++ Ev.store i x :: v) ++ .read k g :: post) m y y (by rw [h]; simp)).2 ?_
      simp only [List.mem_append, List.mem_cons] at hn ⊢; tauto
    | made _ _ => exact hes
    | read _ _ => exact hes
  · intro hb
    rw [hf, hg, lastStore_none hb, Option.none_or]

/-- C148 is violated: two goroutines call the transform at the same time; the generator has returned functions 0 and 1, and both calls get function 1. So
Parallel(Generator(g)) may apply the same stateful transform to two partitions, from two goroutines. -/
theorem c148_refuted : (run some [0, 0, 1, 1, 0, 1, 0, 1]).trace =
    [.made 0 0, .made 1 1, .store 0 0, .store 1 1, .read 0 (some 1), .read 1 (some 1)] := by decide

/-- C148 (partial): if every call that stores a function also reads it before another call stores one (as when the calls are made by one goroutine, or under a
lock), no two calls get the same function. Missing: other schedules (`c148_refuted`). -/
theorem c148_partial (it : Nat → Option Nat) (sched : List Nat) (hit : ∀ k, it k ≠ none)
    (hlock : ∀ a b post k f g, (run it sched).trace = a ++ .store k f :: b ++ .read k g :: post → ∀ e ∈ b, ¬ IsStore e)
    (j k : Nat) (f g : Option Nat) (hjk : j ≠ k) (hj : .read j f ∈ (run it sched).trace) (hk : .read k g ∈ (run it sched).trace) : f ≠ g := by
  have hi := inv_run it sched
  have own : ∀ n x, Ev.read n x ∈ (run it sched).trace → ∃ y, x = some y ∧ Ev.store n y ∈ (run it sched).trace := by
    intro n x hn
    obtain ⟨pre, post, hp⟩ := List.append_of_mem hn
    obtain ⟨y, hy⟩ := hi.order _ _ _ _ hp (hit n)
    obtain ⟨a, b, rfl⟩ := List.append_of_mem hy
    exact ⟨y, (c148_own_iff it sched a b post n y x hp).mpr (hlock _ _ _ _ _ _ hp), by rw [hp]; simp⟩
  obtain ⟨x, rfl, hx⟩ := own j f hj
  obtain ⟨y, rfl, hy⟩ := own k g hk
  rintro ⟨⟩
  exact hjk (hi.madeInj _ _ _ (hi.stores _ _ hx) (hi.stores _ _ hy))

/-- Non-vacuity: two calls that overlap, but not between store and read, with the order of the reads different from that of the calls of the generator. -/
example : (run some [0, 0, 1, 1, 1, 1, 0, 0]).trace =
    [.made 0 0, .made 1 1, .store 1 1, .read 1 (some 1), .store 0 0, .read 0 (some 0)] := by decide

end Micro.Stream.GenRace
