import Verif.Funcs.BaseProps
import Verif.Funcs.Props
/-
C115, for all schedules: how often the supplier is called, and which value a call gets. A schedule says which goroutine makes the next step: its first step is the test
of the flag (with the call of the supplier, if the flag is not set), the second sets the flag, the third stores the value.
-/
namespace Micro.Funcs

variable {α : Type}

theorem crun_append (val : Nat → α) (a b : List Nat) (s : CState α) : crun val (a ++ b) s = crun val b (crun val a s) := by
  induction a generalizing s with
  | nil => rfl
  | cons i a ih => rw [List.cons_append, crun, crun, ih]

/-- Once the flag is set the supplier is not called any more. -/
theorem cached_invoked (val : Nat → α) (sched : List Nat) : ∀ (s : CState α), s.isCached = true → (crun val sched s).invoked = s.invoked := by
  induction sched with
  | nil => exact fun _ _ => rfl
  | cons i sched ih =>
    intro s hs
    rw [crun]
    have : (cstep val i s).isCached = true ∧ (cstep val i s).invoked = s.invoked := by
      unfold cstep
      cases s.threads i <;> simp [hs]
    rw [ih _ this.1, this.2]

/-- First steps of different goroutines. -/
theorem first_steps (val : Nat → α) (a : List Nat) : ∀ (s : CState α), a.Nodup → s.isCached = false → (∀ i ∈ a, s.threads i = .start) →
    (crun val a s).invoked = s.invoked + a.length ∧ (crun val a s).isCached = false ∧ (∀ i ∈ a, ∃ v, (crun val a s).threads i = .got v) ∧
    ∀ i, i ∉ a → (crun val a s).threads i = s.threads i := by
  induction a with
  | nil => intro s _ hs _; exact ⟨rfl, hs, by simp, fun _ _ => rfl⟩
  | cons i a ih =>
    intro s hn hs ht
    obtain ⟨hi, hn⟩ := List.nodup_cons.mp hn
    have e : cstep val i s = { s with invoked := s.invoked + 1, threads := Function.update s.threads i (.got (val s.invoked)) } := by
      simp [cstep, ht i (by simp), hs]
    obtain ⟨h1, h2, h3, h4⟩ := ih (cstep val i s) hn (by rw [e]; exact hs) (by
      intro j hj
      rw [e]
      simp only [Function.update_of_ne (show j ≠ i from fun h => hi (h ▸ hj))]
      exact ht j (by simp [hj]))
    rw [crun]
    refine ⟨by rw [h1, e]; simp; omega, h2, ?_, ?_⟩
    · intro j hj
      rcases List.mem_cons.mp hj with rfl | hj
      · exact ⟨val s.invoked, by rw [h4 _ hi, e]; simp⟩
      · exact h3 j hj
    · intro j hj
      simp only [List.mem_cons, not_or] at hj
      rw [h4 j hj.2, e]
      simp [Function.update_of_ne hj.1]

/-- C115. How often the supplier is called, for every schedule: by as many goroutines as begin their calls before one of them makes a second step. (a is the longest
beginning of the schedule without a repetition.) -/
theorem c115_calls (val : Nat → α) (zv : α) (a b : List Nat) (ha : a.Nodup) (hb : ∀ i, b.head? = some i → i ∈ a) :
    (crun val (a ++ b) (cinit zv)).invoked = a.length := by
  obtain ⟨h1, h2, h3, -⟩ := first_steps val a (cinit zv) ha rfl (fun _ _ => rfl)
  rw [crun_append]
  cases b with
  | nil => rw [crun, h1]; simp [cinit]
  | cons i b =>
    obtain ⟨v, hv⟩ := h3 i (hb i rfl)
    have e : cstep val i (crun val a (cinit zv)) =
        { crun val a (cinit zv) with isCached := true, threads := Function.update (crun val a (cinit zv)).threads i (.flagged v) } := by
      simp [cstep, hv]
    rw [crun, cached_invoked _ _ _ (by rw [e]), e]
    simp only [h1]
    simp [cinit]

/-- Every schedule is of the form that `c115_calls` speaks of. -/
theorem c115_calls_all (sched : List Nat) : ∃ a b, sched = a ++ b ∧ a.Nodup ∧ ∀ i, b.head? = some i → i ∈ a := by
  have gen : ∀ (b a : List Nat), a.Nodup → ∃ a' b', a ++ b = a' ++ b' ∧ a'.Nodup ∧ ∀ i, b'.head? = some i → i ∈ a' := by
    intro b
    induction b with
    | nil => intro a ha; exact ⟨a, [], rfl, ha, by simp⟩
    | cons i b ih =>
      intro a ha
      by_cases hi : i ∈ a
      · exact ⟨a, i :: b, rfl, ha, by simp [hi]⟩
      · obtain ⟨a', b', h1, h2⟩ := ih (a ++ [i]) (by simpa [List.nodup_append] using ⟨ha, fun x hx h => hi (h ▸ hx)⟩)
        exact ⟨a', b', by simpa using h1, h2⟩
  exact gen sched [] List.nodup_nil

/-- C115. The supplier is called exactly once iff the goroutine that begins makes its second step before another one begins. -/
theorem c115_once_iff (val : Nat → α) (zv : α) (sched : List Nat) :
    (crun val sched (cinit zv)).invoked = 1 ↔ ∃ i rest, sched = [i] ∨ sched = i :: i :: rest := by
  constructor
  · intro h
    obtain ⟨a, b, rfl, ha, hb⟩ := c115_calls_all sched
    rw [c115_calls val zv a b ha hb] at h
    obtain ⟨i, rfl⟩ := List.length_eq_one_iff.mp h
    cases b with
    | nil => exact ⟨i, [], .inl rfl⟩
    | cons j b =>
      have := hb j rfl
      simp only [List.mem_singleton] at this
      subst this
      exact ⟨j, b, .inr rfl⟩
  · rintro ⟨i, rest, rfl | rfl⟩
    · exact c115_calls val zv [i] [] (by simp) (by simp)
    · exact c115_calls val zv [i] (i :: rest) (by simp) (by simp)

/-- Goroutine i has set the flag; c is the number of its steps so far. -/
structure OneCall (val : Nat → α) (zv : α) (i c : Nat) (s : CState α) : Prop where
  cached : s.isCached = true
  value : s.cachedVal = if 3 ≤ c then val 0 else zv
  others : ∀ j, j ≠ i → (∀ v, s.threads j ≠ .got v) ∧ ∀ v, s.threads j ≠ .flagged v
  self : (c = 2 ∧ s.threads i = .flagged (val 0)) ∨ (3 ≤ c ∧ (s.threads i = .ready ∨ ∃ v, s.threads i = .returned v))

theorem oneCall_step {val : Nat → α} {zv : α} {i c : Nat} {s : CState α} (h : OneCall val zv i c s) (k : Nat) :
    OneCall val zv i (if k = i then c + 1 else c) (cstep val k s) := by
  by_cases hk : k = i
  · subst hk
    rw [if_pos rfl]
    rcases h.self with ⟨hc, ht⟩ | ⟨hc, ht | ⟨v, ht⟩⟩
    · have e : cstep val k s = { s with cachedVal := val 0, threads := Function.update s.threads k .ready } := by simp [cstep, ht]
      rw [e]
      refine ⟨h.cached, by simp [hc], fun j hj => by simpa [Function.update_of_ne hj] using h.others j hj, .inr ⟨by omega, .inl (by simp)⟩⟩
    · have e : cstep val k s = { s with threads := Function.update s.threads k (.returned s.cachedVal) } := by simp [cstep, ht]
      rw [e]
      refine ⟨h.cached, by rw [if_pos (by omega)]; simpa [hc] using h.value, fun j hj => by simpa [Function.update_of_ne hj] using h.others j hj,
        .inr ⟨by omega, .inr ⟨s.cachedVal, by simp⟩⟩⟩
    · have e : cstep val k s = s := by simp [cstep, ht]
      rw [e]
      exact ⟨h.cached, by rw [if_pos (by omega)]; simpa [hc] using h.value, h.others, .inr ⟨by omega, .inr ⟨v, ht⟩⟩⟩
  · rw [if_neg hk]
    have hik : i ≠ k := fun e => hk e.symm
    have upd : ∀ t : CThread α, (∀ v, t ≠ .got v) → (∀ v, t ≠ .flagged v) → OneCall val zv i c { s with threads := Function.update s.threads k t } := by
      intro t h1 h2
      refine ⟨h.cached, h.value, ?_, by simpa [Function.update_of_ne hik] using h.self⟩
      intro j hj
      by_cases e : j = k
      · subst e; simpa using ⟨h1, h2⟩
      · simpa [Function.update_of_ne e] using h.others j hj
    cases ht : s.threads k with
    | start => simp only [cstep, ht, h.cached, Bool.not_true, Bool.false_eq_true, if_false]; have := upd .ready (by simp) (by simp); rwa [h.cached] at this
    | got v => exact absurd ht ((h.others k hk).1 v)
    | flagged v => exact absurd ht ((h.others k hk).2 v)
    | ready => simp only [cstep, ht]; exact upd (.returned s.cachedVal) (by simp) (by simp)
    | returned v => simpa only [cstep, ht] using h

theorem oneCall_run {val : Nat → α} {zv : α} (sched : List Nat) : ∀ {i c : Nat} {s : CState α}, OneCall val zv i c s →
    OneCall val zv i (c + sched.count i) (crun val sched s) := by
  induction sched with
  | nil => intro i c s h; exact h
  | cons k sched ih =>
    intro i c s h
    have := ih (oneCall_step h k)
    rw [crun]
    by_cases e : k = i
    · subst e
      rw [if_pos rfl] at this
      rw [List.count_cons_self]
      rwa [show c + (sched.count k + 1) = c + 1 + sched.count k by omega]
    · rw [if_neg e] at this
      rwa [List.count_cons_of_ne e]

/-- C115. Also if the supplier is called only once, by goroutine i: a call gets its value if i has made its third step, and the zero value otherwise. -/
theorem c115_zero (val : Nat → α) (zv : α) (i : Nat) (before after : List Nat) (j : Nat)
    (hj : (crun val (i :: i :: before) (cinit zv)).threads j = .ready) :
    (crun val (i :: i :: (before ++ j :: after)) (cinit zv)).threads j = .returned (if 1 ≤ before.count i then val 0 else zv) := by
  have h2 : OneCall val zv i 2 (crun val [i, i] (cinit zv)) := by
    refine ⟨by simp [crun, cstep, cinit], by simp [crun, cstep, cinit], ?_, .inl ⟨rfl, by simp [crun, cstep, cinit]⟩⟩
    intro k hk
    simp [crun, cstep, cinit, Function.update_of_ne hk]
  have h := oneCall_run before h2
  have e1 : crun val (i :: i :: before) (cinit zv) = crun val before (crun val [i, i] (cinit zv)) := rfl
  rw [e1] at hj
  have e2 : crun val (i :: i :: (before ++ j :: after)) (cinit zv) = crun val after (cstep val j (crun val before (crun val [i, i] (cinit zv)))) := by
    show crun val (before ++ j :: after) (crun val [i, i] (cinit zv)) = _
    rw [crun_append, crun]
  have keep : ∀ (sched : List Nat) (s : CState α) v, s.threads j = .returned v → (crun val sched s).threads j = .returned v := by
    intro sched
    induction sched with
    | nil => exact fun _ _ h => h
    | cons k sched ih =>
      intro s v hs
      rw [crun]
      apply ih
      by_cases e : k = j
      · subst e; simpa [cstep, hs] using hs
      · unfold cstep
        have hjk : j ≠ k := fun h => e h.symm
        cases s.threads k with
        | start => by_cases hc : s.isCached = true <;> simp [hc, Function.update_of_ne hjk, hs]
        | got w => simp [Function.update_of_ne hjk, hs]
        | flagged w => simp [Function.update_of_ne hjk, hs]
        | ready => simp [Function.update_of_ne hjk, hs]
        | returned w => exact hs
  rw [e2]
  apply keep
  simp only [cstep, hj, Function.update_self, h.value]
  by_cases hc : 1 ≤ before.count i
  · rw [if_pos hc, if_pos (by omega)]
  · rw [if_neg hc, if_neg (by omega)]

/-- Non-vacuity: three goroutines begin, then the second one goes on: three calls of the supplier; and a goroutine that reads before the value is stored. -/
example : (crun (fun k => 10 + k) ([0, 1, 2] ++ [1, 0, 0, 3]) (cinit 0)).invoked = 3 ∧
    (crun (fun k => 10 + k) (0 :: 0 :: [1]) (cinit 0)).threads 1 = .ready ∧
    (crun (fun k => 10 + k) (0 :: 0 :: ([1] ++ 1 :: [0, 0])) (cinit 0)).threads 1 = .returned 0 := by
  refine ⟨rfl, rfl, rfl⟩

/-- funcs/funcs.go:1259-1263 `SupplierOf`: a supplier that returns the value, and has no effect. -/
def supplierOf {σ α : Type} (value : α) : σ → Option α × σ := fun s => (some value, s)

/-- C49: SupplierOf(v) cached returns v at every call, whatever the zero value is; it is invoked once, and changes nothing. -/
theorem c49_supplierOf {σ α : Type} (value zv : α) (s : σ) (n : Nat) :
    (Cached.calls (supplierOf value) n ⟨false, zv, s, 0⟩).1 = List.replicate n (some value) ∧
    (Cached.calls (supplierOf value) n ⟨false, zv, s, 0⟩).2.invoked = min n 1 ∧
    (Cached.calls (supplierOf value) n ⟨false, zv, s, 0⟩).2.s = s := by
  obtain ⟨h1, h2⟩ := c49_once_partial (supplierOf value) zv s s value rfl n
  refine ⟨h1, h2, ?_⟩
  have : ∀ (n : Nat) (c : Cached σ α), (Cached.calls (supplierOf value) n c).2.s = c.s := by
    intro n
    induction n with
    | zero => intro c; rfl
    | succ n ih =>
      intro c
      simp only [Cached.calls]
      rw [ih]
      unfold Cached.call supplierOf
      by_cases hc : c.isCached <;> simp [hc]
  exact this n _

example : (Cached.calls (supplierOf 7) 3 ⟨false, 0, (), 0⟩).1 = [some 7, some 7, some 7] := rfl

end Micro.Funcs
