import Verif.Stream.RaceModel
import Verif.Stream.ParProps
set_option linter.unusedSimpArgs false
/-
C147: Parallel is free of data races.
-/
namespace Micro.Stream.Race
open Micro Micro.Iter Micro.Stream

variable {τ α β μ : Type}

/-! ### Specification: the Go memory model -/

/-- i happens before j, as the Go memory model has it: program order, the start of a goroutine, wg.Done before the return of wg.Wait. -/
inductive HB (tr : List Ev) : Nat → Nat → Prop where
  | program {i j a b} : i < j → tr[i]? = some a → tr[j]? = some b → a.g = b.g → HB tr i j
  | go {i j k b} : i < j → tr[i]? = some ⟨none, .go k⟩ → tr[j]? = some b → b.g = some k → HB tr i j
  | wait {i j k} : i < j → tr[i]? = some ⟨some k, .done⟩ → tr[j]? = some ⟨none, .wait⟩ → HB tr i j
  | trans {i j k} : HB tr i j → HB tr j k → HB tr i k

/-- Both access the same location, and at least one of them writes it. -/
def Conflict (a b : What) : Prop := ∃ l, (a = .write l ∧ (b = .write l ∨ b = .read l)) ∨ (a = .read l ∧ b = .write l)

/-- Two conflicting accesses of which none happens before the other. -/
def DataRace (tr : List Ev) : Prop := ∃ (i j : Nat) (a b : Ev), i < j ∧ tr[i]? = some a ∧ tr[j]? = some b ∧ Conflict a.what b.what ∧ ¬ HB tr i j ∧ ¬ HB tr j i

/-! ### Invariant -/

/-- The locations thread k may access. -/
def own (ranges : List (Nat × Nat)) (k : Nat) : Loc → Prop
  | .inp i => ∃ r, ranges[k]? = some r ∧ r.1 ≤ i ∧ i < r.2
  | .out i => ∃ r, ranges[k]? = some r ∧ r.1 ≤ i ∧ i < r.2
  | .err j => j = k

def accesses : What → Option Loc
  | .read l => some l
  | .write l => some l
  | _ => none

structure Inv (ranges : List (Nat × Nat)) (p : RP μ τ) : Prop where
  len : p.threads.length = ranges.length
  /-- a thread does nothing before it is started -/
  started : ∀ (j k : Nat) (e : Ev), p.trace[j]? = some e → e.g = some k → ∃ i : Nat, i < j ∧ p.trace[i]? = some ⟨none, .go k⟩
  exist : ∀ (j k : Nat) (e : Ev), p.trace[j]? = some e → e.g = some k → k < p.threads.length
  isStarted : ∀ k, k < p.started → ∃ i : Nat, p.trace[i]? = some ⟨none, .go k⟩
  /-- a thread accesses only what it owns -/
  owns : ∀ (j k : Nat) (e : Ev) l, p.trace[j]? = some e → e.g = some k → accesses e.what = some l → own ranges k l
  /-- the caller accesses memory before it starts threads, and after wg.Wait -/
  caller : ∀ (i : Nat) (e : Ev) l, p.trace[i]? = some e → e.g = none → accesses e.what = some l →
    (∀ (j k : Nat), p.trace[j]? = some ⟨none, .go k⟩ → i < j) ∨ ∃ w : Nat, w < i ∧ p.trace[w]? = some ⟨none, .wait⟩
  /-- wg.Done is the last a thread does -/
  last : ∀ (d j k : Nat) (e : Ev), p.trace[d]? = some ⟨some k, .done⟩ → p.trace[j]? = some e → e.g = some k → j ≤ d
  flags : ∀ (d k : Nat), p.trace[d]? = some ⟨some k, .done⟩ → ∃ ts, p.threads[k]? = some (ts, true)
  isDone : ∀ k ts, p.threads[k]? = some (ts, true) → ∃ d : Nat, p.trace[d]? = some ⟨some k, .done⟩
  /-- wg.Wait returns after all wg.Done -/
  waits : ∀ (w j k : Nat) (e : Ev), p.trace[w]? = some ⟨none, .wait⟩ → p.trace[j]? = some e → e.g = some k → ∃ d : Nat, d < w ∧ p.trace[d]? = some ⟨some k, .done⟩
  isWaited : p.waited = true → ∃ w : Nat, p.trace[w]? = some ⟨none, .wait⟩
  allStarted : (∃ w : Nat, p.trace[w]? = some ⟨none, .wait⟩) → p.started = p.threads.length ∧ ∀ x ∈ p.threads, x.2 = true

theorem get_snoc (tr : List Ev) (e x : Ev) (i : Nat) : (tr ++ [e])[i]? = some x ↔ tr[i]? = some x ∨ (i = tr.length ∧ x = e) := by
  by_cases h : i < tr.length
  · rw [List.getElem?_append_left h]
    constructor
    · exact Or.inl
    · rintro (h' | ⟨rfl, -⟩)
      · exact h'
      · omega
  · rw [List.getElem?_append_right (by omega)]
    have h0 : tr[i]? = none := by simp; omega
    rw [h0]
    by_cases h' : i = tr.length
    · subst h'; simp [eq_comm]
    · have : ([e] : List Ev)[i - tr.length]? = none := by simp; omega
      rw [this]; simp [h']

theorem lt_of_get {tr : List Ev} {i : Nat} {x : Ev} (h : tr[i]? = some x) : i < tr.length := by
  rw [List.getElem?_eq_some_iff] at h
  exact h.1

theorem inv_start (t0 : τ) (mem : μ) (ranges : List (Nat × Nat)) (setup : List (Bool × Loc)) : Inv ranges (RP.start t0 mem ranges setup) := by
  have hev : ∀ (i : Nat) (e : Ev), (RP.start t0 mem ranges setup).trace[i]? = some e → e.g = none ∧ ∃ l, e.what = .write l ∨ e.what = .read l := by
    intro i e h
    simp only [RP.start, List.getElem?_map, Option.map_eq_some_iff] at h
    obtain ⟨x, -, rfl⟩ := h
    refine ⟨rfl, x.2, ?_⟩
    cases x.1 <;> simp
  have hthread : ∀ (i k : Nat) (e : Ev), (RP.start t0 mem ranges setup).trace[i]? = some e → e.g = some k → False := by
    intro i k e h hk; rw [(hev i e h).1] at hk; simp at hk
  have hgo : ∀ (i k : Nat), (RP.start t0 mem ranges setup).trace[i]? = some ⟨none, .go k⟩ → False := by
    intro i k h; obtain ⟨-, l, h1 | h1⟩ := hev i _ h <;> simp at h1
  have hw : ∀ (i : Nat), (RP.start t0 mem ranges setup).trace[i]? = some ⟨none, .wait⟩ → False := by
    intro i h; obtain ⟨-, l, h1 | h1⟩ := hev i _ h <;> simp at h1
  refine ⟨by simp [RP.start], fun j k e h hk => (hthread j k e h hk).elim, fun j k e h hk => (hthread j k e h hk).elim, fun k h => by simp [RP.start] at h, fun j k e l h hk => (hthread j k e h hk).elim,
    fun i e l _ _ _ => Or.inl fun j k h => (hgo j k h).elim, fun d j k e h => (hthread d k _ h rfl).elim, fun d k h => (hthread d k _ h rfl).elim, ?_,
    fun w j k e h => (hw w h).elim, fun h => by simp [RP.start] at h, fun ⟨w, h⟩ => (hw w h).elim⟩
  intro k ts h
  simp [RP.start] at h

/-- Nothing but memory, and the state of a thread that has not called Done, has changed. -/
theorem inv_silent {ranges : List (Nat × Nat)} {p : RP μ τ} (h : Inv ranges p) (m : μ) (k : Nat) (ts ts' : TS τ) (hk : p.threads[k]? = some (ts, false)) :
    Inv ranges { p with mem := m, threads := p.threads.set k (ts', false) } := by
  have hlt : k < p.threads.length := by rw [List.getElem?_eq_some_iff] at hk; exact hk.1
  refine ⟨by simpa using h.len, h.started, fun j k' e he hg => by simpa using h.exist j k' e he hg, h.isStarted, h.owns, h.caller, h.last, ?_, ?_, h.waits, h.isWaited, ?_⟩
  · intro d j hd
    obtain ⟨t, ht⟩ := h.flags d j hd
    refine ⟨t, ?_⟩
    have : k ≠ j := by rintro rfl; rw [hk] at ht; simp at ht
    simp [List.getElem?_set, this, ht]
  · intro j t ht
    simp only [List.getElem?_set] at ht
    by_cases hj : k = j
    · subst hj; simp [hlt] at ht
    · rw [if_neg hj] at ht; exact h.isDone j t ht
  · intro hw
    have := (h.allStarted hw).2 (ts, false) (List.mem_of_getElem? hk)
    simp at this

/-- A thread accesses memory it owns. -/
theorem inv_access {ranges : List (Nat × Nat)} {p : RP μ τ} (h : Inv ranges p) (k : Nat) (w : What) (hk : ∃ ts, p.threads[k]? = some (ts, false)) (hs : k < p.started)
    (l : Loc) (hl : accesses w = some l) (ho : own ranges k l) : Inv ranges { p with trace := p.trace ++ [⟨some k, w⟩] } := by
  obtain ⟨ts, hk⟩ := hk
  have hnw : w ≠ .done ∧ w ≠ .wait ∧ ∀ j, w ≠ .go j := by cases w <;> simp [accesses] at hl ⊢
  have nodone : ∀ d : Nat, p.trace[d]? ≠ some ⟨some k, .done⟩ := by
    intro d hd
    obtain ⟨t, ht⟩ := h.flags d k hd
    rw [hk] at ht; simp at ht
  have nowait : ∀ d : Nat, p.trace[d]? ≠ some ⟨none, .wait⟩ := by
    intro d hd
    have := (h.allStarted ⟨d, hd⟩).2 (ts, false) (List.mem_of_getElem? hk)
    simp at this
  have up : ∀ {i : Nat} {x : Ev}, p.trace[i]? = some x → (p.trace ++ [⟨some k, w⟩])[i]? = some x := fun hx => (get_snoc _ _ _ _).mpr (Or.inl hx)
  refine ⟨h.len, ?_, ?_, ?_, ?_, ?_, ?_, ?_, ?_, ?_, ?_, ?_⟩
  · intro j k' e he hg
    rcases (get_snoc _ _ _ _).mp he with he | ⟨rfl, rfl⟩
    · obtain ⟨i, h1, h2⟩ := h.started j k' e he hg
      exact ⟨i, h1, up h2⟩
    · simp at hg; subst hg
      obtain ⟨i, h2⟩ := h.isStarted k hs
      exact ⟨i, lt_of_get h2, up h2⟩
  · intro j k' e he hg
    rcases (get_snoc _ _ _ _).mp he with he | ⟨rfl, rfl⟩
    · simpa using h.exist j k' e he hg
    · simp at hg; subst hg
      simpa using (show k < p.threads.length by rw [List.getElem?_eq_some_iff] at hk; exact hk.1)
  · intro k' hk'
    obtain ⟨i, h2⟩ := h.isStarted k' hk'
    exact ⟨i, up h2⟩
  · intro j k' e l' he hg ha
    rcases (get_snoc _ _ _ _).mp he with he | ⟨rfl, rfl⟩
    · exact h.owns j k' e l' he hg ha
    · simp at hg ha; subst hg; rw [hl] at ha; simp at ha; subst ha; exact ho
  · intro i e l' he hg ha
    rcases (get_snoc _ _ _ _).mp he with he | ⟨rfl, rfl⟩
    · rcases h.caller i e l' he hg ha with h1 | ⟨d, h1, h2⟩
      · left
        intro j k' hj
        rcases (get_snoc _ _ _ _).mp hj with hj | ⟨-, hj⟩
        · exact h1 j k' hj
        · simp at hj
      · exact absurd h2 (nowait d)
    · simp at hg
  · intro d j k' e hd he hg
    rcases (get_snoc _ _ _ _).mp hd with hd | ⟨-, hd⟩
    · rcases (get_snoc _ _ _ _).mp he with he | ⟨rfl, rfl⟩
      · exact h.last d j k' e hd he hg
      · simp at hg; subst hg; exact absurd hd (nodone d)
    · simp at hd; exact absurd hd.2.symm hnw.1
  · intro d k' hd
    rcases (get_snoc _ _ _ _).mp hd with hd | ⟨-, hd⟩
    · exact h.flags d k' hd
    · simp at hd; exact absurd hd.2.symm hnw.1
  · intro k' t ht
    obtain ⟨d, hd⟩ := h.isDone k' t ht
    exact ⟨d, up hd⟩
  · intro d j k' e hd
    rcases (get_snoc _ _ _ _).mp hd with hd | ⟨-, hd⟩
    · exact absurd hd (nowait d)
    · simp at hd
  · intro hw
    obtain ⟨d, hd⟩ := h.isWaited hw
    exact ⟨d, up hd⟩
  · rintro ⟨d, hd⟩
    rcases (get_snoc _ _ _ _).mp hd with hd | ⟨-, hd⟩
    · exact absurd hd (nowait d)
    · simp at hd

/-- A thread calls wg.Done. -/
theorem inv_done {ranges : List (Nat × Nat)} {p : RP μ τ} (h : Inv ranges p) (k : Nat) (ts : TS τ) (hk : p.threads[k]? = some (ts, false)) (hs : k < p.started) :
    Inv ranges { p with threads := p.threads.set k (ts, true), trace := p.trace ++ [⟨some k, .done⟩] } := by
  have hlt : k < p.threads.length := by rw [List.getElem?_eq_some_iff] at hk; exact hk.1
  have nodone : ∀ d : Nat, p.trace[d]? ≠ some ⟨some k, .done⟩ := by
    intro d hd
    obtain ⟨t, ht⟩ := h.flags d k hd
    rw [hk] at ht; simp at ht
  have nowait : ∀ d : Nat, p.trace[d]? ≠ some ⟨none, .wait⟩ := by
    intro d hd
    have := (h.allStarted ⟨d, hd⟩).2 (ts, false) (List.mem_of_getElem? hk)
    simp at this
  have up : ∀ {i : Nat} {x : Ev}, p.trace[i]? = some x → (p.trace ++ [⟨some k, .done⟩])[i]? = some x := fun hx => (get_snoc _ _ _ _).mpr (Or.inl hx)
  refine ⟨by simpa using h.len, ?_, ?_, ?_, ?_, ?_, ?_, ?_, ?_, ?_, ?_, ?_⟩
  · intro j k' e he hg
    rcases (get_snoc _ _ _ _).mp he with he | ⟨rfl, rfl⟩
    · obtain ⟨i, h1, h2⟩ := h.started j k' e he hg
      exact ⟨i, h1, up h2⟩
    · simp at hg; subst hg
      obtain ⟨i, h2⟩ := h.isStarted k hs
      exact ⟨i, lt_of_get h2, up h2⟩
  · intro j k' e he hg
    rcases (get_snoc _ _ _ _).mp he with he | ⟨rfl, rfl⟩
    · simpa using h.exist j k' e he hg
    · simp at hg; subst hg
      simpa using (show k < p.threads.length by rw [List.getElem?_eq_some_iff] at hk; exact hk.1)
  · intro k' hk'
    obtain ⟨i, h2⟩ := h.isStarted k' hk'
    exact ⟨i, up h2⟩
  · intro j k' e l' he hg ha
    rcases (get_snoc _ _ _ _).mp he with he | ⟨rfl, rfl⟩
    · exact h.owns j k' e l' he hg ha
    · simp [accesses] at ha
  · intro i e l' he hg ha
    rcases (get_snoc _ _ _ _).mp he with he | ⟨rfl, rfl⟩
    · rcases h.caller i e l' he hg ha with h1 | ⟨d, h1, h2⟩
      · left
        intro j k' hj
        rcases (get_snoc _ _ _ _).mp hj with hj | ⟨-, hj⟩
        · exact h1 j k' hj
        · simp at hj
      · exact absurd h2 (nowait d)
    · simp at hg
  · intro d j k' e hd he hg
    rcases (get_snoc _ _ _ _).mp hd with hd | ⟨rfl, hd⟩
    · rcases (get_snoc _ _ _ _).mp he with he | ⟨rfl, rfl⟩
      · exact h.last d j k' e hd he hg
      · simp at hg; subst hg; exact absurd hd (nodone d)
    · rcases (get_snoc _ _ _ _).mp he with he | ⟨rfl, rfl⟩
      · exact Nat.le_of_lt (lt_of_get he)
      · exact Nat.le_refl _
  · intro d k' hd
    by_cases hkk : k = k'
    · subst hkk; exact ⟨ts, by simp [hlt]⟩
    · rcases (get_snoc _ _ _ _).mp hd with hd | ⟨-, hd⟩
      · obtain ⟨t, ht⟩ := h.flags d k' hd
        exact ⟨t, by simp [List.getElem?_set, hkk, ht]⟩
      · simp at hd; exact absurd hd.symm hkk
  · intro k' t ht
    by_cases hkk : k = k'
    · subst hkk; exact ⟨p.trace.length, (get_snoc _ _ _ _).mpr (Or.inr ⟨rfl, rfl⟩)⟩
    · simp only [List.getElem?_set, if_neg hkk] at ht
      obtain ⟨d, hd⟩ := h.isDone k' t ht
      exact ⟨d, up hd⟩
  · intro d j k' e hd
    rcases (get_snoc _ _ _ _).mp hd with hd | ⟨-, hd⟩
    · exact absurd hd (nowait d)
    · simp at hd
  · intro hw
    obtain ⟨d, hd⟩ := h.isWaited hw
    exact ⟨d, up hd⟩
  · rintro ⟨d, hd⟩
    rcases (get_snoc _ _ _ _).mp hd with hd | ⟨-, hd⟩
    · exact absurd hd (nowait d)
    · simp at hd

/-- The caller starts a thread. -/
theorem inv_go {ranges : List (Nat × Nat)} {p : RP μ τ} (h : Inv ranges p) (hs : p.started < p.threads.length) :
    Inv ranges { p with started := p.started + 1, trace := p.trace ++ [⟨none, .go p.started⟩] } := by
  have up : ∀ {i : Nat} {x : Ev}, p.trace[i]? = some x → (p.trace ++ [⟨none, .go p.started⟩])[i]? = some x := fun hx => (get_snoc _ _ _ _).mpr (Or.inl hx)
  have nowait : ∀ d : Nat, p.trace[d]? ≠ some ⟨none, .wait⟩ := by
    intro d hd
    have := (h.allStarted ⟨d, hd⟩).1
    omega
  refine ⟨h.len, ?_, ?_, ?_, ?_, ?_, ?_, ?_, ?_, ?_, ?_, ?_⟩
  · intro j k' e he hg
    rcases (get_snoc _ _ _ _).mp he with he | ⟨rfl, rfl⟩
    · obtain ⟨i, h1, h2⟩ := h.started j k' e he hg
      exact ⟨i, h1, up h2⟩
    · simp at hg
  · intro j k' e he hg
    rcases (get_snoc _ _ _ _).mp he with he | ⟨rfl, rfl⟩
    · exact h.exist j k' e he hg
    · simp at hg
  · intro k' hk'
    by_cases hkk : k' = p.started
    · subst hkk; exact ⟨p.trace.length, (get_snoc _ _ _ _).mpr (Or.inr ⟨rfl, rfl⟩)⟩
    · simp only at hk'
      obtain ⟨i, h2⟩ := h.isStarted k' (by omega)
      exact ⟨i, up h2⟩
  · intro j k' e l' he hg ha
    rcases (get_snoc _ _ _ _).mp he with he | ⟨rfl, rfl⟩
    · exact h.owns j k' e l' he hg ha
    · simp at hg
  · intro i e l' he hg ha
    rcases (get_snoc _ _ _ _).mp he with he | ⟨rfl, rfl⟩
    · rcases h.caller i e l' he hg ha with h1 | ⟨d, h1, h2⟩
      · left
        intro j k' hj
        rcases (get_snoc _ _ _ _).mp hj with hj | ⟨rfl, -⟩
        · exact h1 j k' hj
        · exact lt_of_get he
      · exact absurd h2 (nowait d)
    · simp [accesses] at ha
  · intro d j k' e hd he hg
    rcases (get_snoc _ _ _ _).mp hd with hd | ⟨-, hd⟩
    · rcases (get_snoc _ _ _ _).mp he with he | ⟨rfl, rfl⟩
      · exact h.last d j k' e hd he hg
      · simp at hg
    · simp at hd
  · intro d k' hd
    rcases (get_snoc _ _ _ _).mp hd with hd | ⟨-, hd⟩
    · exact h.flags d k' hd
    · simp at hd
  · intro k' t ht
    obtain ⟨d, hd⟩ := h.isDone k' t ht
    exact ⟨d, up hd⟩
  · intro d j k' e hd
    rcases (get_snoc _ _ _ _).mp hd with hd | ⟨-, hd⟩
    · exact absurd hd (nowait d)
    · simp at hd
  · intro hw
    obtain ⟨d, hd⟩ := h.isWaited hw
    exact absurd hd (nowait d)
  · rintro ⟨d, hd⟩
    rcases (get_snoc _ _ _ _).mp hd with hd | ⟨-, hd⟩
    · exact absurd hd (nowait d)
    · simp at hd

/-- wg.Wait returns, or the caller accesses memory after it. -/
theorem inv_caller {ranges : List (Nat × Nat)} {p : RP μ τ} (h : Inv ranges p) (hs : p.started = p.threads.length) (hall : ∀ x ∈ p.threads, x.2 = true) (w : What)
    (hw : w = .wait ∨ (∃ l, accesses w = some l) ∧ p.waited = true) (b : Bool) (hb : b = true) :
    Inv ranges { p with waited := b, trace := p.trace ++ [⟨none, w⟩] } := by
  subst hb
  have up : ∀ {i : Nat} {x : Ev}, p.trace[i]? = some x → (p.trace ++ [⟨none, w⟩])[i]? = some x := fun hx => (get_snoc _ _ _ _).mpr (Or.inl hx)
  have hng : ∀ k, w ≠ .go k := by
    rintro k rfl
    rcases hw with hw | ⟨⟨l, hw⟩, -⟩
    · simp at hw
    · simp [accesses] at hw
  have alldone : ∀ (j k' : Nat) (e : Ev), p.trace[j]? = some e → e.g = some k' → ∃ d : Nat, p.trace[d]? = some ⟨some k', .done⟩ := by
    intro j k' e he hg
    have hk := h.exist j k' e he hg
    exact h.isDone k' (p.threads[k']).1 (by rw [List.getElem?_eq_getElem hk]; rw [← hall _ (List.getElem_mem hk)])
  refine ⟨h.len, ?_, ?_, ?_, ?_, ?_, ?_, ?_, ?_, ?_, ?_, ?_⟩
  · intro j k' e he hg
    rcases (get_snoc _ _ _ _).mp he with he | ⟨rfl, rfl⟩
    · obtain ⟨i, h1, h2⟩ := h.started j k' e he hg
      exact ⟨i, h1, up h2⟩
    · simp at hg
  · intro j k' e he hg
    rcases (get_snoc _ _ _ _).mp he with he | ⟨rfl, rfl⟩
    · exact h.exist j k' e he hg
    · simp at hg
  · intro k' hk'
    obtain ⟨i, h2⟩ := h.isStarted k' hk'
    exact ⟨i, up h2⟩
  · intro j k' e l' he hg ha
    rcases (get_snoc _ _ _ _).mp he with he | ⟨rfl, rfl⟩
    · exact h.owns j k' e l' he hg ha
    · simp at hg
  · intro i e l' he hg ha
    rcases (get_snoc _ _ _ _).mp he with he | ⟨rfl, rfl⟩
    · rcases h.caller i e l' he hg ha with h1 | ⟨d, h1, h2⟩
      · left
        intro j k' hj
        rcases (get_snoc _ _ _ _).mp hj with hj | ⟨-, hj⟩
        · exact h1 j k' hj
        · simp at hj; exact absurd hj.symm (hng k')
      · exact Or.inr ⟨d, h1, up h2⟩
    · rcases hw with rfl | ⟨-, hw⟩
      · simp [accesses] at ha
      · obtain ⟨d, hd⟩ := h.isWaited hw
        exact Or.inr ⟨d, lt_of_get hd, up hd⟩
  · intro d j k' e hd he hg
    rcases (get_snoc _ _ _ _).mp hd with hd | ⟨-, hd⟩
    · rcases (get_snoc _ _ _ _).mp he with he | ⟨rfl, rfl⟩
      · exact h.last d j k' e hd he hg
      · simp at hg
    · simp at hd
  · intro d k' hd
    rcases (get_snoc _ _ _ _).mp hd with hd | ⟨-, hd⟩
    · exact h.flags d k' hd
    · simp at hd
  · intro k' t ht
    obtain ⟨d, hd⟩ := h.isDone k' t ht
    exact ⟨d, up hd⟩
  · intro d j k' e hd he hg
    rcases (get_snoc _ _ _ _).mp he with he | ⟨rfl, rfl⟩
    · rcases (get_snoc _ _ _ _).mp hd with hd | ⟨rfl, hd⟩
      · obtain ⟨c, h1, h2⟩ := h.waits d j k' e hd he hg
        exact ⟨c, h1, up h2⟩
      · obtain ⟨c, hc⟩ := alldone j k' e he hg
        exact ⟨c, lt_of_get hc, up hc⟩
    · simp at hg
  · intro _
    rcases hw with rfl | ⟨-, hw⟩
    · exact ⟨p.trace.length, (get_snoc _ _ _ _).mpr (Or.inr ⟨rfl, rfl⟩)⟩
    · obtain ⟨d, hd⟩ := h.isWaited hw
      exact ⟨d, up hd⟩
  · intro _
    exact ⟨hs, hall⟩

theorem access_own (ip : Bool) (act : τ → Act τ α β) (ranges : List (Nat × Nat)) (k : Nat) (r : Nat × Nat) (hr : ranges[k]? = some r) (ts : TS τ) (w : What)
    (h : access ip act k r.1 r.2 ts = some w) : ∃ l, accesses w = some l ∧ own ranges k l := by
  have hin : ∀ i, r.1 + i < r.2 → own ranges k (inputLoc ip (r.1 + i)) := by
    intro i hi
    unfold inputLoc
    split <;> exact ⟨r, hr, by omega, hi⟩
  cases ts with
  | run t ri wi =>
    simp only [access] at h
    split at h
    · split at h <;> simp at h
      subst h
      exact ⟨_, rfl, hin _ (by assumption)⟩
    · split at h <;> simp at h
      subst h
      exact ⟨_, rfl, r, hr, by omega, by assumption⟩
    · split at h <;> simp at h
      subst h
      exact ⟨_, rfl, rfl⟩
  | zeroing e i =>
    simp only [access] at h
    split at h <;> simp at h
    · subst h
      exact ⟨_, rfl, r, hr, by omega, by assumption⟩
    · subst h
      exact ⟨_, rfl, rfl⟩
  | done e => simp [access] at h
  | panicked => simp [access] at h

theorem step_le (M : Mem μ α β) (ip : Bool) (act : τ → Act τ α β) (zv : β) (ranges : List (Nat × Nat)) (p : RP μ τ) (c : Choice)
    (h : p.started ≤ p.threads.length) : (p.step M ip act zv ranges c).started ≤ (p.step M ip act zv ranges c).threads.length := by
  cases c with
  | caller write l =>
    unfold RP.step
    by_cases h1 : p.started < p.threads.length
    · simp only [h1, if_true]; omega
    · by_cases h2 : p.waited = false
      · by_cases h3 : p.threads.all (·.2) = true
        · simpa [h1, h2, h3] using h
        · simpa [h1, h2, h3] using h
      · simpa [h1, h2] using h
  | thread k =>
    unfold RP.step
    by_cases h1 : k < p.started
    · rcases h2 : ranges[k]? with _ | r
      · simpa [h1, h2] using h
      · rcases h3 : p.threads[k]? with _ | ⟨ts, _ | _⟩
        · simpa [h1, h2, h3] using h
        · by_cases h4 : ended ts = true
          · simpa [h1, h2, h3, h4] using h
          · simpa [h1, h2, h3, h4] using h
        · simpa [h1, h2, h3] using h
    · simpa [h1] using h

theorem inv_step (M : Mem μ α β) (ip : Bool) (act : τ → Act τ α β) (zv : β) (ranges : List (Nat × Nat)) (p : RP μ τ) (h : Inv ranges p) (c : Choice)
    (hle : p.started ≤ p.threads.length) : Inv ranges (p.step M ip act zv ranges c) := by
  cases c with
  | caller write l =>
    unfold RP.step
    simp only
    split
    · exact inv_go h (by assumption)
    · rename_i hn
      by_cases hwt : p.waited = false
      · rw [if_pos hwt]
        by_cases ha : p.threads.all (·.2) = true
        · rw [if_pos ha]
          exact inv_caller h (by omega) (by simpa using ha) .wait (Or.inl rfl) true rfl
        · rw [if_neg ha]; exact h
      · rw [if_neg hwt]
        have hw : p.waited = true := by simpa using hwt
        have := inv_caller h (by omega) (h.allStarted (h.isWaited hw)).2 (if write then .write l else .read l)
          (Or.inr ⟨⟨l, by cases write <;> rfl⟩, hw⟩) p.waited hw
        exact this
  | thread k =>
    unfold RP.step
    by_cases h1 : k < p.started
    · rcases h2 : ranges[k]? with _ | r
      · simpa [h1, h2] using h
      · rcases h3 : p.threads[k]? with _ | ⟨ts, _ | _⟩
        · simpa [h1, h2, h3] using h
        · by_cases h4 : ended ts = true
          · simp only [h1, h2, h3, h4, if_true]
            exact inv_done h k ts h3 h1
          · simp only [h1, h2, h3, h4, if_true]
            have hsil := inv_silent h (stepThread M act zv r.1 r.2 p.mem ts).1 k ts (stepThread M act zv r.1 r.2 p.mem ts).2 h3
            rcases h5 : access ip act k r.1 r.2 ts with _ | w
            · simpa [h5] using hsil
            · obtain ⟨l, h6, h7⟩ := access_own ip act ranges k r h2 ts w h5
              have hlt : k < p.threads.length := by rw [List.getElem?_eq_some_iff] at h3; exact h3.1
              have := inv_access hsil k w ⟨(stepThread M act zv r.1 r.2 p.mem ts).2, by simp [hlt]⟩ h1 l h6 h7
              simpa [h5] using this
        · simpa [h1, h2, h3] using h
    · simpa [h1] using h

theorem inv_exec (M : Mem μ α β) (ip : Bool) (act : τ → Act τ α β) (zv : β) (ranges : List (Nat × Nat)) (sched : List Choice) : ∀ p : RP μ τ, Inv ranges p →
    p.started ≤ p.threads.length → Inv ranges (p.exec M ip act zv ranges sched) := by
  induction sched with
  | nil => intro p h _; exact h
  | cons c sched ih => intro p h hle; exact ih _ (inv_step M ip act zv ranges p h c hle) (step_le M ip act zv ranges p c hle)

theorem conflict_loc {a b : What} (h : Conflict a b) : ∃ l, accesses a = some l ∧ accesses b = some l := by
  obtain ⟨l, ⟨rfl, rfl | rfl⟩ | ⟨rfl, rfl⟩⟩ := h <;> exact ⟨l, rfl, rfl⟩

theorem own_disjoint {a c : Nat} {ranges : List (Nat × Nat)} (hc : Chain a ranges c) {k j : Nat} {l : Loc} (hk : own ranges k l) (hj : own ranges j l) : k = j := by
  by_contra hne
  cases l with
  | inp i =>
    obtain ⟨r, h1, h2, h3⟩ := hk
    obtain ⟨q, g1, g2, g3⟩ := hj
    rcases hc.disjoint k j r q h1 g1 hne with h | h <;> omega
  | out i =>
    obtain ⟨r, h1, h2, h3⟩ := hk
    obtain ⟨q, g1, g2, g3⟩ := hj
    rcases hc.disjoint k j r q h1 g1 hne with h | h <;> omega
  | err i => exact hne (hk.symm.trans hj)

/-- An execution whose ranges do not overlap has no data race. -/
theorem inv_raceFree {a c : Nat} {ranges : List (Nat × Nat)} (hc : Chain a ranges c) {p : RP μ τ} (h : Inv ranges p) : ¬ DataRace p.trace := by
  rintro ⟨i, j, x, y, hij, hx, hy, hcf, hn, -⟩
  obtain ⟨l, hlx, hly⟩ := conflict_loc hcf
  apply hn
  rcases hgx : x.g with _ | k
  · rcases hgy : y.g with _ | k'
    · exact .program hij hx hy (by rw [hgx, hgy])
    · rcases h.caller i x l hx hgx hlx with h1 | ⟨w, h1, h2⟩
      · obtain ⟨g, h2, h3⟩ := h.started j k' y hy hgy
        exact .trans (.program (h1 g k' h3) hx h3 (by rw [hgx])) (.go h2 h3 hy hgy)
      · obtain ⟨d, h3, h4⟩ := h.waits w j k' y h2 hy hgy
        have := h.last d j k' y h4 hy hgy
        omega
  · rcases hgy : y.g with _ | k'
    · rcases h.caller j y l hy hgy hly with h1 | ⟨w, h1, h2⟩
      · obtain ⟨g, h2, h3⟩ := h.started i k x hx hgx
        have := h1 g k h3
        omega
      · obtain ⟨d, h3, h4⟩ := h.waits w i k x h2 hx hgx
        have hid := h.last d i k x h4 hx hgx
        have hne : i ≠ d := by
          rintro rfl
          rw [hx] at h4
          simp at h4
          rw [h4] at hlx
          simp [accesses] at hlx
        exact .trans (.program (by omega) hx h4 (by rw [hgx])) (.trans (.wait h3 h4 h2) (.program h1 h2 hy (by rw [hgy])))
    · have h1 := h.owns i k x l hx hgx hlx
      have h2 := h.owns j k' y l hy hgy hly
      have := own_disjoint hc h1 h2
      exact .program hij hx hy (by rw [hgx, hgy, this])

/-! ### C147 -/

/-- C147. Parallel is free of data races, whatever the transform does, however the goroutines are scheduled, and whether or not the slice is modified
in place: of two accesses to the same element of the shared slices, at least one of them a write, one happens before the other. -/
theorem c147_raceFree (M : Mem μ α β) (inplace : Bool) (act : τ → Act τ α β) (zv : β) (t0 : τ) (mem : μ) (n : Nat) (hn : 0 < n) (info : Option PInfo)
    (setup : List (Bool × Loc)) (sched : List Choice) :
    ¬ DataRace ((RP.start t0 mem (generateRanges n info) setup).exec M inplace act zv (generateRanges n info) sched).trace :=
  inv_raceFree (c41_partition n hn info) (inv_exec M inplace act zv _ sched _ (inv_start t0 mem _ setup) (by simp [RP.start]))

/-- C147. The events name all the accesses of a step: a step that is not said to write leaves memory as it is; one that is said to write a location leaves
all the others as they are; and what the thread does next depends only on the location it is said to read. -/
theorem c147_accesses {M : Mem μ α β} {inplace : Bool} (L : Lawful M inplace) (act : τ → Act τ α β) (zv : β) (k lo hi : Nat) (m : μ) (ts : TS τ) :
    ((∀ i, access inplace act k lo hi ts ≠ some (.write (.out i))) → (stepThread M act zv lo hi m ts).1 = m) ∧
    (∀ i, access inplace act k lo hi ts = some (.write (.out i)) →
      (∀ j, j ≠ i → (M.out (stepThread M act zv lo hi m ts).1)[j]? = (M.out m)[j]? ∧ M.rd (stepThread M act zv lo hi m ts).1 j = M.rd m j) ∧
      (inplace = false → ∀ j, M.rd (stepThread M act zv lo hi m ts).1 j = M.rd m j)) ∧
    (∀ m', (∀ i, access inplace act k lo hi ts = some (.read (inputLoc inplace i)) → M.rd m i = M.rd m' i) →
      (stepThread M act zv lo hi m ts).2 = (stepThread M act zv lo hi m' ts).2) := by
  have hwr : ∀ i b, (∀ j, j ≠ i → (M.out (M.wr m i b))[j]? = (M.out m)[j]? ∧ M.rd (M.wr m i b) j = M.rd m j) ∧
      (inplace = false → ∀ j, M.rd (M.wr m i b) j = M.rd m j) := by
    intro i b
    refine ⟨fun j hj => ⟨?_, L.rd_other m i b j hj⟩, fun h j => L.rd_sep h m i b j⟩
    rw [L.out_wr, List.getElem?_set, if_neg (Ne.symm hj)]
  cases ts with
  | run t ri wi =>
    rcases ha : act t with kk | ⟨b, t'⟩ | e
    · simp only [access, stepThread, ha]
      by_cases hlt : lo + ri < hi
      · simp only [hlt, if_true]
        refine ⟨fun _ => trivial, by simp, ?_⟩
        intro m' h
        rw [h (lo + ri) rfl]
      · simp only [hlt, if_false]
        exact ⟨fun _ => trivial, by simp, fun _ _ => trivial⟩
    · simp only [access, stepThread, ha]
      by_cases hlt : lo + wi < hi
      · simp only [hlt, if_true]
        refine ⟨fun h => absurd rfl (h (lo + wi)), ?_, fun _ _ => trivial⟩
        intro i hi'
        simp at hi'
        subst hi'
        exact hwr _ _
      · simp only [hlt, if_false]
        exact ⟨fun _ => trivial, by simp, fun _ _ => trivial⟩
    · simp only [access, stepThread, ha]
      by_cases he : e = .eoi
      · simp only [he, if_true]
        exact ⟨fun _ => trivial, by simp, fun _ _ => trivial⟩
      · simp only [he, if_false]
        exact ⟨fun _ => trivial, by simp, fun _ _ => trivial⟩
  | zeroing e i =>
    simp only [access, stepThread]
    by_cases hlt : lo + i < hi
    · simp only [hlt, if_true]
      refine ⟨fun h => absurd rfl (h (lo + i)), ?_, fun _ _ => trivial⟩
      intro i' hi'
      simp at hi'
      subst hi'
      exact hwr _ _
    · simp only [hlt, if_false]
      exact ⟨fun _ => trivial, by simp, fun _ _ => trivial⟩
  | done e => exact ⟨fun _ => rfl, by simp [access], fun _ _ => rfl⟩
  | panicked => exact ⟨fun _ => rfl, by simp [access], fun _ _ => rfl⟩

theorem step_par (M : Mem μ α β) (ip : Bool) (act : τ → Act τ α β) (zv : β) (ranges : List (Nat × Nat)) (p : RP μ τ) (c : Choice) :
    ∃ sched, (⟨(p.step M ip act zv ranges c).mem, (p.step M ip act zv ranges c).threads.map (·.1)⟩ : Par μ τ) =
      Par.exec M act zv ranges ⟨p.mem, p.threads.map (·.1)⟩ sched := by
  cases c with
  | caller write l =>
    refine ⟨[], ?_⟩
    unfold RP.step
    by_cases h1 : p.started < p.threads.length
    · simp [h1, Par.exec]
    · by_cases h2 : p.waited = false
      · by_cases h3 : p.threads.all (·.2) = true
        · simp [h1, h2, h3, Par.exec]
        · simp [h1, h2, h3, Par.exec]
      · simp [h1, h2, Par.exec]
  | thread k =>
    unfold RP.step
    by_cases h1 : k < p.started
    · rcases h2 : ranges[k]? with _ | r
      · exact ⟨[], by simp [h1, h2, Par.exec]⟩
      · rcases h3 : p.threads[k]? with _ | ⟨ts, _ | _⟩
        · exact ⟨[], by simp [h1, h2, h3, Par.exec]⟩
        · by_cases h4 : ended ts = true
          · refine ⟨[], ?_⟩
            have : (p.threads.map (·.1)).set k ts = p.threads.map (·.1) := by
              apply List.ext_getElem?
              intro i
              rw [List.getElem?_set]
              by_cases hi : k = i
              · subst hi
                have hlt : k < p.threads.length := by rw [List.getElem?_eq_some_iff] at h3; exact h3.1
                have h3' : p.threads[k] = (ts, false) := by rw [List.getElem?_eq_getElem hlt] at h3; simpa using h3
                simp [h3', hlt]
              · simp [hi]
            simp [h1, h2, h3, h4, Par.exec, List.map_set, this]
          · refine ⟨[k], ?_⟩
            simp [h1, h2, h3, h4, Par.exec, Par.step, List.map_set]
        · exact ⟨[], by simp [h1, h2, h3, Par.exec]⟩
    · exact ⟨[], by simp [h1, Par.exec]⟩

theorem par_append (M : Mem μ α β) (act : τ → Act τ α β) (zv : β) (ranges : List (Nat × Nat)) (q : Par μ τ) (a b : List Nat) :
    Par.exec M act zv ranges q (a ++ b) = Par.exec M act zv ranges (Par.exec M act zv ranges q a) b := by simp [Par.exec]

theorem exec_par (M : Mem μ α β) (ip : Bool) (act : τ → Act τ α β) (zv : β) (ranges : List (Nat × Nat)) (sched : List Choice) : ∀ p : RP μ τ,
    ∃ s, (⟨(p.exec M ip act zv ranges sched).mem, (p.exec M ip act zv ranges sched).threads.map (·.1)⟩ : Par μ τ) =
      Par.exec M act zv ranges ⟨p.mem, p.threads.map (·.1)⟩ s := by
  induction sched with
  | nil => intro p; exact ⟨[], rfl⟩
  | cons c sched ih =>
    intro p
    obtain ⟨a, ha⟩ := step_par M ip act zv ranges p c
    obtain ⟨b, hb⟩ := ih (p.step M ip act zv ranges c)
    exact ⟨a ++ b, by rw [par_append, ← ha, ← hb]; rfl⟩

/-- The deferred Done is called only by threads that have ended. -/
theorem done_ended (M : Mem μ α β) (ip : Bool) (act : τ → Act τ α β) (zv : β) (ranges : List (Nat × Nat)) (sched : List Choice) : ∀ p : RP μ τ,
    (∀ x ∈ p.threads, x.2 = true → ended x.1 = true) → ∀ x ∈ (p.exec M ip act zv ranges sched).threads, x.2 = true → ended x.1 = true := by
  induction sched with
  | nil => intro p h; exact h
  | cons c sched ih =>
    intro p h
    refine ih (p.step M ip act zv ranges c) ?_
    cases c with
    | caller write l =>
      unfold RP.step
      by_cases h1 : p.started < p.threads.length
      · simpa [h1] using h
      · by_cases h2 : p.waited = false
        · by_cases h3 : p.threads.all (·.2) = true
          · simp only [h1, h2, h3, if_true, if_false]; exact h
          · simp only [h1, h2, h3, if_true, if_false]; exact h
        · simp only [h1, h2, if_false]; exact h
    | thread k =>
      unfold RP.step
      by_cases h1 : k < p.started
      · rcases h2 : ranges[k]? with _ | r
        · simp only [h1, h2, if_true]; exact h
        · rcases h3 : p.threads[k]? with _ | ⟨ts, _ | _⟩
          · simp only [h1, h2, h3, if_true]; exact h
          · by_cases h4 : ended ts = true
            · simp only [h1, h2, h3, h4, if_true]
              intro x hx hx2
              rcases List.mem_or_eq_of_mem_set hx with hx | rfl
              · exact h x hx hx2
              · exact h4
            · simp only [h1, h2, h3, h4, if_true, if_false]
              intro x hx hx2
              rcases List.mem_or_eq_of_mem_set hx with hx | rfl
              · exact h x hx hx2
              · simp at hx2
          · simp only [h1, h2, h3, if_true]; exact h
      · simp only [h1, if_false]; exact h

/-- C147. That the threads are started one after the other, and that the caller runs beside them, makes no difference: what is in memory at any time is
what some schedule of the threads alone makes of it, and when wg.Wait has returned every thread has ended. So the results of C42, C43 and C144, which hold for
all schedules of the threads, hold of the whole program. -/
theorem c147_same (M : Mem μ α β) (inplace : Bool) (act : τ → Act τ α β) (zv : β) (t0 : τ) (mem : μ) (ranges : List (Nat × Nat)) (setup : List (Bool × Loc))
    (sched : List Choice) :
    ∃ s, (⟨((RP.start t0 mem ranges setup).exec M inplace act zv ranges sched).mem,
        ((RP.start t0 mem ranges setup).exec M inplace act zv ranges sched).threads.map (·.1)⟩ : Par μ τ) =
        Par.exec M act zv ranges (Par.start t0 mem ranges) s ∧
      (((RP.start t0 mem ranges setup).exec M inplace act zv ranges sched).waited = true →
        ∀ ts ∈ (Par.exec M act zv ranges (Par.start t0 mem ranges) s).threads, (∃ err, ts = .done err) ∨ ts = .panicked) := by
  obtain ⟨s, hs⟩ := exec_par M inplace act zv ranges sched (RP.start t0 mem ranges setup)
  have h0 : (⟨(RP.start t0 mem ranges setup).mem, (RP.start t0 mem ranges setup).threads.map (·.1)⟩ : Par μ τ) = Par.start t0 mem ranges := by
    simp [RP.start, Par.start]
  rw [h0] at hs
  refine ⟨s, hs, fun hw ts hts => ?_⟩
  have inv := inv_exec M inplace act zv ranges sched _ (inv_start t0 mem ranges setup) (by simp [RP.start])
  rw [← hs] at hts
  obtain ⟨x, hx, rfl⟩ := List.mem_map.mp hts
  have hd := (inv.allStarted (inv.isWaited hw)).2 x hx
  have := done_ended M inplace act zv ranges sched (RP.start t0 mem ranges setup) (by simp [RP.start]) x hx hd
  cases hxt : x.1 with
  | run t a b => rw [hxt] at this; simp [ended] at this
  | zeroing e i => rw [hxt] at this; simp [ended] at this
  | done e => exact Or.inl ⟨e, rfl⟩
  | panicked => exact Or.inr rfl

/-- All threads have been started, wg.Wait has not returned. -/
structure Going (ranges : List (Nat × Nat)) (p : RP μ τ) : Prop where
  started : p.started = p.threads.length
  length : p.threads.length = ranges.length
  waiting : p.waited = false
  done : ∀ x ∈ p.threads, x.2 = true → ended x.1 = true

theorem ended_still (M : Mem μ α β) (act : τ → Act τ α β) (zv : β) (lo hi : Nat) (m : μ) (ts : TS τ) (h : ended ts = true) : stepThread M act zv lo hi m ts = (m, ts) := by
  cases ts <;> simp [ended] at h <;> rfl

/-- Starting them. -/
theorem going_start (M : Mem μ α β) (ip : Bool) (act : τ → Act τ α β) (zv : β) (ranges : List (Nat × Nat)) : ∀ (n : Nat) (p : RP μ τ),
    p.threads.length = ranges.length → p.started + n = p.threads.length → p.waited = false → (∀ x ∈ p.threads, x.2 = true → ended x.1 = true) →
    ∃ sched, Going ranges (p.exec M ip act zv ranges sched) ∧ (p.exec M ip act zv ranges sched).mem = p.mem ∧ (p.exec M ip act zv ranges sched).threads = p.threads := by
  intro n
  induction n with
  | zero => intro p h1 h2 h3 h4; exact ⟨[], ⟨h2, h1, h3, h4⟩, rfl, rfl⟩
  | succ n ih =>
    intro p h1 h2 h3 h4
    have hstep : p.step M ip act zv ranges (.caller false (.out 0)) = { p with started := p.started + 1, trace := p.trace ++ [⟨none, .go p.started⟩] } := by
      unfold RP.step; simp only; rw [if_pos (by omega)]
    obtain ⟨sched, g, hm, ht⟩ := ih (p.step M ip act zv ranges (.caller false (.out 0))) (by rw [hstep]; exact h1) (by rw [hstep]; simp only; omega) (by rw [hstep]; exact h3)
      (by rw [hstep]; exact h4)
    refine ⟨.caller false (.out 0) :: sched, g, ?_, ?_⟩
    · refine hm.trans ?_; rw [hstep]
    · refine ht.trans ?_; rw [hstep]

/-- A step of a thread alone is a step of the whole program. -/
theorem going_step (M : Mem μ α β) (ip : Bool) (act : τ → Act τ α β) (zv : β) (ranges : List (Nat × Nat)) (p : RP μ τ) (g : Going ranges p) (k : Nat) :
    Going ranges (p.step M ip act zv ranges (.thread k)) ∧
    (⟨(p.step M ip act zv ranges (.thread k)).mem, (p.step M ip act zv ranges (.thread k)).threads.map (·.1)⟩ : Par μ τ) =
      Par.step M act zv ranges ⟨p.mem, p.threads.map (·.1)⟩ k := by
  have hset : ∀ (ts : TS τ) (b : Bool), p.threads[k]? = some (ts, b) → (p.threads.map (·.1)).set k ts = p.threads.map (·.1) := by
    intro ts b h3
    apply List.ext_getElem?
    intro i
    rw [List.getElem?_set]
    by_cases hi : k = i
    · subst hi
      have hlt : k < p.threads.length := by rw [List.getElem?_eq_some_iff] at h3; exact h3.1
      have h3' : p.threads[k] = (ts, b) := by rw [List.getElem?_eq_getElem hlt] at h3; simpa using h3
      simp [h3', hlt]
    · simp [hi]
  unfold RP.step Par.step
  by_cases h1 : k < p.started
  · have hk : k < ranges.length := by rw [← g.length, ← g.started]; exact h1
    have hk' : k < p.threads.length := by rw [← g.started]; exact h1
    have h2 : ranges[k]? = some ranges[k] := List.getElem?_eq_getElem hk
    rcases h3 : p.threads[k]? with _ | ⟨ts, _ | _⟩
    · rw [List.getElem?_eq_none_iff] at h3; omega
    · by_cases h4 : ended ts = true
      · simp only [h1, h2, h3, h4, if_true, List.getElem?_map, Option.map_some, ended_still M act zv _ _ _ ts h4, List.map_set, hset ts false h3]
        refine ⟨⟨by simpa using g.started, by simpa using g.length, g.waiting, ?_⟩, trivial⟩
        intro x hx hx2
        rcases List.mem_or_eq_of_mem_set hx with hx | rfl
        · exact g.done x hx hx2
        · exact h4
      · simp only [h1, h2, h3, h4, if_true, Bool.false_eq_true, if_false, List.getElem?_map, Option.map_some, List.map_set]
        refine ⟨⟨by simpa using g.started, by simpa using g.length, g.waiting, ?_⟩, trivial⟩
        intro x hx hx2
        rcases List.mem_or_eq_of_mem_set hx with hx | rfl
        · exact g.done x hx hx2
        · simp at hx2
    · have h4 : ended ts = true := g.done (ts, true) (List.mem_of_getElem? h3) rfl
      simp only [h1, h2, h3, if_true, List.getElem?_map, Option.map_some, ended_still M act zv _ _ _ ts h4, hset ts true h3]
      exact ⟨g, trivial⟩
  · have hk : ranges[k]? = none := by rw [List.getElem?_eq_none_iff, ← g.length, ← g.started]; omega
    simp only [h1, if_false, hk]
    exact ⟨g, trivial⟩

theorem going_exec (M : Mem μ α β) (ip : Bool) (act : τ → Act τ α β) (zv : β) (ranges : List (Nat × Nat)) (s : List Nat) : ∀ (p : RP μ τ), Going ranges p →
    Going ranges (p.exec M ip act zv ranges (s.map .thread)) ∧
    (⟨(p.exec M ip act zv ranges (s.map .thread)).mem, (p.exec M ip act zv ranges (s.map .thread)).threads.map (·.1)⟩ : Par μ τ) =
      Par.exec M act zv ranges ⟨p.mem, p.threads.map (·.1)⟩ s := by
  induction s with
  | nil => intro p g; exact ⟨g, rfl⟩
  | cons k s ih =>
    intro p g
    obtain ⟨g', h'⟩ := going_step M ip act zv ranges p g k
    obtain ⟨g'', h''⟩ := ih _ g'
    refine ⟨g'', h''.trans ?_⟩
    rw [h']; rfl

/-- The deferred calls of Done, and the return of wg.Wait. -/
theorem going_end (M : Mem μ α β) (ip : Bool) (act : τ → Act τ α β) (zv : β) (ranges : List (Nat × Nat)) : ∀ (n : Nat) (p : RP μ τ), Going ranges p →
    (∀ x ∈ p.threads, ended x.1 = true) → (p.threads.filter (!·.2)).length = n →
    ∃ sched, (p.exec M ip act zv ranges sched).mem = p.mem ∧ (p.exec M ip act zv ranges sched).threads.map (·.1) = p.threads.map (·.1) ∧
      (p.exec M ip act zv ranges sched).waited = true := by
  intro n
  induction n with
  | zero =>
    intro p g he hn
    have hall : p.threads.all (·.2) = true := by
      rw [List.all_eq_true]
      intro x hx
      have := List.filter_eq_nil_iff.mp (List.eq_nil_of_length_eq_zero hn) x hx
      simpa using this
    have hstep : p.step M ip act zv ranges (.caller false (.out 0)) = { p with waited := true, trace := p.trace ++ [⟨none, .wait⟩] } := by
      unfold RP.step
      simp only
      rw [if_neg (by rw [g.started]; omega), if_pos g.waiting, if_pos hall]
    refine ⟨[.caller false (.out 0)], ?_, ?_, ?_⟩ <;> simp only [RP.exec, List.foldl_cons, List.foldl_nil, hstep]
  | succ n ih =>
    intro p g he hn
    obtain ⟨x, hx⟩ : ∃ x, x ∈ p.threads.filter (!·.2) := List.exists_mem_of_length_pos (by omega)
    obtain ⟨hx, hb⟩ := List.mem_filter.mp hx
    obtain ⟨k, hk⟩ := List.getElem?_of_mem hx
    obtain ⟨ts, b⟩ := x
    cases b
    swap
    · simp at hb
    have hlt : k < p.threads.length := by rw [List.getElem?_eq_some_iff] at hk; exact hk.1
    have hr : ranges[k]? = some (ranges[k]'(by rw [← g.length]; exact hlt)) := List.getElem?_eq_getElem _
    have hstep : p.step M ip act zv ranges (.thread k) = { p with threads := p.threads.set k (ts, true), trace := p.trace ++ [⟨some k, .done⟩] } := by
      unfold RP.step
      simp only [hr, hk]
      rw [if_pos (by rw [g.started]; exact hlt), if_pos (he _ hx)]
    obtain ⟨g', h'⟩ := going_step M ip act zv ranges p g k
    have hcount : ((p.threads.set k (ts, true)).filter (!·.2)).length = n := by
      rw [List.set_eq_take_append_cons_drop, if_pos hlt]
      have h1 : p.threads = p.threads.take k ++ (ts, false) :: p.threads.drop (k + 1) := by
        have := List.getElem?_eq_getElem hlt
        rw [hk] at this
        injection this with this
        rw [this, List.getElem_cons_drop, List.take_append_drop]
      rw [h1] at hn
      simp only [List.filter_append, List.length_append, List.filter_cons, Bool.not_true, Bool.not_false, Bool.false_eq_true, if_true, if_false, List.length_cons] at hn ⊢
      omega
    obtain ⟨sched, h1, h2, h3⟩ := ih (p.step M ip act zv ranges (.thread k)) g' (by
      rw [hstep]
      intro x hx'
      rcases List.mem_or_eq_of_mem_set hx' with hx' | rfl
      · exact he x hx'
      · exact he (ts, false) hx) (by rw [hstep]; exact hcount)
    refine ⟨.thread k :: sched, h1.trans (by rw [hstep]), h2.trans ?_, h3⟩
    have hset : (p.threads.map (·.1)).set k ts = p.threads.map (·.1) := by
      apply List.ext_getElem?
      intro i
      rw [List.getElem?_set]
      by_cases hi : k = i
      · subst hi
        have h3' : p.threads[k] = (ts, false) := by rw [List.getElem?_eq_getElem hlt] at hk; simpa using hk
        simp [h3', hlt]
      · simp [hi]
    rw [hstep]
    simp only [List.map_set, hset]

/-- C147. And every schedule of the threads alone is one of the whole program: if all threads end or panic in it, wg.Wait returns. -/
theorem c147_possible (M : Mem μ α β) (inplace : Bool) (act : τ → Act τ α β) (zv : β) (t0 : τ) (mem : μ) (ranges : List (Nat × Nat)) (setup : List (Bool × Loc))
    (s : List Nat) :
    ∃ sched, (⟨((RP.start t0 mem ranges setup).exec M inplace act zv ranges sched).mem,
        ((RP.start t0 mem ranges setup).exec M inplace act zv ranges sched).threads.map (·.1)⟩ : Par μ τ) =
        Par.exec M act zv ranges (Par.start t0 mem ranges) s ∧
      ((∀ ts ∈ (Par.exec M act zv ranges (Par.start t0 mem ranges) s).threads, (∃ err, ts = .done err) ∨ ts = .panicked) →
        ((RP.start t0 mem ranges setup).exec M inplace act zv ranges sched).waited = true) := by
  have happ : ∀ (p : RP μ τ) (a b : List Choice), p.exec M inplace act zv ranges (a ++ b) = (p.exec M inplace act zv ranges a).exec M inplace act zv ranges b := by
    intro p a b; simp [RP.exec]
  obtain ⟨s1, g1, hm1, ht1⟩ := going_start M inplace act zv ranges ranges.length (RP.start t0 mem ranges setup) (by simp [RP.start]) (by simp [RP.start]) rfl
    (by simp [RP.start])
  obtain ⟨g2, h2⟩ := going_exec M inplace act zv ranges s _ g1
  have h0 : (⟨((RP.start t0 mem ranges setup).exec M inplace act zv ranges s1).mem,
      ((RP.start t0 mem ranges setup).exec M inplace act zv ranges s1).threads.map (·.1)⟩ : Par μ τ) = Par.start t0 mem ranges := by
    rw [hm1, ht1]; simp [RP.start, Par.start]
  rw [h0, ← happ] at h2
  rw [← happ] at g2
  by_cases hall : ∀ ts ∈ (Par.exec M act zv ranges (Par.start t0 mem ranges) s).threads, (∃ err, ts = .done err) ∨ ts = .panicked
  · obtain ⟨s3, hm3, ht3, hw⟩ := going_end M inplace act zv ranges _ _ g2 (by
      intro x hx
      have : x.1 ∈ (Par.exec M act zv ranges (Par.start t0 mem ranges) s).threads := by rw [← h2]; exact List.mem_map.mpr ⟨x, hx, rfl⟩
      rcases hall _ this with ⟨err, e⟩ | e <;> rw [e] <;> rfl) rfl
    refine ⟨(s1 ++ s.map .thread) ++ s3, ?_, fun _ => ?_⟩
    · rw [happ, hm3, ht3, h2]
    · rw [happ]; exact hw
  · exact ⟨s1 ++ s.map .thread, h2, fun h => absurd h hall⟩

/-- A schedule in which both threads end. -/
example : (Par.exec (oneMem Nat) (mapAct (· * 2)) 0 [(0, 2), (2, 4)] (Par.start .idle [1, 2, 3, 4] [(0, 2), (2, 4)])
    [0, 1, 0, 1, 0, 0, 0, 1, 1, 1, 0, 0, 0, 1, 1, 1]).threads = [.done none, .done none] := by rfl
example := c147_possible (oneMem Nat) true (mapAct (· * 2)) 0 .idle [1, 2, 3, 4] (generateRanges 4 none) [] [0, 1, 0, 1, 0, 0, 0, 1, 1, 1]

/-! ### Examples -/

/-- Non-vacuity: two threads double four elements in place; the events, the result, and that there is no race. -/
example : ((RP.start .idle [1, 2, 3, 4] (generateRanges 4 none) [(true, .out 0)]).exec (oneMem Nat) true (mapAct (· * 2)) 0 (generateRanges 4 none)
    [.caller false (.out 0), .thread 0, .thread 0, .caller false (.out 0), .thread 1]).trace =
    [⟨none, .write (.out 0)⟩, ⟨none, .go 0⟩, ⟨some 0, .read (.out 0)⟩, ⟨some 0, .write (.out 0)⟩, ⟨none, .go 1⟩, ⟨some 1, .read (.out 2)⟩] := by
  decide +kernel
example := c147_raceFree (oneMem Nat) true (mapAct (· * 2)) 0 .idle [1, 2, 3, 4] 4 (by decide) none [(true, .out 0)] [.caller false (.out 0), .thread 0, .thread 0]
example := c147_accesses (oneMem_lawful Nat) (mapAct (· * 2)) 0 0 0 2 [1, 2, 3, 4] (.run (.idle) 0 0)
example := c147_same (oneMem Nat) true (mapAct (· * 2)) 0 .idle [1, 2, 3, 4] (generateRanges 4 none) [(true, .out 0)] [.caller false (.out 0), .thread 0]

/-- The definition is not empty: with ranges that overlap there is a data race. -/
example : DataRace ((RP.start .idle [1, 2, 3] [(0, 2), (1, 3)] []).exec (oneMem Nat) true (mapAct (· * 2)) 0 [(0, 2), (1, 3)]
    [.caller false (.out 0), .caller false (.out 0), .thread 0, .thread 0, .thread 1, .thread 0, .thread 0, .thread 1]).trace := by
  have ht : ((RP.start .idle [1, 2, 3] [(0, 2), (1, 3)] []).exec (oneMem Nat) true (mapAct (· * 2)) 0 [(0, 2), (1, 3)]
      [.caller false (.out 0), .caller false (.out 0), .thread 0, .thread 0, .thread 1, .thread 0, .thread 0, .thread 1]).trace =
      [⟨none, .go 0⟩, ⟨none, .go 1⟩, ⟨some 0, .read (.out 0)⟩, ⟨some 0, .write (.out 0)⟩, ⟨some 1, .read (.out 1)⟩, ⟨some 0, .read (.out 1)⟩,
        ⟨some 0, .write (.out 1)⟩, ⟨some 1, .write (.out 1)⟩] := by decide +kernel
  rw [ht]
  have key : ∀ i j, HB [⟨none, .go 0⟩, ⟨none, .go 1⟩, ⟨some 0, .read (.out 0)⟩, ⟨some 0, .write (.out 0)⟩, ⟨some 1, .read (.out 1)⟩, ⟨some 0, .read (.out 1)⟩,
        ⟨some 0, .write (.out 1)⟩, ⟨some 1, .write (.out 1)⟩] i j → i < j ∧ i ≠ 6 := by
    intro i j h
    induction h with
    | @program i j a b h1 h2 h3 h4 =>
      refine ⟨h1, ?_⟩
      rintro rfl
      have hj := lt_of_get h3
      simp at hj
      have : j = 7 := by omega
      subst this
      simp at h2 h3
      rw [← h2, ← h3] at h4
      simp at h4
    | go h1 h2 h3 h4 =>
      refine ⟨h1, ?_⟩
      rintro rfl
      simp at h2
    | wait h1 h2 h3 =>
      refine ⟨h1, ?_⟩
      rintro rfl
      simp at h2
    | trans _ _ ih1 ih2 => exact ⟨by omega, ih1.2⟩
  refine ⟨6, 7, ⟨some 0, .write (.out 1)⟩, ⟨some 1, .write (.out 1)⟩, by decide, rfl, rfl, ⟨.out 1, Or.inl ⟨rfl, Or.inl rfl⟩⟩, ?_, ?_⟩
  · intro h; exact (key _ _ h).2 rfl
  · intro h; have := (key _ _ h).1; omega

end Micro.Stream.Race
