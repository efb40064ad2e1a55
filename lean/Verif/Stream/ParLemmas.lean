import Verif.Stream.ParSpec
import Verif.Iter.Lemmas
import Verif.Stream.Lemmas
import Mathlib.Tactic.Ring
import Mathlib.Data.List.Induction
import Mathlib.Tactic.Linarith
set_option linter.unusedSimpArgs false
namespace Micro.Stream
open Micro Micro.Iter

variable {τ α β μ : Type}

/-! ### Ranges -/

theorem Chain.le {a c : Nat} {rs : List (Nat × Nat)} (h : Chain a rs c) : a ≤ c := by
  induction h with
  | nil => exact Nat.le_refl _
  | cons h _ ih => omega

theorem Chain.append {a b c : Nat} {rs rs' : List (Nat × Nat)} (h : Chain a rs b) (h' : Chain b rs' c) :
    Chain a (rs ++ rs') c := by
  induction h with
  | nil => exact h'
  | cons h _ ih => exact .cons h (ih h')

theorem Chain.bounds {a c : Nat} {rs : List (Nat × Nat)} (h : Chain a rs c) (k : Nat) (r : Nat × Nat)
    (hk : rs[k]? = some r) : a ≤ r.1 ∧ r.1 < r.2 ∧ r.2 ≤ c := by
  induction h generalizing k with
  | nil => simp at hk
  | @cons a b c rs hab hc ih =>
    cases k with
    | zero => simp at hk; subst hk; exact ⟨Nat.le_refl _, hab, hc.le⟩
    | succ k => have := ih k (by simpa using hk); omega

/-- Different threads work on disjoint ranges. -/
theorem Chain.disjoint {a c : Nat} {rs : List (Nat × Nat)} (h : Chain a rs c) (k j : Nat) (r q : Nat × Nat)
    (hk : rs[k]? = some r) (hj : rs[j]? = some q) (hne : k ≠ j) : r.2 ≤ q.1 ∨ q.2 ≤ r.1 := by
  induction h generalizing k j with
  | nil => simp at hk
  | @cons a b c rs hab hc ih =>
    cases k with
    | zero =>
      cases j with
      | zero => exact absurd rfl hne
      | succ j =>
        simp at hk; subst hk
        have := hc.bounds j q (by simpa using hj)
        left; exact this.1
    | succ k =>
      cases j with
      | zero =>
        simp at hj; subst hj
        have := hc.bounds k r (by simpa using hk)
        right; exact this.1
      | succ j => exact ih k j (by simpa using hk) (by simpa using hj) (by omega)

theorem rangesOf_chain (count start bucket : Nat) (hb : 0 < bucket) :
    Chain start (rangesOf count start bucket) (start + count * bucket) := by
  induction count generalizing start with
  | zero => simpa [rangesOf] using Chain.nil
  | succ n ih =>
    have := ih (start + bucket)
    rw [rangesOf, show start + (n + 1) * bucket = start + bucket + n * bucket by ring]
    exact .cons (by omega) this

theorem bucketRanges_chain (n b : Nat) (hb : 0 < b) : Chain 0 (bucketRanges n b) n := by
  unfold bucketRanges
  have h1 := rangesOf_chain (n / b) 0 b hb
  have h2 := Nat.div_add_mod n b
  rw [Nat.mul_comm] at h2
  split
  · rename_i h
    refine h1.append ?_
    rw [show 0 + n / b * b = n - n % b by omega]
    exact .cons (by omega) .nil
  · rename_i h
    rw [List.append_nil]
    rw [show 0 + n / b * b = n by omega] at h1
    exact h1

theorem threadLoop (n bucket : Nat) (hb : 0 < bucket) (fuel t start rem : Nat)
    (hs : start + t * bucket + rem = n) (hr : rem ≤ t) (hf : t ≤ fuel) :
    Chain start (threadRangesLoop n bucket fuel start rem) n ∧
    (threadRangesLoop n bucket fuel start rem).length = t ∧
    ∀ r ∈ threadRangesLoop n bucket fuel start rem, r.2 - r.1 = bucket ∨ r.2 - r.1 = bucket + 1 := by
  induction fuel generalizing t start rem with
  | zero =>
    have : t = 0 := by omega
    subst this
    have : start = n := by omega
    subst this
    exact ⟨.nil, rfl, by simp [threadRangesLoop]⟩
  | succ fuel ih =>
    rw [threadRangesLoop]
    cases t with
    | zero => rw [if_neg (by omega)]; have : start = n := by omega
              subst this; exact ⟨.nil, rfl, by simp⟩
    | succ t =>
      have e1 : (t + 1) * bucket = t * bucket + bucket := by ring
      rw [if_pos (by omega)]
      simp only
      by_cases hrem : rem > 0
      · rw [if_pos hrem]
        obtain ⟨h1, h2, h3⟩ := ih t (start + bucket + 1) (rem - 1) (by omega) (by omega) (by omega)
        refine ⟨.cons (by omega) h1, by simp [h2], ?_⟩
        intro r hr
        simp only [List.mem_cons] at hr
        rcases hr with rfl | hr
        · right; simp only; omega
        · exact h3 r hr
      · rw [if_neg hrem]
        obtain ⟨h1, h2, h3⟩ := ih t (start + bucket) 0 (by omega) (by omega) (by omega)
        have e2 : rem - 1 = 0 := by omega
        rw [e2]
        refine ⟨.cons (by omega) h1, by simp [h2], ?_⟩
        intro r hr
        simp only [List.mem_cons] at hr
        rcases hr with rfl | hr
        · left; simp only; omega
        · exact h3 r hr

theorem clampN_pos (n : Nat) (hn : 0 < n) (k : Int) : 0 < clampN n k ∧ clampN n k ≤ n := by
  unfold clampN; omega

theorem roundSqrt_pos (n : Nat) (hn : 0 < n) : 0 < roundSqrt n := by
  unfold roundSqrt
  have : 0 < Nat.sqrt n := Nat.sqrt_pos.mpr hn
  simp only
  split <;> omega

/-! ### Threads run as if alone -/

/-- Memories agree on a range. -/
def Agree (M : Mem μ α β) (lo hi : Nat) (m m' : μ) : Prop :=
  ∀ i, lo ≤ i → i < hi → M.rd m i = M.rd m' i ∧ (M.out m)[i]? = (M.out m')[i]?

theorem agree_wr {M : Mem μ α β} {ip : Bool} (L : Lawful M ip) {lo hi : Nat} {m m' : μ} (h : Agree M lo hi m m')
    (i : Nat) (b : β) : Agree M lo hi (M.wr m i b) (M.wr m' i b) := by
  intro j h1 h2
  obtain ⟨a1, a2⟩ := h j h1 h2
  rw [L.out_wr, L.out_wr]
  by_cases hj : j = i
  · subst hj
    refine ⟨L.rd_congr m m' j b a1, ?_⟩
    simp only [List.getElem?_set, if_true]
    have : j < (M.out m).length ↔ j < (M.out m').length := by
      constructor
      · intro hl
        have := List.getElem?_eq_getElem hl
        rw [a2] at this
        exact (List.getElem?_eq_some_iff.mp this).1
      · intro hl
        have := List.getElem?_eq_getElem hl
        rw [← a2] at this
        exact (List.getElem?_eq_some_iff.mp this).1
    simp [this]
  · rw [L.rd_other _ _ _ _ hj, L.rd_other _ _ _ _ hj]
    rw [List.getElem?_set_ne (by omega), List.getElem?_set_ne (by omega)]
    exact ⟨a1, a2⟩

theorem agree_other {M : Mem μ α β} {ip : Bool} (L : Lawful M ip) {lo hi : Nat} {m m' : μ} (h : Agree M lo hi m m')
    (i : Nat) (b : β) (hi' : i < lo ∨ hi ≤ i) : Agree M lo hi (M.wr m i b) m' := by
  intro j h1 h2
  obtain ⟨a1, a2⟩ := h j h1 h2
  rw [L.out_wr, L.rd_other _ _ _ _ (by omega), List.getElem?_set_ne (by omega)]
  exact ⟨a1, a2⟩

/-- A thread's step depends only on its range and keeps agreement there. -/
theorem stepThread_agree {M : Mem μ α β} {ip : Bool} (L : Lawful M ip) (act : τ → Act τ α β) (zv : β) {lo hi : Nat}
    {m m' : μ} (h : Agree M lo hi m m') (ts : TS τ) :
    (stepThread M act zv lo hi m ts).2 = (stepThread M act zv lo hi m' ts).2 ∧
    Agree M lo hi (stepThread M act zv lo hi m ts).1 (stepThread M act zv lo hi m' ts).1 := by
  unfold stepThread
  cases ts with
  | run t ri wi =>
    simp only
    cases act t with
    | read k =>
      simp only
      split
      · rename_i hlt
        obtain ⟨a1, _⟩ := h (lo + ri) (by omega) hlt
        exact ⟨by simp [a1], h⟩
      · exact ⟨rfl, h⟩
    | emit b t' =>
      simp only
      split
      · exact ⟨rfl, agree_wr L h _ _⟩
      · exact ⟨rfl, h⟩
    | stop e =>
      simp only
      split <;> exact ⟨rfl, h⟩
  | zeroing e i =>
    simp only
    split
    · exact ⟨rfl, agree_wr L h _ _⟩
    · exact ⟨rfl, h⟩
  | done e => exact ⟨rfl, h⟩
  | panicked => exact ⟨rfl, h⟩

/-- A thread's step leaves everything outside its range alone. -/
theorem stepThread_outside {M : Mem μ α β} {ip : Bool} (L : Lawful M ip) (act : τ → Act τ α β) (zv : β)
    {lo hi lo' hi' : Nat} {m m' : μ} (h : Agree M lo' hi' m m') (hd : hi ≤ lo' ∨ hi' ≤ lo) (ts : TS τ) :
    Agree M lo' hi' (stepThread M act zv lo hi m ts).1 m' := by
  unfold stepThread
  cases ts with
  | run t ri wi =>
    simp only
    cases act t with
    | read k => simp only; split <;> exact h
    | emit b t' =>
      simp only
      split
      · exact agree_other L h _ _ (by omega)
      · exact h
    | stop e => simp only; split <;> exact h
  | zeroing e i =>
    simp only
    split
    · exact agree_other L h _ _ (by omega)
    · exact h
  | done e => exact h
  | panicked => exact h

/-- `n` steps of one thread running alone. -/
def alone (M : Mem μ α β) (act : τ → Act τ α β) (zv : β) (r : Nat × Nat) : Nat → μ × TS τ → μ × TS τ
  | 0, c => c
  | n + 1, c => stepThread M act zv r.1 r.2 (alone M act zv r n c).1 (alone M act zv r n c).2

/-- Whatever the schedule, each thread is in the state it would be in after making the same number of
steps alone, and so is its part of the memory. -/
theorem exec_projection {M : Mem μ α β} {ip : Bool} (L : Lawful M ip) (act : τ → Act τ α β) (zv : β)
    (ranges : List (Nat × Nat)) {a c : Nat} (hc : Chain a ranges c) (t0 : τ) (m0 : μ) (sched : List Nat) :
    (Par.exec M act zv ranges (Par.start t0 m0 ranges) sched).threads.length = ranges.length ∧
    ∀ k r, ranges[k]? = some r →
      (Par.exec M act zv ranges (Par.start t0 m0 ranges) sched).threads[k]?
        = some (alone M act zv r (sched.count k) (m0, .run t0 0 0)).2 ∧
      Agree M r.1 r.2 (Par.exec M act zv ranges (Par.start t0 m0 ranges) sched).mem
        (alone M act zv r (sched.count k) (m0, .run t0 0 0)).1 := by
  induction sched using List.reverseRecOn with
  | nil =>
    refine ⟨by simp [Par.exec, Par.start], fun k r hk => ⟨?_, fun i _ _ => ⟨rfl, rfl⟩⟩⟩
    simp [Par.exec, Par.start, alone, hk]
  | append_singleton sched j ih =>
    obtain ⟨hl, ih⟩ := ih
    have hex : Par.exec M act zv ranges (Par.start t0 m0 ranges) (sched ++ [j])
        = Par.step M act zv ranges (Par.exec M act zv ranges (Par.start t0 m0 ranges) sched) j := by
      simp [Par.exec, List.foldl_append]
    rw [hex]
    generalize Par.exec M act zv ranges (Par.start t0 m0 ranges) sched = p at hl ih ⊢
    unfold Par.step
    cases hj : ranges[j]? with
    | none =>
      simp only
      refine ⟨hl, fun k r hk => ?_⟩
      have hkj : k ≠ j := by rintro rfl; rw [hj] at hk; simp at hk
      have : (sched ++ [j]).count k = sched.count k := by
        rw [List.count_append, List.count_singleton]; simp [Ne.symm hkj]
      rw [this]; exact ih k r hk
    | some q =>
      have hjt := (ih j q hj).1
      simp only [hjt]
      refine ⟨by simpa using hl, fun k r hk => ?_⟩
      by_cases hkj : k = j
      · subst hkj
        rw [hj] at hk; simp at hk; subst hk
        have hlen : k < p.threads.length := by
          rw [hl]; exact (List.getElem?_eq_some_iff.mp hj).1
        have e1 : (sched ++ [k]).count k = sched.count k + 1 := by simp
        rw [e1, alone]
        obtain ⟨-, hag⟩ := ih k q hj
        obtain ⟨s1, s2⟩ := stepThread_agree L act zv hag (alone M act zv q (sched.count k) (m0, .run t0 0 0)).2
        refine ⟨?_, s2⟩
        rw [List.getElem?_set_self hlen, s1]
      · have e1 : (sched ++ [j]).count k = sched.count k := by
          rw [List.count_append, List.count_singleton]; simp [Ne.symm hkj]
        rw [e1]
        obtain ⟨i1, i2⟩ := ih k r hk
        refine ⟨?_, ?_⟩
        · rw [List.getElem?_set_ne (fun h => hkj h.symm)]; exact i1
        · exact stepThread_outside L act zv i2 (hc.disjoint j k q r hj hk (fun h => hkj h.symm)) _

theorem alone_add (M : Mem μ α β) (act : τ → Act τ α β) (zv : β) (r : Nat × Nat) (n k : Nat) (c : μ × TS τ) :
    alone M act zv r (n + k) c = alone M act zv r k (alone M act zv r n c) := by
  induction k with
  | zero => rfl
  | succ k ih => rw [Nat.add_succ, alone, ih, alone]

theorem alone_fixed (M : Mem μ α β) (act : τ → Act τ α β) (zv : β) (r : Nat × Nat) (k : Nat) (m : μ) (ts : TS τ)
    (h : stepThread M act zv r.1 r.2 m ts = (m, ts)) : alone M act zv r k (m, ts) = (m, ts) := by
  induction k with
  | zero => rfl
  | succ k ih => rw [alone, ih]; exact h


/-! ### A thread running alone -/

/-- Store consecutive elements. -/
def setMany : List β → Nat → List β → List β
  | l, _, [] => l
  | l, i, b :: bs => setMany (l.set i b) (i + 1) bs

theorem setMany_length (l : List β) (i : Nat) (bs : List β) : (setMany l i bs).length = l.length := by
  induction bs generalizing l i with
  | nil => rfl
  | cons b bs ih => rw [setMany, ih, List.length_set]

theorem setMany_get (l : List β) (i : Nat) (bs : List β) (k : Nat) (hk : k < l.length) :
    (setMany l i bs)[k]? = if i ≤ k ∧ k < i + bs.length then bs[k - i]? else l[k]? := by
  induction bs generalizing l i with
  | nil => rw [setMany, if_neg (by simp)]
  | cons b bs ih =>
    rw [setMany, ih _ _ (by simpa using hk)]
    simp only [List.length_cons]
    by_cases h1 : i = k
    · subst h1
      rw [if_neg (by omega), if_pos (by omega), List.getElem?_set_self hk]; simp
    · by_cases h2 : i + 1 ≤ k ∧ k < i + 1 + bs.length
      · rw [if_pos h2, if_pos (by omega), show k - i = (k - (i + 1)) + 1 by omega]; simp
      · rw [if_neg h2, if_neg (by omega), List.getElem?_set_ne h1]

theorem zeroing_alone (M : Mem μ α β) (act : τ → Act τ α β) (zv : β) (r : Nat × Nat) (e : Err) (n i : Nat)
    (hn : r.1 + i + n = r.2) (m : μ) :
    ∃ k m', alone M act zv r k (m, .zeroing e i) = (m', .done (some e)) := by
  induction n generalizing i m with
  | zero =>
    refine ⟨1, m, ?_⟩
    simp only [alone, stepThread]
    rw [if_neg (by omega)]
  | succ n ih =>
    obtain ⟨k, m', h⟩ := ih (i + 1) (by omega) (M.wr m (r.1 + i) zv)
    refine ⟨1 + k, m', ?_⟩
    rw [alone_add]
    simp only [alone, stepThread]
    rw [if_pos (by omega)]
    exact h

theorem run_alone {M : Mem μ α β} {ip : Bool} (L : Lawful M ip) (act : τ → Act τ α β) (zv : β) (r : Nat × Nat)
    {t : τ} {d : Nat} {xs : List α} {outs : List β} {e : Err} (h : SeqRun act ip t d xs outs e) :
    ∀ (m : μ) (ri wi : Nat), (ip = true → wi + d = ri) → r.1 + ri + xs.length = r.2 →
      (∀ i (hi : i < xs.length), M.rd m (r.1 + ri + i) = some xs[i]) → r.1 + wi + outs.length ≤ r.2 →
      ∃ n m', alone M act zv r n (m, .run t ri wi) = (m', if e = .eoi then .done none else .zeroing e 0) ∧
        M.out m' = setMany (M.out m) (r.1 + wi) outs := by
  induction h with
  | @stop t d xs e hs =>
    intro m ri wi _ _ _ _
    refine ⟨1, m, ?_, rfl⟩
    simp only [alone, stepThread, hs]
    split <;> rfl
  | @emit t d xs b t' outs e hs hd _ ih =>
    intro m ri wi hip hlen hrd hout
    simp only [List.length_cons] at hout
    obtain ⟨n, m', h1, h2⟩ := ih (M.wr m (r.1 + wi) b) ri (wi + 1)
      (by intro h; have := hip h; have := hd h; omega) hlen
      (by
        intro i hi
        rw [← hrd i hi]
        cases ip with
        | false => exact L.rd_sep rfl _ _ _ _
        | true => have := hip rfl; have := hd rfl; exact L.rd_other _ _ _ _ (by omega))
      (by omega)
    refine ⟨1 + n, m', ?_, ?_⟩
    · rw [alone_add]
      simp only [alone, stepThread, hs]
      rw [if_pos (by omega)]
      exact h1
    · rw [h2, L.out_wr, setMany]; rfl
  | @read t d k x xs outs e hs _ ih =>
    intro m ri wi hip hlen hrd hout
    simp only [List.length_cons] at hlen
    obtain ⟨n, m', h1, h2⟩ := ih m (ri + 1) wi (by intro h; have := hip h; omega) (by omega)
      (by
        intro i hi
        have := hrd (i + 1) (by simpa using hi)
        rw [show r.1 + (ri + 1) + i = r.1 + ri + (i + 1) by omega, this]; simp)
      hout
    refine ⟨1 + n, m', ?_, h2⟩
    rw [alone_add]
    simp only [alone, stepThread, hs]
    rw [if_pos (by omega)]
    have := hrd 0 (by simp)
    simp only [Nat.add_zero, List.getElem_cons_zero] at this
    simp only [this]
    exact h1
  | @readEnd t d k outs e hs _ ih =>
    intro m ri wi hip hlen hrd hout
    obtain ⟨n, m', h1, h2⟩ := ih m ri wi hip hlen hrd hout
    refine ⟨1 + n, m', ?_, h2⟩
    rw [alone_add]
    simp only [List.length_nil] at hlen
    simp only [alone, stepThread, hs]
    rw [if_neg (by omega)]
    exact h1

/-- The error slot of a thread whose transform ended with `e`. -/
def errOf (e : Err) : Option Err := if e = .eoi then none else some e

theorem thread_alone {M : Mem μ α β} {ip : Bool} (L : Lawful M ip) (act : τ → Act τ α β) (zv : β) (r : Nat × Nat)
    (hr : r.1 ≤ r.2) {t : τ} {xs : List α} {outs : List β} {e : Err} (h : SeqRun act ip t 0 xs outs e) (m : μ)
    (hlen : xs.length = r.2 - r.1) (hrd : ∀ i (hi : i < xs.length), M.rd m (r.1 + i) = some xs[i])
    (hout : outs.length ≤ xs.length) :
    ∃ n m', alone M act zv r n (m, .run t 0 0) = (m', .done (errOf e)) ∧
      (e = .eoi → M.out m' = setMany (M.out m) r.1 outs) := by
  obtain ⟨n, m', h1, h2⟩ := run_alone L act zv r h m 0 0 (by simp) (by omega) (by simpa using hrd) (by omega)
  unfold errOf
  by_cases he : e = .eoi
  · rw [if_pos he] at h1 ⊢
    exact ⟨n, m', h1, fun _ => by simpa using h2⟩
  · rw [if_neg he] at h1 ⊢
    obtain ⟨k, m'', h3⟩ := zeroing_alone M act zv r e (r.2 - r.1) 0 (by omega) m'
    exact ⟨n + k, m'', by rw [alone_add, h1, h3], fun h => absurd h he⟩

/-- Any number of steps that leads to `done` leads to the same final state. -/
theorem alone_done_unique {M : Mem μ α β} {act : τ → Act τ α β} {zv : β} {r : Nat × Nat} {c : μ × TS τ} {n k : Nat}
    {m' : μ} {e e' : Option Err} (h : alone M act zv r n c = (m', .done e))
    (h' : (alone M act zv r k c).2 = .done e') : alone M act zv r k c = (m', .done e) := by
  have fx : ∀ m e, stepThread M act zv r.1 r.2 m (.done e : TS τ) = (m, .done e) := fun _ _ => rfl
  rcases Nat.le_total n k with hk | hk
  · obtain ⟨j, rfl⟩ := Nat.exists_eq_add_of_le hk
    rw [alone_add, h, alone_fixed _ _ _ _ _ _ _ (fx _ _)]
  · obtain ⟨j, rfl⟩ := Nat.exists_eq_add_of_le hk
    rw [alone_add] at h
    have : alone M act zv r k c = ((alone M act zv r k c).1, .done e') := by rw [← h']
    rw [this, alone_fixed _ _ _ _ _ _ _ (fx _ _)] at h
    rw [this, h]

theorem alone_not_panicked {M : Mem μ α β} {act : τ → Act τ α β} {zv : β} {r : Nat × Nat} {c : μ × TS τ} {n k : Nat}
    {m' : μ} {e : Option Err} (h : alone M act zv r n c = (m', .done e)) :
    (alone M act zv r k c).2 ≠ .panicked := by
  intro h'
  have fx : ∀ m, stepThread M act zv r.1 r.2 m (.panicked : TS τ) = (m, .panicked) := fun _ => rfl
  have fx' : ∀ m e, stepThread M act zv r.1 r.2 m (.done e : TS τ) = (m, .done e) := fun _ _ => rfl
  rcases Nat.le_total n k with hk | hk
  · obtain ⟨j, rfl⟩ := Nat.exists_eq_add_of_le hk
    rw [alone_add, h, alone_fixed _ _ _ _ _ _ _ (fx' _ _)] at h'
    simp at h'
  · obtain ⟨j, rfl⟩ := Nat.exists_eq_add_of_le hk
    rw [alone_add] at h
    have : alone M act zv r k c = ((alone M act zv r k c).1, .panicked) := by rw [← h']
    rw [this, alone_fixed _ _ _ _ _ _ _ (fx _)] at h
    simp at h

theorem alone_done_stays {M : Mem μ α β} {act : τ → Act τ α β} {zv : β} {r : Nat × Nat} {c : μ × TS τ} {n k : Nat}
    {m' : μ} {e : Option Err} (h : alone M act zv r n c = (m', .done e)) (hk : n ≤ k) :
    alone M act zv r k c = (m', .done e) := by
  have fx : ∀ m e, stepThread M act zv r.1 r.2 m (.done e : TS τ) = (m, .done e) := fun _ _ => rfl
  obtain ⟨j, rfl⟩ := Nat.exists_eq_add_of_le hk
  rw [alone_add, h, alone_fixed _ _ _ _ _ _ _ (fx _ _)]

/-- Lists of the right length agreeing with consecutive pieces. -/
theorem chain_concat (l : List β) {a c : Nat} {rs : List (Nat × Nat)} (h : Chain a rs c) (f : Nat × Nat → List β)
    (hl : l.length = c) (hlen : ∀ r ∈ rs, (f r).length = r.2 - r.1)
    (hf : ∀ r ∈ rs, ∀ i, r.1 ≤ i → i < r.2 → l[i]? = (f r)[i - r.1]?) : l.drop a = (rs.map f).flatten := by
  induction h with
  | nil => simp; omega
  | @cons a b c rs hab hc ih =>
    have h1 := ih hl (fun r hr => hlen r (by simp [hr])) (fun r hr => hf r (by simp [hr]))
    have h2 := hlen (a, b) (by simp)
    have h3 := hf (a, b) (by simp)
    simp only at h2 h3
    have hcb := hc.le
    rw [List.map_cons, List.flatten_cons, ← h1]
    apply List.ext_getElem?
    intro i
    rw [List.getElem?_drop]
    by_cases hi : i < b - a
    · rw [List.getElem?_append_left (by omega), h3 (a + i) (by omega) (by omega)]
      congr 1; omega
    · rw [List.getElem?_append_right (by omega), List.getElem?_drop]
      congr 1; omega

/-- What every complete execution of the threads produces. -/
theorem parallel_exec {M : Mem μ α β} {ip : Bool} (L : Lawful M ip) (act : τ → Act τ α β) (zv : β) (t0 : τ) (m0 : μ)
    (input : List α) (ranges : List (Nat × Nat)) (hc : Chain 0 ranges input.length)
    (hrd : ∀ i (hi : i < input.length), M.rd m0 i = some input[i]) (hol : (M.out m0).length = input.length)
    (outs : Nat × Nat → List β) (ends : Nat × Nat → Err)
    (hrun : ∀ r ∈ ranges, SeqRun act ip t0 0 (slice input r) (outs r) (ends r))
    (hlen : ∀ r ∈ ranges, (outs r).length ≤ r.2 - r.1) :
    -- the threads finish
    (∃ N, ∀ sched : List Nat, (∀ k, k < ranges.length → N ≤ sched.count k) →
      (Par.exec M act zv ranges (Par.start t0 m0 ranges) sched).finished) ∧
    -- no thread ever panics
    (∀ sched, .panicked ∉ (Par.exec M act zv ranges (Par.start t0 m0 ranges) sched).threads) ∧
    -- the final state
    (∀ sched, (Par.exec M act zv ranges (Par.start t0 m0 ranges) sched).finished →
      (Par.exec M act zv ranges (Par.start t0 m0 ranges) sched).errs = ranges.map (fun r => errOf (ends r)) ∧
      ((∀ r ∈ ranges, ends r = .eoi ∧ (outs r).length = r.2 - r.1) →
        M.out (Par.exec M act zv ranges (Par.start t0 m0 ranges) sched).mem = (ranges.map outs).flatten)) := by
  have hal : ∀ r ∈ ranges, ∃ n m', alone M act zv r n (m0, .run t0 0 0) = (m', .done (errOf (ends r))) ∧
      (ends r = .eoi → M.out m' = setMany (M.out m0) r.1 (outs r)) := by
    intro r hr
    obtain ⟨k, hk⟩ := List.getElem?_of_mem hr
    have hb := hc.bounds k r hk
    have hsl : (slice input r).length = r.2 - r.1 := by simp [slice]; omega
    refine thread_alone L act zv r (by omega) (hrun r hr) m0 hsl ?_ (by rw [hsl]; exact hlen r hr)
    intro i hi
    rw [hsl] at hi
    rw [hrd (r.1 + i) (by omega)]
    simp [slice]
  have hlenout : ∀ sched, (M.out (Par.exec M act zv ranges (Par.start t0 m0 ranges) sched).mem).length = input.length := by
    intro sched
    induction sched using List.reverseRecOn with
    | nil => simpa [Par.exec, Par.start] using hol
    | append_singleton sched j ih =>
      have hex : Par.exec M act zv ranges (Par.start t0 m0 ranges) (sched ++ [j])
          = Par.step M act zv ranges (Par.exec M act zv ranges (Par.start t0 m0 ranges) sched) j := by
        simp [Par.exec, List.foldl_append]
      rw [hex, ← ih]
      generalize Par.exec M act zv ranges (Par.start t0 m0 ranges) sched = p
      unfold Par.step
      split
      · rename_i r ts _ _
        simp only
        unfold stepThread
        cases ts with
        | run t ri wi =>
          simp only
          cases act t with
          | read k => simp only; split <;> rfl
          | emit b t' => simp only; split
                         · simp only [L.out_wr, List.length_set]
                         · rfl
          | stop e => simp only; split <;> rfl
        | zeroing e i =>
          simp only; split
          · simp only [L.out_wr, List.length_set]
          · rfl
        | done e => rfl
        | panicked => rfl
      · rfl
  refine ⟨?_, ?_, ?_⟩
  · -- a common bound on the number of steps
    have hN : ∃ N, ∀ r ∈ ranges, ∀ k, N ≤ k →
        ∃ m' e, alone M act zv r k (m0, .run t0 0 0) = (m', .done e) := by
      clear hrun hlen hrd hc hlenout
      induction ranges with
      | nil => exact ⟨0, by simp⟩
      | cons r rs ih =>
        obtain ⟨N, hN⟩ := ih (fun r hr => hal r (by simp [hr]))
        obtain ⟨n, m', h, _⟩ := hal r (by simp)
        refine ⟨max N n, ?_⟩
        intro q hq k hk
        simp only [List.mem_cons] at hq
        rcases hq with rfl | hq
        · exact ⟨m', _, alone_done_stays h (by omega)⟩
        · exact hN q hq k (by omega)
    obtain ⟨N, hN⟩ := hN
    refine ⟨N, fun sched hs => ?_⟩
    obtain ⟨hl, hp⟩ := exec_projection L act zv ranges hc t0 m0 sched
    intro ts hts
    obtain ⟨k, hk⟩ := List.getElem?_of_mem hts
    have hkl : k < ranges.length := by rw [← hl]; exact (List.getElem?_eq_some_iff.mp hk).1
    obtain ⟨m', e, he⟩ := hN ranges[k] (List.getElem_mem _) (sched.count k) (hs k hkl)
    have := (hp k ranges[k] (List.getElem?_eq_getElem hkl)).1
    rw [hk, he] at this
    simp at this
    exact ⟨e, this⟩
  · intro sched hmem
    obtain ⟨hl, hp⟩ := exec_projection L act zv ranges hc t0 m0 sched
    obtain ⟨k, hk⟩ := List.getElem?_of_mem hmem
    have hkl : k < ranges.length := by rw [← hl]; exact (List.getElem?_eq_some_iff.mp hk).1
    obtain ⟨n, m', he, _⟩ := hal ranges[k] (List.getElem_mem _)
    have := (hp k ranges[k] (List.getElem?_eq_getElem hkl)).1
    rw [hk] at this
    simp only [Option.some.injEq] at this
    exact alone_not_panicked he this.symm
  · intro sched hfin
    obtain ⟨hl, hp⟩ := exec_projection L act zv ranges hc t0 m0 sched
    have hfinal : ∀ k (hkl : k < ranges.length), ∃ m',
        alone M act zv ranges[k] (sched.count k) (m0, .run t0 0 0) = (m', .done (errOf (ends ranges[k]))) ∧
        (ends ranges[k] = .eoi → M.out m' = setMany (M.out m0) ranges[k].1 (outs ranges[k])) := by
      intro k hkl
      obtain ⟨n, m', he, ho⟩ := hal ranges[k] (List.getElem_mem _)
      have h1 := (hp k ranges[k] (List.getElem?_eq_getElem hkl)).1
      obtain ⟨e', he'⟩ := hfin _ (List.mem_of_getElem? h1)
      exact ⟨m', alone_done_unique he he', ho⟩
    refine ⟨?_, ?_⟩
    · apply List.ext_getElem?
      intro k
      by_cases hkl : k < ranges.length
      · obtain ⟨m', he, _⟩ := hfinal k hkl
        have h1 := (hp k ranges[k] (List.getElem?_eq_getElem hkl)).1
        rw [he] at h1
        simp only [Par.errs, List.getElem?_map, h1, List.getElem?_eq_getElem hkl, Option.map_some]
      · rw [List.getElem?_eq_none (by simp [Par.errs]; omega), List.getElem?_eq_none (by simp; omega)]
    · intro hall
      have := chain_concat (M.out (Par.exec M act zv ranges (Par.start t0 m0 ranges) sched).mem) hc outs (hlenout sched)
        (fun r hr => (hall r hr).2) ?_
      · simpa using this
      · intro r hr i h1 h2
        obtain ⟨k, hk⟩ := List.getElem?_of_mem hr
        obtain ⟨hkl, rfl⟩ := List.getElem?_eq_some_iff.mp hk
        obtain ⟨m', he, ho⟩ := hfinal k hkl
        have h3 := (hp k ranges[k] hk).2 i h1 h2
        have hb := hc.bounds k _ hk
        rw [h3.2, he]
        simp only
        rw [ho (hall _ hr).1, setMany_get _ _ _ _ (by omega), if_pos]
        have := (hall _ hr).2
        omega

/-! ### Instances -/

theorem sepMem_lawful (α β : Type) : Lawful (sepMem α β) false :=
  ⟨fun _ _ _ _ _ => rfl, fun _ _ _ _ _ => rfl, fun _ _ _ _ h => h, fun _ _ _ => rfl⟩

theorem oneMem_lawful (α : Type) : Lawful (oneMem α) true := by
  refine ⟨?_, by simp, ?_, fun _ _ _ => rfl⟩
  · intro m i b j h
    exact List.getElem?_set_ne (fun h' => h h'.symm)
  · intro m m' i b h
    simp only [oneMem] at h ⊢
    simp only [List.getElem?_set, if_true]
    have : i < m.length ↔ i < m'.length := by
      constructor
      · intro hl
        have := List.getElem?_eq_getElem hl
        rw [h] at this
        exact (List.getElem?_eq_some_iff.mp this).1
      · intro hl
        have := List.getElem?_eq_getElem hl
        rw [← h] at this
        exact (List.getElem?_eq_some_iff.mp this).1
    simp [this]

theorem mapAct_run (f : α → β) (ip : Bool) (xs : List α) (d : Nat) :
    SeqRun (mapAct f) ip .idle d xs (xs.map f) .eoi := by
  induction xs generalizing d with
  | nil => exact .readEnd rfl (.stop rfl)
  | cons x xs ih => exact .read rfl (.emit rfl (by simp) (ih _))

theorem mapErrAct_run (f : α → Except Err β) (ip : Bool) (xs : List α) (d : Nat) :
    SeqRun (mapErrAct f) ip .idle d xs (mapUntil f .eoi xs).1 (mapUntil f .eoi xs).2 := by
  induction xs generalizing d with
  | nil => exact .readEnd rfl (.stop rfl)
  | cons x xs ih =>
    simp only [mapUntil]
    cases hx : f x with
    | ok y => exact .read rfl (.emit (t' := .idle) (by simp [mapErrAct, hx]) (by simp) (ih _))
    | error e => exact .read rfl (.stop (by simp [mapErrAct, hx]))

theorem mapUntil_length (f : α → Except Err β) (e : Err) (xs : List α) :
    (mapUntil f e xs).1.length ≤ xs.length := by
  induction xs with
  | nil => simp [mapUntil]
  | cons x xs ih =>
    simp only [mapUntil]
    cases f x with
    | ok y => simp; exact ih
    | error e => simp

theorem filterAct_run (p : α → Bool) (ip : Bool) (xs : List α) (d : Nat) :
    SeqRun (filterAct p) ip .idle d xs (xs.filter p) .eoi := by
  induction xs generalizing d with
  | nil => exact .readEnd rfl (.stop rfl)
  | cons x xs ih =>
    by_cases hx : p x
    · rw [List.filter_cons_of_pos hx]
      exact .read (k := fun r => match r with | some a => if p a then .have_ a else .idle | none => .ended) rfl
        (by simp only [hx, if_true]; exact .emit rfl (by simp) (ih _))
    · rw [List.filter_cons_of_neg hx]
      exact .read (k := fun r => match r with | some a => if p a then .have_ a else .idle | none => .ended) rfl
        (by simp only [hx]; exact ih _)

/-- The machine as an iterating function has the same results as its sequential run. -/
theorem machine_yields {σ : Type} (act : τ → Act τ α β) {ip : Bool} {t : τ} {d : Nat} {xs : List α} {outs : List β}
    {e : Err} (h : SeqRun act ip t d xs outs e) (next : Call σ α) :
    ∀ s, YieldsForever next s xs .eoi → Yields (machineCall act next) (t, s) outs e := by
  induction h with
  | @stop t d xs e hs =>
    intro s _
    exact .stop (s' := (t, s)) (by simp only [machineCall]; rw [machineLoop]; simp only [hs])
  | @emit t d xs b t' outs e hs hd _ ih =>
    intro s hy
    exact .value (s' := (t', s)) (by simp only [machineCall]; rw [machineLoop]; simp only [hs]) (ih s hy)
  | @read t d k x xs outs e hs _ ih =>
    intro s hy
    obtain ⟨s', h1, h2⟩ := forever_cons hy
    have hstep : machineCall act next (t, s) = machineCall act next (k (some x), s') := by
      simp only [machineCall]; rw [machineLoop]; simp only [hs, h1]
    have := ih s' h2
    cases this with
    | stop h => exact .stop (hstep.trans h)
    | value h h' => exact .value (hstep.trans h) h'
  | @readEnd t d k outs e hs _ ih =>
    intro s hy
    obtain ⟨s', h1, h2⟩ := forever_nil hy
    have hstep : machineCall act next (t, s) = machineCall act next (k none, s') := by
      simp only [machineCall]; rw [machineLoop]; simp only [hs, h1]; simp
    have := ih s' h2
    cases this with
    | stop h => exact .stop (hstep.trans h)
    | value h h' => exact .value (hstep.trans h) h'

end Micro.Stream
