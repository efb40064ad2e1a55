import Verif.Stream.ParCrashModel
import Verif.Stream.ParExactProps
import Verif.Stream.CrashProps
set_option linter.unusedSimpArgs false
/-
C144: panics in the transforms of Parallel.
-/
namespace Micro.Stream.ParCrash
open Micro Micro.Iter Micro.Stream

variable {P σ τ α β μ : Type}

/-! ### Specification -/

/-- How a transform ends: with an error (EOI at the regular end), or with a panic. -/
inductive Fin (P : Type) where
  | ended (e : Err)
  | panicked (f : Fail P)

/-- Sequential meaning of a transform that may panic, as `SeqRun`: started in state t, with the elements xs still to be read, it produces outs and then
ends or panics. -/
inductive PSeqRun (act : τ → PAct P τ α β) (inplace : Bool) : τ → Nat → List α → List β → Fin P → Prop where
  | stop {t d xs e} : act t = .stop e → PSeqRun act inplace t d xs [] (.ended e)
  | panic {t d xs p t'} : act t = .panic p t' → PSeqRun act inplace t d xs [] (.panicked (.user p))
  | emit {t d xs b t' outs e} : act t = .emit b t' → (inplace = true → 0 < d) →
      PSeqRun act inplace t' (d - 1) xs outs e → PSeqRun act inplace t d xs (b :: outs) e
  | read {t d k x xs outs e} : act t = .read k → PSeqRun act inplace (k (some x)) (d + 1) xs outs e →
      PSeqRun act inplace t d (x :: xs) outs e
  | readEnd {t d k outs e} : act t = .read k → PSeqRun act inplace (k none) d [] outs e →
      PSeqRun act inplace t d [] outs e

/-- What happens to the thread that works on the range r if its transform gives these values and ends so: if there are more values than the range has
elements, storing the first one too many panics. -/
def fate (r : Nat × Nat) (x : List β × Fin P) : List β × Fin P :=
  if x.1.length ≤ r.2 - r.1 then x else (x.1.take (r.2 - r.1), .panicked .index)

/-- The panic, if it ends with one. -/
def Fin.fail : Fin P → Option (Fail P)
  | .ended _ => none
  | .panicked f => some f

/-- The error it leaves in `errs`: none at a regular end, and none after a panic. -/
def Fin.err : Fin P → Option Err
  | .ended e => errOf e
  | .panicked _ => none

/-! ### Simulation by a transform that does not end instead of panicking -/

/-- The transform that reads forever where `act` panics. -/
def spin (act : τ → PAct P τ α β) (t : τ) : Act τ α β :=
  match act t with
  | .read k => .read k
  | .emit b t' => .emit b t'
  | .stop e => .stop e
  | .panic _ _ => .read (fun _ => t)

/-- The final states of a thread: regular end, or panic. -/
def cls (act : τ → PAct P τ α β) : TS τ → Option (Except (Fail P) (Option Err))
  | .run t _ _ => match act t with | .panic p _ => some (.error (.user p)) | _ => none
  | .zeroing _ _ => none
  | .done e => some (.ok e)
  | .panicked => some (.error .index)

theorem cls_step (M : Mem μ α β) (act : τ → PAct P τ α β) (zv : β) (lo hi : Nat) (m : μ) (ts : TS τ) (c : Except (Fail P) (Option Err))
    (h : cls act ts = some c) :
    (stepThread M (spin act) zv lo hi m ts).1 = m ∧ cls act (stepThread M (spin act) zv lo hi m ts).2 = some c := by
  cases ts with
  | run t ri wi =>
    simp only [cls] at h
    cases ha : act t with
    | panic p t' =>
      rw [ha] at h
      have hs : spin act t = .read (fun _ => t) := by simp [spin, ha]
      simp only [stepThread, hs]
      split <;> simp_all [cls]
    | _ => rw [ha] at h; simp at h
  | zeroing e i => simp [cls] at h
  | done e => exact ⟨rfl, h⟩
  | panicked => exact ⟨rfl, h⟩

theorem alone_cls (M : Mem μ α β) (act : τ → PAct P τ α β) (zv : β) (r : Nat × Nat) (c0 : μ × TS τ) (c : Except (Fail P) (Option Err))
    (h : cls act c0.2 = some c) (n : Nat) :
    (alone M (spin act) zv r n c0).1 = c0.1 ∧ cls act (alone M (spin act) zv r n c0).2 = some c := by
  induction n with
  | zero => exact ⟨rfl, h⟩
  | succ n ih =>
    rw [alone]
    have := cls_step M act zv r.1 r.2 (alone M (spin act) zv r n c0).1 _ c ih.2
    exact ⟨this.1.trans ih.1, this.2⟩

theorem alone_cls_unique (M : Mem μ α β) (act : τ → PAct P τ α β) (zv : β) (r : Nat × Nat) (c0 : μ × TS τ) (c c' : Except (Fail P) (Option Err))
    (n k : Nat) (h : cls act (alone M (spin act) zv r n c0).2 = some c) (h' : cls act (alone M (spin act) zv r k c0).2 = some c') :
    (alone M (spin act) zv r n c0).1 = (alone M (spin act) zv r k c0).1 ∧ c = c' := by
  rcases Nat.le_total n k with hk | hk
  · obtain ⟨j, rfl⟩ := Nat.exists_eq_add_of_le hk
    rw [alone_add] at h' ⊢
    have := alone_cls M act zv r _ c h j
    rw [this.2] at h'
    exact ⟨this.1.symm, Option.some.inj h'⟩
  · obtain ⟨j, rfl⟩ := Nat.exists_eq_add_of_le hk
    rw [alone_add] at h ⊢
    have := alone_cls M act zv r _ c' h' j
    rw [this.2] at h
    exact ⟨this.1, (Option.some.inj h).symm⟩

/-- The thread of the program and the thread of the simulation. -/
def Rel (act : τ → PAct P τ α β) (tp : TP P τ) (ts : TS τ) : Prop :=
  match tp with
  | .run t ri wi => ts = .run t ri wi
  | .zeroing e i => ts = .zeroing e i
  | .done e => ts = .done e
  | .unwinding f => cls act ts = some (.error f)
  | .unwound f => cls act ts = some (.error f)

theorem rel_step (M : Mem μ α β) (act : τ → PAct P τ α β) (zv : β) (lo hi : Nat) (m : μ) (tp : TP P τ) (ts : TS τ) (h : Rel act tp ts) :
    (stepTP M act zv lo hi m tp).1 = (stepThread M (spin act) zv lo hi m ts).1 ∧
    Rel act (stepTP M act zv lo hi m tp).2 (stepThread M (spin act) zv lo hi m ts).2 := by
  cases tp with
  | run t ri wi =>
    simp only [Rel] at h; subst h
    cases ha : act t with
    | read k =>
      have hs : spin act t = .read k := by simp [spin, ha]
      simp only [stepTP, stepThread, ha, hs]
      split <;> simp [Rel]
    | emit b t' =>
      have hs : spin act t = .emit b t' := by simp [spin, ha]
      simp only [stepTP, stepThread, ha, hs]
      split <;> simp [Rel, cls]
    | stop e =>
      have hs : spin act t = .stop e := by simp [spin, ha]
      simp only [stepTP, stepThread, ha, hs]
      split <;> simp [Rel]
    | panic p t' =>
      have hs : spin act t = .read (fun _ => t) := by simp [spin, ha]
      simp only [stepTP, stepThread, ha, hs]
      split <;> simp [Rel, cls, ha]
  | zeroing e i =>
    simp only [Rel] at h; subst h
    simp only [stepTP, stepThread]
    split <;> simp [Rel]
  | done e =>
    simp only [Rel] at h; subst h
    simp [stepTP, stepThread, Rel]
  | unwinding f =>
    simp only [Rel] at h
    have := cls_step M act zv lo hi m ts _ h
    exact ⟨this.1.symm, this.2⟩
  | unwound f =>
    simp only [Rel] at h
    have := cls_step M act zv lo hi m ts _ h
    exact ⟨this.1.symm, this.2⟩

theorem step_dead (M : Mem μ α β) (act : τ → PAct P τ α β) (zv : β) (ranges : List (Nat × Nat)) (p : Prog P μ τ) (k : Nat) (f : Fail P)
    (h : p.dead = some f) : Prog.step M act zv ranges p k = p := by
  unfold Prog.step; rw [h]

theorem exec_snoc (M : Mem μ α β) (act : τ → PAct P τ α β) (zv : β) (ranges : List (Nat × Nat)) (p : Prog P μ τ) (sched : List Nat) (k : Nat) :
    Prog.exec M act zv ranges p (sched ++ [k]) = Prog.step M act zv ranges (Prog.exec M act zv ranges p sched) k := by
  simp [Prog.exec, List.foldl_append]

theorem exec_append (M : Mem μ α β) (act : τ → PAct P τ α β) (zv : β) (ranges : List (Nat × Nat)) (p : Prog P μ τ) (s1 s2 : List Nat) :
    Prog.exec M act zv ranges p (s1 ++ s2) = Prog.exec M act zv ranges (Prog.exec M act zv ranges p s1) s2 := by
  simp [Prog.exec, List.foldl_append]

theorem exec_dead (M : Mem μ α β) (act : τ → PAct P τ α β) (zv : β) (ranges : List (Nat × Nat)) (p : Prog P μ τ) (sched : List Nat) (f : Fail P)
    (h : p.dead = some f) : Prog.exec M act zv ranges p sched = p := by
  induction sched with
  | nil => rfl
  | cons k sched ih =>
    show Prog.exec M act zv ranges (Prog.step M act zv ranges p k) sched = p
    rw [step_dead _ _ _ _ _ _ f h]; exact ih

/-- As long as the program has not been terminated, it does what the simulation does. -/
theorem simulation (M : Mem μ α β) (act : τ → PAct P τ α β) (zv : β) (ranges : List (Nat × Nat)) (t0 : τ) (m0 : μ) (sched : List Nat) :
    let p : Prog P μ τ := Prog.exec M act zv ranges (Prog.start t0 m0 ranges) sched
    let q : Par μ τ := Par.exec M (spin act) zv ranges (Par.start t0 m0 ranges) sched
    p.threads.length = ranges.length ∧
    (p.dead = none → p.mem = q.mem ∧ ∀ (k : Nat) tp, p.threads[k]? = some tp → ∃ ts, q.threads[k]? = some ts ∧ Rel act tp ts) ∧
    ∀ f, p.dead = some f → ∃ (s1 s2 : List Nat) (k : Nat), sched = s1 ++ s2 ∧ (Prog.exec M act zv ranges (Prog.start t0 m0 ranges) s1).dead = none ∧
      (Prog.exec M act zv ranges (Prog.start t0 m0 ranges) s1).threads[k]? = some (TP.unwound f) := by
  intro p q
  induction sched using List.reverseRecOn with
  | nil =>
    refine ⟨by simp [p, Prog.exec, Prog.start], fun _ => ⟨rfl, fun k tp hk => ?_⟩, fun f hf => by simp [p, Prog.exec, Prog.start] at hf⟩
    simp only [p, q, Prog.exec, Prog.start, Par.exec, Par.start, List.foldl_nil, List.getElem?_map] at hk ⊢
    cases hr : ranges[k]? with
    | none => rw [hr] at hk; simp at hk
    | some r => rw [hr] at hk; simp at hk; subst hk; exact ⟨_, rfl, rfl⟩
  | append_singleton sched j ih =>
    simp only at ih
    obtain ⟨hl, halive, hdead⟩ := ih
    have hex : p = Prog.step M act zv ranges (Prog.exec M act zv ranges (Prog.start t0 m0 ranges) sched) j := exec_snoc ..
    have heq : q = Par.step M (spin act) zv ranges (Par.exec M (spin act) zv ranges (Par.start t0 m0 ranges) sched) j := by
      simp [q, Par.exec, List.foldl_append]
    generalize hp0 : Prog.exec M act zv ranges (Prog.start t0 m0 ranges) sched = p0 at hl halive hdead hex
    generalize Par.exec M (spin act) zv ranges (Par.start t0 m0 ranges) sched = q0 at halive heq
    clear_value p q
    cases hd : p0.dead with
    | some f =>
      rw [step_dead _ _ _ _ _ _ f hd] at hex
      subst hex
      refine ⟨hl, fun h => by simp [hd] at h, fun f' hf => ?_⟩
      obtain ⟨s1, s2, k, h1, h2, h3⟩ := hdead f' hf
      exact ⟨s1, s2 ++ [j], k, by simp [h1], h2, h3⟩
    | none =>
      obtain ⟨hm, ht⟩ := halive hd
      unfold Prog.step at hex
      unfold Par.step at heq
      rw [hd] at hex
      cases hj : ranges[j]? with
      | none =>
        rw [hj] at hex heq
        simp only at hex heq
        subst hex; subst heq
        exact ⟨hl, fun _ => ⟨hm, ht⟩, fun f hf => by simp [hd] at hf⟩
      | some r =>
        have hlt : j < p0.threads.length := by rw [hl]; exact (List.getElem?_eq_some_iff.mp hj).1
        have htj : p0.threads[j]? = some p0.threads[j] := List.getElem?_eq_getElem hlt
        obtain ⟨ts, hts, hrel⟩ := ht j _ htj
        rw [hj] at hex heq
        rw [htj] at hex
        rw [hts] at heq
        simp only at heq
        by_cases hu : ∃ f, p0.threads[j] = .unwound f
        · obtain ⟨f, hu⟩ := hu
          rw [hu] at hex
          simp only at hex
          subst hex
          refine ⟨hl, fun h => by simp at h, fun f' hf => ?_⟩
          simp only [Option.some.injEq] at hf; subst hf
          exact ⟨sched, [j], j, rfl, by rw [hp0]; exact hd, by rw [hp0, htj, hu]⟩
        · have hex' : p = ⟨(stepTP M act zv r.1 r.2 p0.mem p0.threads[j]).1,
              p0.threads.set j (stepTP M act zv r.1 r.2 p0.mem p0.threads[j]).2, none⟩ := by
            rw [hex]
            cases hx : p0.threads[j] with
            | unwound f => exact absurd ⟨f, hx⟩ hu
            | _ => rfl
          subst hex'
          subst heq
          obtain ⟨r1, r2⟩ := rel_step M act zv r.1 r.2 p0.mem _ ts hrel
          refine ⟨by simpa using hl, fun _ => ⟨by simp only; rw [r1, hm], fun k tp hk => ?_⟩, fun f hf => by simp at hf⟩
          simp only at hk ⊢
          by_cases hkj : k = j
          · subst hkj
            rw [List.getElem?_set_self hlt] at hk
            simp only [Option.some.injEq] at hk; subst hk
            refine ⟨_, List.getElem?_set_self (List.getElem?_eq_some_iff.mp hts).1, ?_⟩
            rw [← hm]; exact r2
          · rw [List.getElem?_set_ne (fun h => hkj h.symm)] at hk ⊢
            exact ht k tp hk

/-! ### The fate of a thread -/

/-- The state of the thread when the transform has just ended so. -/
def Fin.state (act : τ → PAct P τ α β) (e : Fin P) (ts : TS τ) : Prop :=
  match e with
  | .ended e => ts = if e = .eoi then .done none else .zeroing e 0
  | .panicked f => cls act ts = some (.error f)

theorem prun_alone {M : Mem μ α β} {ip : Bool} (L : Lawful M ip) (act : τ → PAct P τ α β) (zv : β) (r : Nat × Nat)
    {t : τ} {d : Nat} {xs : List α} {outs : List β} {e : Fin P} (h : PSeqRun act ip t d xs outs e) :
    ∀ (m : μ) (ri wi : Nat), (ip = true → wi + d = ri) → r.1 + ri + xs.length = r.2 → r.1 + wi ≤ r.2 →
      (∀ i (hi : i < xs.length), M.rd m (r.1 + ri + i) = some xs[i]) →
      ∃ n m' ts, alone M (spin act) zv r n (m, .run t ri wi) = (m', ts) ∧
        M.out m' = setMany (M.out m) (r.1 + wi) (outs.take (r.2 - (r.1 + wi))) ∧
        (r.1 + wi + outs.length ≤ r.2 → e.state act ts) ∧ (¬ r.1 + wi + outs.length ≤ r.2 → ts = .panicked) := by
  induction h with
  | @stop t d xs e hs =>
    intro m ri wi _ _ hw _
    have hs' : spin act t = .stop e := by simp [spin, hs]
    refine ⟨1, m, if e = .eoi then .done none else .zeroing e 0, ?_, by simp [setMany], fun _ => rfl, fun h => absurd hw h⟩
    simp only [alone, stepThread, hs']
    split <;> rfl
  | @panic t d xs p t' hs =>
    intro m ri wi _ _ hw _
    exact ⟨0, m, _, rfl, by simp [setMany], fun _ => by simp [Fin.state, cls, hs], fun h => absurd hw h⟩
  | @emit t d xs b t' outs e hs hd _ ih =>
    intro m ri wi hip hlen hw hrd
    have hs' : spin act t = .emit b t' := by simp [spin, hs]
    by_cases hlt : r.1 + wi < r.2
    · obtain ⟨n, m', ts, h1, h2, h3, h4⟩ := ih (M.wr m (r.1 + wi) b) ri (wi + 1)
        (by intro h; have := hip h; have := hd h; omega) hlen (by omega)
        (by
          intro i hi
          rw [← hrd i hi]
          cases ip with
          | false => exact L.rd_sep rfl _ _ _ _
          | true => have := hip rfl; have := hd rfl; exact L.rd_other _ _ _ _ (by omega))
      refine ⟨1 + n, m', ts, ?_, ?_, fun h => h3 (by simp only [List.length_cons] at h; omega),
        fun h => h4 (by simp only [List.length_cons] at h; omega)⟩
      · rw [alone_add]
        simp only [alone, stepThread, hs']
        rw [if_pos hlt]
        exact h1
      · rw [h2, L.out_wr, show r.2 - (r.1 + wi) = (r.2 - (r.1 + (wi + 1))) + 1 by omega, List.take_succ_cons, setMany]; rfl
    · refine ⟨1, m, .panicked, ?_, ?_, fun h => by simp only [List.length_cons] at h; omega, fun _ => rfl⟩
      · simp only [alone, stepThread, hs']
        rw [if_neg hlt]
      · rw [show r.2 - (r.1 + wi) = 0 by omega]; simp [setMany]
  | @read t d k x xs outs e hs _ ih =>
    intro m ri wi hip hlen hw hrd
    have hs' : spin act t = .read k := by simp [spin, hs]
    simp only [List.length_cons] at hlen
    obtain ⟨n, m', ts, h1, h2⟩ := ih m (ri + 1) wi (by intro h; have := hip h; omega) (by omega) hw
      (by
        intro i hi
        have := hrd (i + 1) (by simpa using hi)
        rw [show r.1 + (ri + 1) + i = r.1 + ri + (i + 1) by omega, this]; simp)
    refine ⟨1 + n, m', ts, ?_, h2⟩
    rw [alone_add]
    simp only [alone, stepThread, hs']
    rw [if_pos (by omega)]
    have := hrd 0 (by simp)
    simp only [Nat.add_zero, List.getElem_cons_zero] at this
    simp only [this]
    exact h1
  | @readEnd t d k outs e hs _ ih =>
    intro m ri wi hip hlen hw hrd
    have hs' : spin act t = .read k := by simp [spin, hs]
    obtain ⟨n, m', ts, h1, h2⟩ := ih m ri wi hip hlen hw hrd
    refine ⟨1 + n, m', ts, ?_, h2⟩
    rw [alone_add]
    simp only [List.length_nil] at hlen
    simp only [alone, stepThread, hs']
    rw [if_neg (by omega)]
    exact h1

/-- The final state that belongs to an end. -/
def Fin.cls : Fin P → Except (Fail P) (Option Err)
  | .ended e => .ok (errOf e)
  | .panicked f => .error f

/-- The thread of a range, alone, reaches its fate. -/
theorem fate_alone {M : Mem μ α β} {ip : Bool} (L : Lawful M ip) (act : τ → PAct P τ α β) (zv : β) (r : Nat × Nat) (hr : r.1 ≤ r.2)
    {t : τ} {xs : List α} {x : List β × Fin P} (h : PSeqRun act ip t 0 xs x.1 x.2) (m : μ)
    (hlen : xs.length = r.2 - r.1) (hrd : ∀ i (hi : i < xs.length), M.rd m (r.1 + i) = some xs[i]) :
    ∃ n, cls act (alone M (spin act) zv r n (m, .run t 0 0)).2 = some (fate r x).2.cls ∧
      ((fate r x).2.err = none → M.out (alone M (spin act) zv r n (m, .run t 0 0)).1 = setMany (M.out m) r.1 (fate r x).1) := by
  obtain ⟨n, m', ts, h1, h2, h3, h3'⟩ := prun_alone L act zv r h m 0 0 (by simp) (by omega) (by omega) (by simpa using hrd)
  simp only [Nat.add_zero] at h2 h3 h3'
  unfold fate
  by_cases hl : x.1.length ≤ r.2 - r.1
  · have h3 := h3 (by omega)
    rw [if_pos hl]
    rw [List.take_of_length_le (by omega)] at h2
    cases hx : x.2 with
    | panicked f =>
      rw [hx] at h3
      simp only [Fin.state] at h3
      exact ⟨n, by rw [h1]; exact h3, fun _ => by rw [h1]; exact h2⟩
    | ended e =>
      rw [hx] at h3
      simp only [Fin.state] at h3
      by_cases he : e = .eoi
      · rw [if_pos he] at h3
        subst h3
        refine ⟨n, by rw [h1]; simp [ParCrash.cls, Fin.cls, errOf, he], fun _ => by rw [h1]; exact h2⟩
      · rw [if_neg he] at h3
        subst h3
        obtain ⟨k, m'', h4⟩ := zeroing_alone M (spin act) zv r e (r.2 - r.1) 0 (by omega) m'
        refine ⟨n + k, by rw [alone_add, h1, h4]; simp [ParCrash.cls, Fin.cls, errOf, he], fun h => by simp [Fin.err, errOf, he] at h⟩
  · rw [if_neg hl]
    have h3 := h3' (by omega)
    subst h3
    exact ⟨n, by rw [h1]; rfl, fun _ => by rw [h1]; exact h2⟩

/-! ### All threads -/

/-- A thread that has left (or is about to) has met its fate; so has its part of the output. -/
theorem thread_fate {M : Mem μ α β} {ip : Bool} (L : Lawful M ip) (act : τ → PAct P τ α β) (zv : β) (t0 : τ) (m0 : μ)
    (input : List α) (ranges : List (Nat × Nat)) (hc : Chain 0 ranges input.length)
    (hrd : ∀ i (hi : i < input.length), M.rd m0 i = some input[i])
    (E : List α → List β × Fin P) (hE : ∀ r ∈ ranges, PSeqRun act ip t0 0 (slice input r) (E (slice input r)).1 (E (slice input r)).2)
    (sched : List Nat) (hd : (Prog.exec M act zv ranges (Prog.start t0 m0 ranges) sched).dead = none) (k : Nat) (r : Nat × Nat)
    (hk : ranges[k]? = some r) (tp : TP P τ)
    (htp : (Prog.exec M act zv ranges (Prog.start t0 m0 ranges) sched).threads[k]? = some tp) :
    (∀ e, tp = .done e → (fate r (E (slice input r))).2.cls = .ok e) ∧
    (∀ f, tp = .unwinding f ∨ tp = .unwound f → (fate r (E (slice input r))).2.cls = .error f) ∧
    (tp.left → (fate r (E (slice input r))).2.err = none → ∀ i, r.1 ≤ i → i < r.2 →
      (M.out (Prog.exec M act zv ranges (Prog.start t0 m0 ranges) sched).mem)[i]? =
        (setMany (M.out m0) r.1 (fate r (E (slice input r))).1)[i]?) := by
  obtain ⟨-, hal, -⟩ := simulation M act zv ranges t0 m0 sched
  obtain ⟨hm, ht⟩ := hal hd
  obtain ⟨ts, hts, hrel⟩ := ht k tp htp
  obtain ⟨hlq, hp⟩ := exec_projection L (spin act) zv ranges hc t0 m0 sched
  obtain ⟨h3, h4⟩ := hp k r hk
  rw [hts] at h3
  simp only [Option.some.injEq] at h3
  have hb := hc.bounds k r hk
  have hsl : (slice input r).length = r.2 - r.1 := by simp [slice]; omega
  obtain ⟨n, hn1, hn2⟩ := fate_alone L act zv r (by omega) (hE r (List.mem_of_getElem? hk)) m0 hsl (by
    intro i hi
    rw [hsl] at hi
    rw [hrd (r.1 + i) (by omega)]
    simp [slice])
  have key : ∀ c, cls act ts = some c → (fate r (E (slice input r))).2.cls = c ∧
      (alone M (spin act) zv r n (m0, .run t0 0 0)).1 = (alone M (spin act) zv r (sched.count k) (m0, .run t0 0 0)).1 := by
    intro c hcl
    rw [h3] at hcl
    obtain ⟨a, b⟩ := alone_cls_unique M act zv r _ _ _ _ _ hn1 hcl
    exact ⟨b, a⟩
  refine ⟨?_, ?_, ?_⟩
  · rintro e rfl
    simp only [Rel] at hrel
    exact (key _ (by rw [hrel]; rfl)).1
  · rintro f (rfl | rfl) <;> exact (key _ hrel).1
  · intro hleft herr i hi1 hi2
    have : ∃ c, cls act ts = some c := by
      cases tp with
      | done e => simp only [Rel] at hrel; exact ⟨_, by rw [hrel]; rfl⟩
      | unwound f => exact ⟨_, hrel⟩
      | _ => exact hleft.elim
    obtain ⟨c, hcl⟩ := this
    rw [hm, (h4 i hi1 hi2).2, ← (key c hcl).2, hn2 herr]

theorem Fin.err_of_cls {x : Fin P} {e : Option Err} (h : x.cls = .ok e) : x.err = e ∧ x.fail = none := by
  cases x with
  | ended e' => simp only [Fin.cls, Except.ok.injEq] at h; exact ⟨h, rfl⟩
  | panicked f => simp [Fin.cls] at h

theorem Fin.fail_of_cls {x : Fin P} {f : Fail P} (h : x.cls = .error f) : x.err = none ∧ x.fail = some f := by
  cases x with
  | ended e' => simp [Fin.cls] at h
  | panicked f' => simp only [Fin.cls, Except.error.injEq] at h; exact ⟨rfl, by rw [← h]; rfl⟩

theorem prog_out_length {M : Mem μ α β} {ip : Bool} (L : Lawful M ip) (act : τ → PAct P τ α β) (zv : β) (ranges : List (Nat × Nat)) (t0 : τ) (m0 : μ)
    (sched : List Nat) (hd : (Prog.exec M act zv ranges (Prog.start t0 m0 ranges) sched).dead = none) :
    (M.out (Prog.exec M act zv ranges (Prog.start t0 m0 ranges) sched).mem).length = (M.out m0).length := by
  rw [((simulation M act zv ranges t0 m0 sched).2.1 hd).1]
  exact exec_out_length L (spin act) zv ranges (Par.start t0 m0 ranges) sched

/-- The part of the output that belongs to a range: what was stored before the end or the panic, then what was there before. -/
def piece (out0 : List β) (E : List α → List β × Fin P) (xs : List α) (r : Nat × Nat) : List β :=
  (fate r (E (slice xs r))).1 ++ (slice out0 r).drop (fate r (E (slice xs r))).1.length

theorem firstErr_none {es : List (Option Err)} (h : firstErr es = none) : ∀ e ∈ es, e = none := by
  induction es with
  | nil => simp
  | cons e es ih =>
    cases e with
    | some e => simp [firstErr] at h
    | none => simp only [firstErr] at h; simpa using ih h

theorem fate_length (r : Nat × Nat) (x : List β × Fin P) : (fate r x).1.length ≤ r.2 - r.1 := by
  unfold fate
  split
  · assumption
  · simp

/-- What the caller of Parallel sees when `wg.Wait()` returns. -/
theorem prog_returns {M : Mem μ α β} {ip : Bool} (L : Lawful M ip) (act : τ → PAct P τ α β) (zv : β) (t0 : τ) (m0 : μ)
    (input : List α) (ranges : List (Nat × Nat)) (hc : Chain 0 ranges input.length)
    (hrd : ∀ i (hi : i < input.length), M.rd m0 i = some input[i]) (hol : (M.out m0).length = input.length)
    (E : List α → List β × Fin P) (hE : ∀ r ∈ ranges, PSeqRun act ip t0 0 (slice input r) (E (slice input r)).1 (E (slice input r)).2)
    (sched : List Nat) (hr : (Prog.exec M act zv ranges (Prog.start t0 m0 ranges) sched).returns) :
    (Prog.exec M act zv ranges (Prog.start t0 m0 ranges) sched).errs = ranges.map (fun r => (fate r (E (slice input r))).2.err) ∧
    (Prog.exec M act zv ranges (Prog.start t0 m0 ranges) sched).pending = ranges.filterMap (fun r => (fate r (E (slice input r))).2.fail) ∧
    (firstErr (ranges.map (fun r => (fate r (E (slice input r))).2.err)) = none →
      M.out (Prog.exec M act zv ranges (Prog.start t0 m0 ranges) sched).mem = (ranges.map (piece (M.out m0) E input)).flatten) := by
  obtain ⟨hd, hleft⟩ := hr
  have tf := thread_fate L act zv t0 m0 input ranges hc hrd E hE sched hd
  have hlo := prog_out_length L act zv ranges t0 m0 sched hd
  obtain ⟨hl, -, -⟩ := simulation M act zv ranges t0 m0 sched
  generalize Prog.exec M act zv ranges (Prog.start t0 m0 ranges) sched = p at *
  have pw : ∀ k (hk : k < ranges.length), ∃ tp, p.threads[k]? = some tp ∧
      tp.err = (fate ranges[k] (E (slice input ranges[k]))).2.err ∧
      tp.fail = (fate ranges[k] (E (slice input ranges[k]))).2.fail := by
    intro k hk
    have htp : p.threads[k]? = some (p.threads[k]'(by omega)) := List.getElem?_eq_getElem _
    refine ⟨_, htp, ?_⟩
    have h1 := tf k ranges[k] (List.getElem?_eq_getElem hk) _ htp
    have h2 := hleft _ (List.mem_of_getElem? htp)
    generalize p.threads[k]'(by omega) = tp at h1 h2 ⊢
    cases tp with
    | done e => have := Fin.err_of_cls (h1.1 e rfl); exact ⟨this.1.symm, this.2.symm⟩
    | unwound f => have := Fin.fail_of_cls (h1.2.1 f (.inr rfl)); exact ⟨this.1.symm, this.2.symm⟩
    | _ => exact h2.elim
  refine ⟨?_, ?_, ?_⟩
  · apply List.ext_getElem?
    intro k
    simp only [Prog.errs, List.getElem?_map]
    by_cases hk : k < ranges.length
    · obtain ⟨tp, h1, h2, -⟩ := pw k hk
      rw [h1, List.getElem?_eq_getElem hk]
      simp only [Option.map_some]
      rw [← h2]
    · rw [List.getElem?_eq_none (by omega), List.getElem?_eq_none (by omega)]; rfl
  · have hmap : p.threads.map TP.fail =
        ranges.map (fun r => (fate r (E (slice input r))).2.fail) := by
      apply List.ext_getElem?
      intro k
      simp only [List.getElem?_map]
      by_cases hk : k < ranges.length
      · obtain ⟨tp, h1, -, h2⟩ := pw k hk
        rw [h1, List.getElem?_eq_getElem hk]
        simp only [Option.map_some]
        rw [← h2]
      · rw [List.getElem?_eq_none (by omega), List.getElem?_eq_none (by omega)]; rfl
    have h1 : ∀ {γ δ : Type} (g : γ → Option δ) (l : List γ), l.filterMap g = (l.map g).filterMap id := by
      intro γ δ g l; rw [List.filterMap_map]; rfl
    rw [Prog.pending, h1, h1 _ ranges]
    exact congrArg _ hmap
  · intro hne
    have := chain_concat (M.out p.mem) hc (piece (M.out m0) E input) (by rw [hlo]; exact hol) ?_ ?_
    · simpa using this
    · intro r hr
      obtain ⟨k, hk⟩ := List.getElem?_of_mem hr
      have hb := hc.bounds k r hk
      have := fate_length r (E (slice input r))
      have hsl : (slice (M.out m0) r).length = r.2 - r.1 := by simp [slice]; omega
      rw [piece, List.length_append, List.length_drop, hsl]; omega
    · intro r hr i h1 h2
      obtain ⟨k, hk⟩ := List.getElem?_of_mem hr
      have hkl := (List.getElem?_eq_some_iff.mp hk).1
      obtain ⟨tp, htp, -, -⟩ := pw k hkl
      have hb := hc.bounds k _ hk
      have hfl := fate_length r (E (slice input r))
      have herr := firstErr_none hne _ (List.mem_map.mpr ⟨r, hr, rfl⟩)
      rw [(tf k r hk tp htp).2.2 (hleft _ (List.mem_of_getElem? htp)) herr i h1 h2, setMany_get _ _ _ _ (by omega)]
      unfold piece
      generalize (fate r (E (slice input r))).1 = l at hfl ⊢
      by_cases hi : i < r.1 + l.length
      · rw [if_pos ⟨h1, hi⟩, List.getElem?_append_left (by omega)]
      · rw [if_neg (by omega), List.getElem?_append_right (by omega), List.getElem?_drop]
        simp only [slice]
        rw [List.getElem?_take_of_lt (by omega), List.getElem?_drop]
        congr 1; omega

/-- Who terminates the program. -/
theorem prog_dead {M : Mem μ α β} {ip : Bool} (L : Lawful M ip) (act : τ → PAct P τ α β) (zv : β) (t0 : τ) (m0 : μ)
    (input : List α) (ranges : List (Nat × Nat)) (hc : Chain 0 ranges input.length)
    (hrd : ∀ i (hi : i < input.length), M.rd m0 i = some input[i])
    (E : List α → List β × Fin P) (hE : ∀ r ∈ ranges, PSeqRun act ip t0 0 (slice input r) (E (slice input r)).1 (E (slice input r)).2)
    (sched : List Nat) (f : Fail P) (hr : (Prog.exec M act zv ranges (Prog.start t0 m0 ranges) sched).dead = some f) :
    f ∈ ranges.filterMap (fun r => (fate r (E (slice input r))).2.fail) := by
  obtain ⟨-, -, hd⟩ := simulation M act zv ranges t0 m0 sched
  obtain ⟨s1, s2, k, -, h2, h3⟩ := hd f hr
  have hl := (simulation M act zv ranges t0 m0 s1).1
  have hk : k < ranges.length := by rw [← hl]; exact (List.getElem?_eq_some_iff.mp h3).1
  have := (thread_fate L act zv t0 m0 input ranges hc hrd E hE s1 h2 k ranges[k] (List.getElem?_eq_getElem hk) _ h3).2.1 f (.inr rfl)
  exact List.mem_filterMap.mpr ⟨ranges[k], List.getElem_mem hk, (Fin.fail_of_cls this).2⟩

theorem step_alive (M : Mem μ α β) (act : τ → PAct P τ α β) (zv : β) (ranges : List (Nat × Nat)) (p : Prog P μ τ) (k : Nat) (r : Nat × Nat)
    (tp : TP P τ) (hd : p.dead = none) (hr : ranges[k]? = some r) (ht : p.threads[k]? = some tp) (hu : tp.fail = none) :
    Prog.step M act zv ranges p k = ⟨(stepTP M act zv r.1 r.2 p.mem tp).1, p.threads.set k (stepTP M act zv r.1 r.2 p.mem tp).2, none⟩ := by
  unfold Prog.step
  rw [hd, hr, ht]
  cases tp with
  | unwound f => simp [TP.fail] at hu
  | _ => rfl

theorem step_unwound (M : Mem μ α β) (act : τ → PAct P τ α β) (zv : β) (ranges : List (Nat × Nat)) (p : Prog P μ τ) (k : Nat) (r : Nat × Nat)
    (f : Fail P) (hd : p.dead = none) (hr : ranges[k]? = some r) (ht : p.threads[k]? = some (.unwound f)) :
    (Prog.step M act zv ranges p k).dead = some f := by
  unfold Prog.step
  rw [hd, hr, ht]

theorem step_unwinding (M : Mem μ α β) (act : τ → PAct P τ α β) (zv : β) (ranges : List (Nat × Nat)) (p : Prog P μ τ) (k : Nat) (r : Nat × Nat)
    (f : Fail P) (hd : p.dead = none) (hr : ranges[k]? = some r) (ht : p.threads[k]? = some (.unwinding f)) :
    (Prog.exec M act zv ranges p [k, k]).dead = some f := by
  show (Prog.step M act zv ranges (Prog.step M act zv ranges p k) k).dead = some f
  have hk := (List.getElem?_eq_some_iff.mp ht).1
  rw [step_alive M act zv ranges p k r _ hd hr ht rfl]
  exact step_unwound M act zv ranges _ k r f rfl hr (by simp [stepTP, hk])

/-- A thread whose fate is a panic terminates the program if it is given enough steps, whatever has happened before. -/
theorem prog_dies {M : Mem μ α β} {ip : Bool} (L : Lawful M ip) (act : τ → PAct P τ α β) (zv : β) (t0 : τ) (m0 : μ)
    (input : List α) (ranges : List (Nat × Nat)) (hc : Chain 0 ranges input.length)
    (hrd : ∀ i (hi : i < input.length), M.rd m0 i = some input[i])
    (E : List α → List β × Fin P) (hE : ∀ r ∈ ranges, PSeqRun act ip t0 0 (slice input r) (E (slice input r)).1 (E (slice input r)).2)
    (k : Nat) (r : Nat × Nat) (hk : ranges[k]? = some r) (f : Fail P) (hf : (fate r (E (slice input r))).2.fail = some f) :
    ∃ n, ∀ sched, n ≤ sched.count k → (Prog.exec M act zv ranges (Prog.start t0 m0 ranges) sched).dead ≠ none := by
  have hb := hc.bounds k r hk
  have hsl : (slice input r).length = r.2 - r.1 := by simp [slice]; omega
  obtain ⟨n, hn1, -⟩ := fate_alone L act zv r (by omega) (hE r (List.mem_of_getElem? hk)) m0 hsl (by
    intro i hi
    rw [hsl] at hi
    rw [hrd (r.1 + i) (by omega)]
    simp [slice])
  have hcl : (fate r (E (slice input r))).2.cls = .error f := by
    cases hx : (fate r (E (slice input r))).2 with
    | ended e => rw [hx] at hf; simp [Fin.fail] at hf
    | panicked f' => rw [hx] at hf; simp only [Fin.fail, Option.some.injEq] at hf; rw [hf]; rfl
  rw [hcl] at hn1
  -- a rank that grows with every step of thread k once it is in its final state
  have hrank : ∀ (sched : List Nat) (j : Nat), n + j ≤ sched.count k → j ≤ 3 →
      (Prog.exec M act zv ranges (Prog.start t0 m0 ranges) sched).dead = none →
      ∃ tp, (Prog.exec M act zv ranges (Prog.start t0 m0 ranges) sched).threads[k]? = some tp ∧
        (j = 0 ∨ (j = 1 ∧ ((∃ g, tp = .unwinding g) ∨ ∃ g, tp = .unwound g)) ∨ (j = 2 ∧ ∃ g, tp = .unwound g)) := by
    intro sched
    induction sched using List.reverseRecOn with
    | nil =>
      intro j hj _ _
      have hl := (simulation M act zv ranges t0 m0 []).1
      have hk' := (List.getElem?_eq_some_iff.mp hk).1
      simp only [List.count_nil] at hj
      exact ⟨_, List.getElem?_eq_getElem (by rw [hl]; exact hk'), .inl (by omega)⟩
    | append_singleton sched i ih =>
      intro j hj hj3 hd
      have hl := (simulation M act zv ranges t0 m0 (sched ++ [i])).1
      have hk' := (List.getElem?_eq_some_iff.mp hk).1
      by_cases h0 : j = 0
      · exact ⟨_, List.getElem?_eq_getElem (by rw [hl]; exact hk'), .inl h0⟩
      rw [exec_snoc] at hd ⊢
      have hd0 : (Prog.exec M act zv ranges (Prog.start t0 m0 ranges) sched).dead = none := by
        by_contra hne
        obtain ⟨g, hg⟩ := Option.ne_none_iff_exists'.mp hne
        rw [step_dead _ _ _ _ _ _ g hg] at hd
        exact hne hd
      by_cases hik : i = k
      · subst hik
        have hcnt : n + (j - 1) ≤ sched.count i := by simp at hj; omega
        obtain ⟨tp, h1, h2⟩ := ih (j - 1) hcnt (by omega) hd0
        have hlen := (List.getElem?_eq_some_iff.mp h1).1
        have hnu : ∀ g, tp ≠ .unwound g := by
          rintro g rfl
          rw [step_unwound M act zv ranges _ i r g hd0 hk h1] at hd
          simp at hd
        have hfail : tp.fail = none := by
          cases tp with
          | unwound g => exact absurd rfl (hnu g)
          | _ => rfl
        rw [step_alive M act zv ranges _ i r tp hd0 hk h1 hfail]
        refine ⟨_, List.getElem?_set_self hlen, ?_⟩
        rcases h2 with h2 | ⟨h2, h3 | ⟨g, h3⟩⟩ | ⟨h2, g, h3⟩
        · -- the thread is in its final state
          have hj1 : j = 1 := by omega
          subst hj1
          obtain ⟨-, hal, -⟩ := simulation M act zv ranges t0 m0 sched
          obtain ⟨ts, hts, hrel⟩ := (hal hd0).2 i tp h1
          obtain ⟨-, hp⟩ := exec_projection L (spin act) zv ranges hc t0 m0 sched
          have h5 := (hp i r hk).1
          rw [hts] at h5
          simp only [Option.some.injEq] at h5
          have h6 : cls act ts = some (.error f) := by
            rw [h5, show sched.count i = n + (sched.count i - n) by omega, alone_add]
            exact (alone_cls M act zv r _ _ hn1 _).2
          right; left
          refine ⟨rfl, ?_⟩
          cases tp with
          | run t ri wi =>
            simp only [Rel] at hrel
            rw [hrel] at h6
            simp only [cls] at h6
            cases ha : act t with
            | panic q t' => left; exact ⟨.user q, by simp [stepTP, ha]⟩
            | _ => rw [ha] at h6; simp at h6
          | zeroing e x => simp only [Rel] at hrel; rw [hrel] at h6; simp [cls] at h6
          | done e => simp only [Rel] at hrel; rw [hrel] at h6; simp [cls] at h6
          | unwinding g => right; exact ⟨g, rfl⟩
          | unwound g => exact absurd rfl (hnu g)
        · obtain ⟨g, rfl⟩ := h3
          right; right
          exact ⟨by omega, g, rfl⟩
        · exact absurd h3 (hnu g)
        · exact absurd h3 (hnu g)
      · have hcnt : n + j ≤ sched.count k := by
          rw [List.count_append, List.count_singleton] at hj; simpa [hik] using hj
        obtain ⟨tp, h1, h2⟩ := ih j hcnt hj3 hd0
        refine ⟨tp, ?_, h2⟩
        cases hi : ranges[i]? with
        | none => unfold Prog.step; rw [hd0, hi]; exact h1
        | some q =>
          have hli : i < (Prog.exec M act zv ranges (Prog.start t0 m0 ranges) sched).threads.length := by
            rw [(simulation M act zv ranges t0 m0 sched).1]; exact (List.getElem?_eq_some_iff.mp hi).1
          have hti := List.getElem?_eq_getElem hli
          cases hfl : (Prog.exec M act zv ranges (Prog.start t0 m0 ranges) sched).threads[i].fail with
          | none =>
            rw [step_alive M act zv ranges _ i q _ hd0 hi hti hfl]
            simp only
            rw [List.getElem?_set_ne hik]; exact h1
          | some g =>
            have : (Prog.exec M act zv ranges (Prog.start t0 m0 ranges) sched).threads[i] = .unwound g := by
              revert hfl
              generalize (Prog.exec M act zv ranges (Prog.start t0 m0 ranges) sched).threads[i] = tq
              cases tq with
              | unwound g' => intro h; simp only [TP.fail, Option.some.injEq] at h; rw [h]
              | _ => intro h; simp [TP.fail] at h
            rw [this] at hti
            rw [step_unwound M act zv ranges _ i q g hd0 hi hti] at hd
            simp at hd
  refine ⟨n + 3, fun sched hs hd => ?_⟩
  obtain ⟨tp, -, h⟩ := hrank sched 3 hs (le_refl _) hd
  omega

/-! ### The source -/

theorem collect_ok (nx : Crash.PCall P σ α) (s s' : σ) (gs : List (Except P α)) (e : Err) (h : Crash.Ends nx s gs e s') :
    ∀ (xs : List α), gs = xs.map .ok → ∀ acc, Crash.foldP nx (fun slc v h => (.ok (slc ++ [v]), h)) acc s =
      if e = .eoi then some (.val (acc ++ xs), s') else some (.err e, s') := by
  induction h with
  | stop hn =>
    intro xs hx acc
    have : xs = [] := by simpa using hx.symm
    subst this
    rw [Crash.foldP, hn]; simp
  | @val s s1 s' v gs e hn _ ih =>
    intro xs hx acc
    cases xs with
    | nil => simp at hx
    | cons x xs =>
      simp only [List.map_cons, List.cons.injEq, Except.ok.injEq] at hx
      obtain ⟨rfl, hx⟩ := hx
      rw [Crash.foldP, hn]
      simp only
      rw [ih xs hx]; simp
  | panic hn _ ih =>
    intro xs hx
    cases xs <;> simp at hx

theorem collect_panic (nx : Crash.PCall P σ α) (s s' : σ) (gs : List (Except P α)) (e : Err) (h : Crash.Ends nx s gs e s') :
    ∀ (xs : List α) (p : P) (gs' : List (Except P α)), gs = xs.map .ok ++ .error p :: gs' →
      ∀ acc, ∃ s1, Crash.Ends nx s1 gs' e s' ∧ Crash.foldP nx (fun slc v h => (.ok (slc ++ [v]), h)) acc s = some (.panic p, s1) := by
  induction h with
  | stop hn => intro xs p gs' hx; simp at hx
  | @val s s1 s' v gs e hn _ ih =>
    intro xs p gs' hx acc
    cases xs with
    | nil => simp at hx
    | cons x xs =>
      simp only [List.map_cons, List.cons_append, List.cons.injEq, Except.ok.injEq] at hx
      obtain ⟨rfl, hx⟩ := hx
      rw [Crash.foldP, hn]
      simp only
      exact ih xs p gs' hx _
  | @panic s s1 s' q gs e hn hE ih =>
    intro xs p gs' hx acc
    cases xs with
    | cons x xs => simp at hx
    | nil =>
      simp only [List.map_nil, List.nil_append, List.cons.injEq, Except.error.injEq] at hx
      obtain ⟨rfl, rfl⟩ := hx
      exact ⟨s1, hE, by rw [Crash.foldP, hn]⟩

theorem first_ok (nx : Crash.PCall P σ α) (s s' : σ) (xs : List α) (e : Err) (h : Crash.Ends nx s (xs.map .ok) e s') :
    Crash.nextP (Crash.reduceToSliceP nx) (ofIter false, s) =
      if e = .eoi then some (.val xs, (ofIter true, s')) else some (.err e, (Crash.stopped e, s')) := by
  have := collect_ok nx s s' _ e h xs rfl []
  simp only [Crash.nextP, ofIter, List.getLast?_nil, Crash.reduceToSliceP, Bool.false_eq_true, if_false, this]
  by_cases he : e = .eoi <;> simp [he, Crash.nowDone, Crash.stopped]

theorem first_panic (nx : Crash.PCall P σ α) (s s' : σ) (xs : List α) (p : P) (gs : List (Except P α)) (e : Err)
    (h : Crash.Ends nx s (xs.map .ok ++ .error p :: gs) e s') :
    ∃ s1, Crash.Ends nx s1 gs e s' ∧ Crash.nextP (Crash.reduceToSliceP nx) (ofIter false, s) = some (.panic p, (ofIter true, s1)) := by
  obtain ⟨s1, h1, h2⟩ := collect_panic nx s s' _ e h xs p gs rfl []
  refine ⟨s1, h1, ?_⟩
  simp only [Crash.nextP, ofIter, List.getLast?_nil, Crash.reduceToSliceP, Bool.false_eq_true, if_false, h2, Crash.nowDone]

/-! ### C144 -/

/-- The fates of the threads that work on the elements xs. -/
def fates (E : List α → List β × Fin P) (xs : List α) (info : Option PInfo) : List (List β × Fin P) :=
  (generateRanges xs.length info).map (fun r => fate r (E (slice xs r)))

/-- C144, exactly: two or more elements, a transform that gives `(E xs).1` for the elements xs and then ends or panics as `(E xs).2` says. Whatever the
schedule, either the program is terminated by the panic of one of the threads, or Parallel returns and the panics of all threads that have one are
about to terminate the program. If it returns, the result is what it would be if the panicking transforms had just ended. -/
theorem c144_exact {M : Mem μ α β} {mem : List α → μ} {ip : Bool} (S : Setup M mem ip) (act : τ → PAct P τ α β) (t0 : τ) (zv : β)
    (E : List α → List β × Fin P) (hE : ∀ xs, PSeqRun act ip t0 0 xs (E xs).1 (E xs).2) (info : Option PInfo)
    (nx : Crash.PCall P σ α) (s s' : σ) (xs : List α) (h : Crash.Ends nx s (xs.map .ok) .eoi s') (h2 : 2 ≤ xs.length)
    (o : Outcome P α β) (ho : Parallel M mem act t0 zv info nx s o) :
    (∃ f ∈ (fates E xs info).filterMap (·.2.fail), o = .died f) ∨
    o = .returned
      (match firstErr ((fates E xs info).map (·.2.err)) with
        | none => .ok ((generateRanges xs.length info).map (piece (M.out (mem xs)) E xs)).flatten
        | some e => .error e)
      ((fates E xs info).filterMap (·.2.fail)) := by
  have hst := first_ok nx s s' xs .eoi h
  simp only [if_true] at hst
  have hc := c41_partition xs.length (by omega) info
  simp only [fates, List.filterMap_map, List.map_map, Function.comp_def]
  cases ho with
  | sourcePanic hn => rw [hst] at hn; simp at hn
  | sourceError hn => rw [hst] at hn; simp at hn
  | empty hn => rw [hst] at hn; simp at hn; rw [hn.1] at h2; simp at h2
  | one hn => rw [hst] at hn; simp at hn; rw [hn.1] at h2; simp at h2
  | many sched p hn hn2 hp hret =>
    rw [hst] at hn
    simp only [Option.some.injEq, Prod.mk.injEq, Crash.Got.val.injEq] at hn
    obtain ⟨rfl, -⟩ := hn
    subst hp
    obtain ⟨r1, r2, r3⟩ := prog_returns S.lawful act zv t0 (mem xs) xs _ hc (S.rd xs) (S.out xs) E (fun r _ => hE _) sched hret
    right
    rw [r1, r2]
    cases hfe : firstErr ((generateRanges xs.length info).map (fun r => (fate r (E (slice xs r))).2.err)) with
    | none => simp only; rw [r3 hfe]
    | some e => simp only
  | killed sched p f hn hn2 hp hdead =>
    rw [hst] at hn
    simp only [Option.some.injEq, Prod.mk.injEq, Crash.Got.val.injEq] at hn
    obtain ⟨rfl, -⟩ := hn
    subst hp
    left
    exact ⟨f, prog_dead S.lawful act zv t0 (mem xs) xs _ hc (S.rd xs) E (fun r _ => hE _) sched f hdead, rfl⟩

/-- Map(f) one after the other: the values up to the first panic of f. -/
def mapE (f : α → Except P β) : List α → List β × Fin P
  | [] => ([], .ended .eoi)
  | x :: xs =>
    match f x with
    | .ok b => (b :: (mapE f xs).1, (mapE f xs).2)
    | .error p => ([], .panicked (.user p))

theorem mapPAct_run (f : α → Except P β) (ip : Bool) (xs : List α) (d : Nat) :
    PSeqRun (mapPAct f) ip .idle d xs (mapE f xs).1 (mapE f xs).2 := by
  induction xs generalizing d with
  | nil => exact .readEnd rfl (.stop rfl)
  | cons x xs ih =>
    unfold mapE
    cases hf : f x with
    | ok b => exact .read rfl (.emit (by simp [mapPAct, hf]) (by simp) (ih _))
    | error p => exact .read rfl (.panic (p := p) (t' := .idle) (by simp [mapPAct, hf]))

theorem mapE_length (f : α → Except P β) (xs : List α) : (mapE f xs).1.length ≤ xs.length := by
  induction xs with
  | nil => simp [mapE]
  | cons x xs ih =>
    unfold mapE
    cases f x with
    | ok b => simpa using ih
    | error p => simp

theorem mapE_fail (f : α → Except P β) (xs : List α) :
    ((mapE f xs).2 = .ended .eoi ∧ xs.map f = (mapE f xs).1.map .ok) ∨ ∃ p x, x ∈ xs ∧ f x = .error p ∧ (mapE f xs).2 = .panicked (.user p) := by
  induction xs with
  | nil => left; simp [mapE]
  | cons x xs ih =>
    unfold mapE
    cases hf : f x with
    | error p => right; exact ⟨p, x, by simp, hf, rfl⟩
    | ok b =>
      rcases ih with ⟨h1, h2⟩ | ⟨p, y, hy, h1, h2⟩
      · left; exact ⟨h1, by simp [hf, h2]⟩
      · right; exact ⟨p, y, by simp [hy], h1, h2⟩

/-- C144: if no transform panics (and none gives more values than its range has elements), no schedule terminates the program and nothing is pending:
Parallel returns, and what it returns is determined. -/
theorem c144_partial {M : Mem μ α β} {mem : List α → μ} {ip : Bool} (S : Setup M mem ip) (act : τ → PAct P τ α β) (t0 : τ) (zv : β)
    (E : List α → List β × Fin P) (hE : ∀ xs, PSeqRun act ip t0 0 xs (E xs).1 (E xs).2) (info : Option PInfo)
    (nx : Crash.PCall P σ α) (s s' : σ) (xs : List α) (h : Crash.Ends nx s (xs.map .ok) .eoi s') (h2 : 2 ≤ xs.length)
    (hno : ∀ x ∈ fates E xs info, ∃ e, x.2 = .ended e)
    (o : Outcome P α β) (ho : Parallel M mem act t0 zv info nx s o) :
    ∃ r, o = .returned r [] := by
  have hnil : (fates E xs info).filterMap (·.2.fail) = [] := by
    rw [List.filterMap_eq_nil_iff]
    intro x hx
    obtain ⟨e, he⟩ := hno x hx
    rw [he]; rfl
  rcases c144_exact S act t0 zv E hE info nx s s' xs h h2 o ho with ⟨f, hf, -⟩ | h3
  · rw [hnil] at hf; simp at hf
  · rw [hnil] at h3; exact ⟨_, h3⟩

/-- C144: if one of the threads panics, no recovery is possible: every outcome is the end of the program, or is followed by it, and every schedule that
gives all threads enough steps terminates the program with the panic of one of the threads. -/
theorem c144_fatal {M : Mem μ α β} {mem : List α → μ} {ip : Bool} (S : Setup M mem ip) (act : τ → PAct P τ α β) (t0 : τ) (zv : β)
    (E : List α → List β × Fin P) (hE : ∀ xs, PSeqRun act ip t0 0 xs (E xs).1 (E xs).2) (info : Option PInfo)
    (xs : List α) (h2 : 2 ≤ xs.length) (x : List β × Fin P) (hx : x ∈ fates E xs info) (f : Fail P) (hf : x.2 = .panicked f) :
    (∀ (nx : Crash.PCall P σ α) (s s' : σ), Crash.Ends nx s (xs.map .ok) .eoi s' → ∀ o, Parallel M mem act t0 zv info nx s o →
      (∃ g, o = .died g) ∨ ∃ r dying, dying ≠ [] ∧ o = .returned r dying) ∧
    ∃ n, ∀ sched, (∀ k < (generateRanges xs.length info).length, n ≤ sched.count k) →
      ∃ g ∈ (fates E xs info).filterMap (·.2.fail), (Prog.exec M act zv (generateRanges xs.length info)
        (Prog.start t0 (mem xs) (generateRanges xs.length info)) sched).dead = some g := by
  have hmem : f ∈ (fates E xs info).filterMap (·.2.fail) := List.mem_filterMap.mpr ⟨x, hx, by rw [hf]; rfl⟩
  constructor
  · intro nx s s' h o ho
    rcases c144_exact S act t0 zv E hE info nx s s' xs h h2 o ho with ⟨g, -, hg⟩ | h3
    · exact .inl ⟨g, hg⟩
    · exact .inr ⟨_, _, List.ne_nil_of_mem hmem, h3⟩
  · have hc := c41_partition xs.length (by omega) info
    simp only [fates, List.mem_map] at hx
    obtain ⟨r, hr, rfl⟩ := hx
    obtain ⟨k, hk⟩ := List.getElem?_of_mem hr
    obtain ⟨n, hn⟩ := prog_dies S.lawful act zv t0 (mem xs) xs _ hc (S.rd xs) E (fun r _ => hE _) k r hk f (by rw [hf]; rfl)
    refine ⟨n, fun sched hs => ?_⟩
    obtain ⟨g, hg⟩ := Option.ne_none_iff_exists'.mp (hn sched (hs k (List.getElem?_eq_some_iff.mp hk).1))
    refine ⟨g, ?_, hg⟩
    have := prog_dead S.lawful act zv t0 (mem xs) xs _ hc (S.rd xs) E (fun r _ => hE _) sched g hg
    simpa only [fates, List.filterMap_map, Function.comp_def] using this

theorem fate_mapE (f : α → Except P β) (xs : List α) (r : Nat × Nat) (hb : r.2 ≤ xs.length) :
    fate r (mapE f (slice xs r)) = mapE f (slice xs r) := by
  unfold fate
  rw [if_pos]
  have := mapE_length f (slice xs r)
  simp only [slice, List.length_take, List.length_drop] at this ⊢
  omega

/-- C144 for Map(f) over two or more elements: if f panics on none of them, Parallel returns; if it panics on one of them, the program is terminated
whenever the threads are given enough steps. -/
theorem c144_map {M : Mem μ α β} {mem : List α → μ} {ip : Bool} (S : Setup M mem ip) (f : α → Except P β) (zv : β) (info : Option PInfo)
    (nx : Crash.PCall P σ α) (s s' : σ) (xs : List α) (h : Crash.Ends nx s (xs.map .ok) .eoi s') (h2 : 2 ≤ xs.length) :
    ((∀ ys, xs.map f = ys.map .ok → ∀ o, Parallel M mem (mapPAct f) .idle zv info nx s o → o = .returned (.ok ys) [])) ∧
    ((∃ x ∈ xs, ∃ p, f x = .error p) → ∃ n, ∀ sched, (∀ k < (generateRanges xs.length info).length, n ≤ sched.count k) →
      ∃ x ∈ xs, ∃ p, f x = .error p ∧ (Prog.exec M (mapPAct f) zv (generateRanges xs.length info)
        (Prog.start .idle (mem xs) (generateRanges xs.length info)) sched).dead = some (.user p)) := by
  have hc := c41_partition xs.length (by omega) info
  have hrun : ∀ ys, PSeqRun (mapPAct f) ip .idle 0 ys (mapE f ys).1 (mapE f ys).2 := fun ys => mapPAct_run f ip ys 0
  have hb : ∀ r ∈ generateRanges xs.length info, r.1 ≤ r.2 ∧ r.2 ≤ xs.length := by
    intro r hr
    obtain ⟨k, hk⟩ := List.getElem?_of_mem hr
    have := hc.bounds k r hk
    omega
  constructor
  · intro ys hys o ho
    have hok : ∀ r ∈ generateRanges xs.length info, fate r (mapE f (slice xs r)) = (slice ys r, .ended .eoi) := by
      intro r hr
      rw [fate_mapE f xs r (hb r hr).2]
      have hsl : (slice xs r).map f = (slice ys r).map .ok := by
        simp only [slice, List.map_take, List.map_drop, hys]
      rcases mapE_fail f (slice xs r) with ⟨h1, h3⟩ | ⟨p, x, hx, h1, -⟩
      · rw [hsl] at h3
        have := (List.map_inj_right (f := (Except.ok : β → Except P β)) (fun a b h => by simpa using h)).mp h3
        exact Prod.ext this.symm h1
      · exfalso
        have hm : f x ∈ (slice xs r).map f := List.mem_map.mpr ⟨x, hx, rfl⟩
        rw [hsl, h1] at hm
        simp at hm
    have hfates : fates (mapE f) xs info = (generateRanges xs.length info).map (fun r => (slice ys r, .ended .eoi)) :=
      List.map_congr_left hok
    have hyl : ys.length = xs.length := by simpa using (congrArg List.length hys).symm
    rcases c144_exact S (mapPAct f) .idle zv (mapE f) hrun info nx s s' xs h h2 o ho with ⟨g, hg, -⟩ | h3
    · rw [hfates] at hg
      simp [Fin.fail] at hg
    · rw [h3, hfates]
      have e1 : firstErr (((generateRanges xs.length info).map (fun r => (slice ys r, (Fin.ended .eoi : Fin P)))).map (·.2.err)) = none := by
        rw [List.map_map]
        generalize generateRanges xs.length info = l
        induction l with
        | nil => rfl
        | cons a l ih => simpa [firstErr, Fin.err, errOf] using ih
      have e2 : ((generateRanges xs.length info).map (fun r => (slice ys r, (Fin.ended .eoi : Fin P)))).filterMap (·.2.fail) = [] := by
        rw [List.filterMap_map]; exact List.filterMap_eq_nil_iff.mpr (fun _ _ => rfl)
      have e3 : ((generateRanges xs.length info).map (piece (M.out (mem xs)) (mapE f) xs)).flatten = ys := by
        have := chain_concat ys hc (piece (M.out (mem xs)) (mapE f) xs) hyl ?_ ?_
        · simpa using this.symm
        · intro r hr
          have := hb r hr
          have := S.out xs
          rw [piece, hok r hr]
          simp only [slice, List.length_append, List.length_take, List.length_drop]
          omega
        · intro r hr i h1 h3
          have := hb r hr
          rw [piece, hok r hr]
          have hl : (slice ys r).length = r.2 - r.1 := by simp [slice]; omega
          simp only
          rw [List.getElem?_append_left (by omega)]
          simp only [slice]
          rw [List.getElem?_take_of_lt (by omega), List.getElem?_drop]
          congr 1; omega
      rw [e1, e2]
      simp only [e3]
  · rintro ⟨x, hx, p, hp⟩
    have hxr : ∃ r ∈ generateRanges xs.length info, x ∈ slice xs r := by
      have := chain_concat xs hc (slice xs) rfl ?_ ?_
      · rw [List.drop_zero] at this
        rw [this] at hx
        simp only [List.mem_flatten, List.mem_map] at hx
        obtain ⟨l, ⟨r, hr, rfl⟩, hl⟩ := hx
        exact ⟨r, hr, hl⟩
      · intro r hr
        have := hb r hr
        simp [slice]; omega
      · intro r hr i h1 h3
        simp only [slice]
        rw [List.getElem?_take_of_lt (by omega), List.getElem?_drop]
        congr 1; omega
    obtain ⟨r, hr, hxs⟩ := hxr
    have hpan : ∃ g, (fate r (mapE f (slice xs r))).2 = .panicked g := by
      rw [fate_mapE f xs r (hb r hr).2]
      rcases mapE_fail f (slice xs r) with ⟨-, h3⟩ | ⟨p, x, hx, h1, h3⟩
      · exfalso
        have hm : f x ∈ (slice xs r).map f := List.mem_map.mpr ⟨x, hxs, rfl⟩
        rw [h3, hp] at hm
        simp at hm
      · exact ⟨_, h3⟩
    obtain ⟨g, hg⟩ := hpan
    obtain ⟨-, n, hn⟩ := c144_fatal (σ := σ) S (mapPAct f) .idle zv (mapE f) hrun info xs h2 _
      (List.mem_map.mpr ⟨r, hr, rfl⟩) g hg
    refine ⟨n, fun sched hs => ?_⟩
    obtain ⟨g', hg1, hg2⟩ := hn sched hs
    simp only [fates, List.filterMap_map, Function.comp_def, List.mem_filterMap] at hg1
    obtain ⟨q, hq, hq2⟩ := hg1
    rw [fate_mapE f xs q (hb q hq).2] at hq2
    rcases mapE_fail f (slice xs q) with ⟨h3, -⟩ | ⟨p', y, hy, h1, h3⟩
    · rw [h3] at hq2; simp [Fin.fail] at hq2
    · rw [h3] at hq2
      simp only [Fin.fail, Option.some.injEq] at hq2
      exact ⟨y, List.mem_of_mem_drop (List.mem_of_mem_take hy), p', h1, by rw [hg2, hq2]⟩

/-- C144: if the source panics, Parallel panics in the goroutine of its caller (who may recover) without having started anything; if it fails, the result
is an iterator of no values and that error; if it is empty, one of no values. -/
theorem c144_source (M : Mem μ α β) (mem : List α → μ) (act : τ → PAct P τ α β) (t0 : τ) (zv : β) (info : Option PInfo)
    (nx : Crash.PCall P σ α) (s s' : σ) (xs : List α) (e : Err) (o : Outcome P α β) (ho : Parallel M mem act t0 zv info nx s o) :
    (∀ p gs, Crash.Ends nx s (xs.map .ok ++ .error p :: gs) e s' → o = .raised p) ∧
    (Crash.Ends nx s (xs.map .ok) e s' → e ≠ .eoi → o = .returned (.error e) []) ∧
    (Crash.Ends nx s [] .eoi s' → o = .returned (.ok []) []) ∧
    (∀ x, Crash.Ends nx s [.ok x] .eoi s' → o = .one x) := by
  refine ⟨fun p gs h => ?_, fun h he => ?_, fun h => ?_, fun x h => ?_⟩
  · obtain ⟨s1, -, hst⟩ := first_panic nx s s' xs p gs e h
    cases ho <;> rename_i hn <;> simp_all
  · have hst := first_ok nx s s' xs e h
    rw [if_neg he] at hst
    cases ho <;> rename_i hn <;> simp_all
  · have hst := first_ok nx s s' [] .eoi h
    simp only [if_true] at hst
    cases ho <;> rename_i hn <;> simp_all
  · have hst := first_ok nx s s' [x] .eoi h
    simp only [if_true] at hst
    cases ho <;> rename_i hn <;> simp_all

/-- What a call of Next gives when the transform ends so. -/
def Fin.got : Fin P → Option (Crash.Got P β)
  | .ended e => some (.err e)
  | .panicked (.user p) => some (.panic p)
  | .panicked .index => none

theorem machine_read {η : Type} (act : τ → PAct P τ α β) (nx : Crash.PCall P η α) (t : τ) (s s1 : η) (k : Option α → τ) (hs : act t = .read k)
    (r : Crash.Got P α) (hn : nx s = some (r, s1)) (t1 : τ) (hr : (∃ v, r = .val v ∧ t1 = k (some v)) ∨ (r = .err .eoi ∧ t1 = k none)) :
    Crash.nextP (machineP act nx) (ofIter t, s) = Crash.nextP (machineP act nx) (ofIter t1, s1) := by
  have : machineP act nx (t, s) = machineP act nx (t1, s1) := by
    conv => lhs; rw [machineP]
    simp only [hs, hn]
    rcases hr with ⟨v, rfl, rfl⟩ | ⟨rfl, rfl⟩
    · rfl
    · simp
  simp only [Crash.nextP, ofIter, List.getLast?_nil, this]

theorem machine_calls {η : Type} (act : τ → PAct P τ α β) (nx : Crash.PCall P η α) (s' : η) (hfix : nx s' = some (.err .eoi, s'))
    {ip : Bool} {t : τ} {d : Nat} {xs : List α} {outs : List β} {e : Fin P} (h : PSeqRun act ip t d xs outs e) :
    ∀ s, Crash.Ends nx s (xs.map .ok) .eoi s' → ∃ g st, e.got = some g ∧
      Crash.calls (Crash.nextP (machineP act nx)) (outs.length + 1) (ofIter t, s) = some (outs.map .val ++ [g], st) := by
  induction h with
  | @stop t d xs e hs =>
    intro s _
    refine ⟨.err e, (Crash.stopped e, s), rfl, ?_⟩
    have : machineP act nx (t, s) = some (.err e, (t, s)) := by rw [machineP]; simp [hs]
    simp [Crash.calls, Crash.nextP, ofIter, this, Crash.stopped]
  | @panic t d xs p t' hs =>
    intro s _
    refine ⟨.panic p, (ofIter t', s), rfl, ?_⟩
    have : machineP act nx (t, s) = some (.panic p, (t', s)) := by rw [machineP]; simp [hs]
    simp [Crash.calls, Crash.nextP, ofIter, this]
  | @emit t d xs b t' outs e hs _ _ ih =>
    intro s hE
    obtain ⟨g, st, h1, h2⟩ := ih s hE
    refine ⟨g, st, h1, ?_⟩
    have : machineP act nx (t, s) = some (.val b, (t', s)) := by rw [machineP]; simp [hs]
    have hn : Crash.nextP (machineP act nx) (ofIter t, s) = some (.val b, (ofIter t', s)) := by
      simp [Crash.nextP, ofIter, this]
    rw [List.length_cons, Crash.calls, hn]
    simp only
    rw [h2]; simp
  | @read t d k x xs outs e hs _ ih =>
    intro s hE
    simp only [List.map_cons] at hE
    cases hE with
    | val hn hE' =>
      obtain ⟨g, st, h1, h2⟩ := ih _ hE'
      refine ⟨g, st, h1, ?_⟩
      rw [Crash.calls] at h2 ⊢
      rw [machine_read act nx t s _ k hs _ hn _ (.inl ⟨x, rfl, rfl⟩)]
      exact h2
  | @readEnd t d k outs e hs _ ih =>
    intro s hE
    simp only [List.map_nil] at hE
    cases hE with
    | stop hn =>
      obtain ⟨g, st, h1, h2⟩ := ih s' (.stop hfix)
      refine ⟨g, st, h1, ?_⟩
      rw [Crash.calls] at h2 ⊢
      rw [machine_read act nx t s _ k hs _ hn _ (.inr ⟨rfl, rfl⟩)]
      exact h2

/-- C144: with one element no thread is started: the iterator returned gives the values of the transform, and a panic of the transform is raised by Next,
in the goroutine that calls it. -/
theorem c144_one {ip : Bool} (act : τ → PAct P τ α β) (t0 : τ) (x : α) (outs : List β) (e : Fin P) (h : PSeqRun act ip t0 0 [x] outs e) :
    ∃ g st, e.got = some g ∧
      Crash.calls (Crash.nextP (machineP act (Crash.nextP (singleP x)))) (outs.length + 1) (ofIter t0, (ofIter false, ())) =
        some (outs.map .val ++ [g], st) :=
  machine_calls act (Crash.nextP (singleP x)) (Crash.stopped .eoi, ()) rfl h _ (.val rfl (.stop rfl))

/-! ### Examples -/

/-- Ten times n; panics on 2. -/
def tens (n : Nat) : Except String Nat := if n = 2 then .error "two" else .ok (n * 10)

/-- C144 refuted: Parallel may return, without an error, an iterator in which an element of the source is in the place of a value of the transform: one
of the two threads has panicked, its deferred wg.Done() lets the caller go on before the program is terminated. -/
theorem c144_refuted : Parallel (oneMem Nat) (fun input => input) (mapPAct tens) .idle 0 (some ⟨2, false⟩)
    Crash.listP [.ok 1, .ok 2] (.returned (.ok [10, 2]) [.user "two"]) := by
  have hst := first_ok (P := String) Crash.listP [.ok 1, .ok 2] [] [1, 2] .eoi (Crash.listP_ends [.ok 1, .ok 2])
  simp only [if_true] at hst
  refine Parallel.many (input := [1, 2]) [0, 0, 0, 0, 1, 1, 1] ⟨[10, 2], [.done none, .unwound (.user "two")], none⟩ hst (by simp) ?_ ?_
  · rfl
  · refine ⟨rfl, ?_⟩
    intro ts hts
    simp only [List.mem_cons, List.not_mem_nil, or_false] at hts
    rcases hts with rfl | rfl <;> trivial

/-- Non-vacuity: the same elements, and a schedule that terminates the program. -/
example : Parallel (oneMem Nat) (fun input => input) (mapPAct tens) .idle 0 (some ⟨2, false⟩)
    Crash.listP [.ok 1, .ok 2] (.died (.user "two")) := by
  have hst := first_ok (P := String) Crash.listP [.ok 1, .ok 2] [] [1, 2] .eoi (Crash.listP_ends [.ok 1, .ok 2])
  simp only [if_true] at hst
  exact Parallel.killed (input := [1, 2]) [1, 1, 1, 1] ⟨[1, 2], [.run .idle 0 0, .unwound (.user "two")], some (.user "two")⟩ _ hst (by simp) rfl rfl

/-- Non-vacuity of `c144_exact`, for both outcomes. -/
example (o : Outcome String Nat Nat) (ho : Parallel (oneMem Nat) (fun input => input) (mapPAct tens) .idle 0 (some ⟨2, false⟩)
    Crash.listP [.ok 1, .ok 2] o) : o = .died (.user "two") ∨ o = .returned (.ok [10, 2]) [.user "two"] := by
  rcases c144_exact setup_inplace (mapPAct tens) .idle 0 (mapE tens) (fun ys => mapPAct_run tens true ys 0) (some ⟨2, false⟩)
    Crash.listP _ [] [1, 2] (Crash.listP_ends [.ok 1, .ok 2]) (by simp) o ho with ⟨f, hf, rfl⟩ | rfl
  · left
    have : (fates (mapE tens) [1, 2] (some ⟨2, false⟩)).filterMap (·.2.fail) = [.user "two"] := rfl
    rw [this] at hf
    simp only [List.mem_singleton] at hf
    rw [hf]
  · right; rfl

/-- Non-vacuity of `c144_partial`: no panic for 1, 3 and 4. -/
example (o : Outcome String Nat Nat) (ho : Parallel (oneMem Nat) (fun input => input) (mapPAct tens) .idle 0 (some ⟨2, false⟩)
    Crash.listP [.ok 1, .ok 3, .ok 4] o) : ∃ r, o = .returned r [] :=
  c144_partial setup_inplace (mapPAct tens) .idle 0 (mapE tens) (fun ys => mapPAct_run tens true ys 0) (some ⟨2, false⟩)
    Crash.listP _ [] [1, 3, 4] (Crash.listP_ends [.ok 1, .ok 3, .ok 4]) (by simp)
    (by
      have : fates (mapE tens) [1, 3, 4] (some ⟨2, false⟩) = [([10, 30], .ended .eoi), ([40], .ended .eoi)] := rfl
      rw [this]; simp) o ho

/-- Non-vacuity of `c144_fatal`. -/
example := c144_fatal (σ := List (Except String Nat)) setup_inplace (mapPAct tens) .idle 0 (mapE tens) (fun ys => mapPAct_run tens true ys 0) (some ⟨2, false⟩)
  [1, 2] (by simp) ([], .panicked (.user "two")) (by
    have : fates (mapE tens) [1, 2] (some ⟨2, false⟩) = [([10], .ended .eoi), ([], .panicked (.user "two"))] := rfl
    rw [this]; simp) _ rfl

/-- Non-vacuity of `c144_map`. -/
example := (c144_map setup_inplace tens 0 none Crash.listP _ [] [1, 3, 4] (Crash.listP_ends [.ok 1, .ok 3, .ok 4]) (by simp)).1 [10, 30, 40] rfl

example := (c144_map setup_inplace tens 0 none Crash.listP _ [] [1, 2, 4] (Crash.listP_ends [.ok 1, .ok 2, .ok 4]) (by simp)).2 ⟨2, by simp, "two", rfl⟩

/-- Non-vacuity of `c144_one` and `c144_source`. -/
example := c144_one (mapPAct tens) .idle 2 [] _ (mapPAct_run tens false [2] 0)

example (o : Outcome String Nat Nat) (ho : Parallel (oneMem Nat) (fun input => input) (mapPAct tens) .idle 0 none
    Crash.listP [.ok 1, .error "source", .ok 2] o) : o = .raised "source" :=
  (c144_source _ _ _ _ _ _ _ _ [] [1] .eoi o ho).1 "source" [.ok 2] (Crash.listP_ends [.ok 1, .error "source", .ok 2])

end Micro.Stream.ParCrash
