import Verif.Event.ConcLemmas
/-
C150. A registry used by several goroutines: what a Send does while others change the registry.

The registry is the one that the calls ops0 make of the zero registry, goroutines make the calls opss of Register, RemoveId and Remove, others send the values vals.
-/
namespace Micro.Event.Conc
open Micro Micro.Funcs

variable {I T : Type} [LinearOrder I]

theorem foldl_perform {Q : I → Recv T → Prop} (ws : List (Write I T)) : ∀ {m : Reg I (Recv T)}, m.Ok → AllQ Q m → (∀ w ∈ ws, WOk Q m w) →
    (ws.foldl Write.perform m).Ok ∧ AllQ Q (ws.foldl Write.perform m) := by
  induction ws with
  | nil => intro m h1 h2 _; exact ⟨h1, h2⟩
  | cons w ws ih =>
    intro m h1 h2 h3
    have hw := h3 w (by simp)
    obtain ⟨s1, s2, s3⟩ := perform_shape h1 hw
    exact ih s1 (perform_allQ h2 hw) (fun w' hw' => (h3 w' (by simp [hw'])).mono s2 s3)

theorem memOps_allQ {Q : I → Recv T → Prop} (ops : List (MOp I (Recv T))) : ∀ {m m' : Reg I (Recv T)}, m.Ok → AllQ Q m → (∀ op ∈ ops, ∀ id r, op = .add id r → Q id r) →
    memOps m ops = some m' → m'.Ok ∧ AllQ Q m' := by
  induction ops with
  | nil => intro m m' h1 h2 _ h; simp only [memOps, Option.some.injEq] at h; subst h; exact ⟨h1, h2⟩
  | cons op ops ih =>
    intro m m' h1 h2 h3 h
    rw [← List.singleton_append, memOps_append, ← plan_exact m h1 op] at h
    obtain ⟨ws, hws⟩ := plan_total (m := m) op
    rw [hws] at h
    simp only [Option.map_some, Option.bind_some] at h
    obtain ⟨a1, a2⟩ := foldl_perform ws h1 h2 (plan_ok h1 h2 op (fun id r e => h3 op (by simp) id r e) ws hws)
    exact ih a1 a2 (fun o ho => h3 o (by simp [ho])) h

/-- A Register call for the receiver under the id is among the calls. -/
def Called (ops0 : List (MOp I (Recv T))) (opss : List (List (MOp I (Recv T)))) (id : I) (r : Recv T) : Prop := MOp.add id r ∈ ops0 ++ opss.flatten

/-- A Register call for the receiver is among the calls. -/
def CalledAny (ops0 : List (MOp I (Recv T))) (opss : List (List (MOp I (Recv T)))) (_ : I) (r : Recv T) : Prop := ∃ id, MOp.add id r ∈ ops0 ++ opss.flatten

theorem ainv_init_of {Q : I → Recv T → Prop} {ops0 : List (MOp I (Recv T))} {m0 : Reg I (Recv T)} (h0 : memOps Reg.zero ops0 = some m0) (opss : List (List (MOp I (Recv T)))) (vals : List T)
    (hQ : ∀ id r, Called ops0 opss id r → Q id r) : AInv Q (St.init m0 opss vals) := by
  obtain ⟨a, b⟩ := memOps_allQ (Q := Q) ops0 (m := Reg.zero) ⟨by simp [Reg.zero], by simp [Reg.zero]⟩ (by intro a ha e he; simp [Reg.zero] at he)
    (by rintro op hop id r rfl; exact hQ id r (by simp [Called, hop])) h0
  refine ⟨a, b, ?_⟩
  intro g hg
  simp only [St.init, List.mem_map] at hg
  obtain ⟨ops, hops, rfl⟩ := hg
  refine ⟨?_, by simp, by simp⟩
  rintro op hop id r rfl
  exact hQ id r (List.mem_append.mpr (.inr (List.mem_flatten.mpr ⟨ops, hops, hop⟩)))

theorem ainv_init {ops0 : List (MOp I (Recv T))} {m0 : Reg I (Recv T)} (h0 : memOps Reg.zero ops0 = some m0) (opss : List (List (MOp I (Recv T)))) (vals : List T) :
    AInv (Called ops0 opss) (St.init m0 opss vals) := ainv_init_of h0 opss vals fun _ _ h => h

theorem ainv_any {ops0 : List (MOp I (Recv T))} {m0 : Reg I (Recv T)} (h0 : memOps Reg.zero ops0 = some m0) (opss : List (List (MOp I (Recv T)))) (vals : List T) (sched : List Choice) :
    AInv (CalledAny ops0 opss) ((St.init m0 opss vals).run sched) ∧ Along (fun _ e => ∀ r ∈ e.2, CalledAny ops0 opss e.1 r) (St.init m0 opss vals) sched :=
  ainv_run (fun _ _ _ h => h) sched (ainv_init_of h0 opss vals fun id _ h => ⟨id, h⟩)

theorem current_init (m0 : Reg I (Recv T)) (opss : List (List (MOp I (Recv T)))) (vals : List T) : Current (St.init m0 opss vals) := by
  intro g hg
  simp only [St.init, List.mem_map] at hg
  obtain ⟨ops, hops, rfl⟩ := hg
  simp

theorem init_ready {m0 : Reg I (Recv T)} (opss : List (List (MOp I (Recv T)))) (vals : List T) : ∀ v ∈ (St.init m0 opss vals).snds, v.2 = .ready := by
  intro v hv
  simp only [St.init, List.mem_map] at hv
  obtain ⟨x, _, rfl⟩ := hv
  rfl

/-! ### Every schedule -/

/-- C150. Whatever the goroutines do, no Send panics. -/
theorem c150_no_panic (ops0 : List (MOp I (Recv T))) (m0 : Reg I (Recv T)) (h0 : memOps Reg.zero ops0 = some m0) (opss : List (List (MOp I (Recv T)))) (vals : List T) (sched : List Choice) :
    ∀ v ∈ ((St.init m0 opss vals).run sched).snds, v.2 ≠ .panicked := by
  obtain ⟨a, b⟩ := ainv_any h0 opss vals sched
  intro v hv e
  have hs : SInv (fun _ e => ∀ r ∈ e.2, CalledAny ops0 opss e.1 r) (fun _ => []) (St.init m0 opss vals) := by
    intro j v hv
    rw [init_ready opss vals v (List.mem_of_getElem? hv)]
    trivial
  obtain ⟨Ss, hs', _⟩ := sinv_run sched hs b
  obtain ⟨j, hj⟩ := List.mem_iff_getElem?.mp hv
  have := hs' j v hj
  rw [e] at this
  exact this

/-- C150. A Send makes as many rounds as there were ids when it began, it calls only receivers that have been registered (with some id), and it returns
what they make of the value one after the other. -/
theorem c150_calls (ops0 : List (MOp I (Recv T))) (m0 : Reg I (Recv T)) (h0 : memOps Reg.zero ops0 = some m0) (opss : List (List (MOp I (Recv T)))) (vals : List T)
    (s1 s2 : List Choice) (k : Nat) (val w : T) (log : List (I × List (Recv T))) (hr : ((St.init m0 opss vals).run s1).snds[k]? = some (val, .ready))
    (hd : ((St.init m0 opss vals).run (s1 ++ .snd k :: s2)).snds[k]? = some (val, .done w log)) :
    log.length = ((St.init m0 opss vals).run s1).reg.receivers.length ∧ w = passed val log ∧ ∀ e ∈ log, ∀ r ∈ e.2, ∃ id, MOp.add id r ∈ ops0 ++ opss.flatten := by
  obtain ⟨_, b⟩ := ainv_any h0 opss vals (s1 ++ .snd k :: s2)
  obtain ⟨h1, h2⟩ := sinv_done _ (init_ready opss vals) s1 s2 k b val hr _ hd
  refine ⟨h1.length_eq.symm, h2, ?_⟩
  intro e he
  obtain ⟨j, hj, rfl⟩ := List.mem_iff_getElem.mp he
  exact (List.forall₂_iff_get.mp h1).2 j (by rw [h1.length_eq]; exact hj) hj

omit [LinearOrder I] in
theorem inner_runs (m : Reg I (Recv T)) (val : T) (arr n i : Nat) (id : I) (rest : List (Recv T)) : ∀ (called : List (Recv T)) (v : T) (log : List (I × List (Recv T))),
    ∃ v' log', (sndStep m val)^[rest.length + 1] (.inner arr n i id called rest v log) = .loop arr n (i + 1) v' log' := by
  induction rest with
  | nil => intro called v log; exact ⟨_, _, rfl⟩
  | cons r rest ih =>
    intro called v log
    rw [List.length_cons, Function.iterate_succ_apply]
    exact ih _ _ _

omit [LinearOrder I] in
theorem loop_runs (m : Reg I (Recv T)) (val : T) (arr n : Nat) (hn : n ≤ (m.arrs arr).length) : ∀ (d i : Nat) (v : T) (log : List (I × List (Recv T))), n - i = d →
    ∃ t v' log', (sndStep m val)^[t] (.loop arr n i v log) = .done v' log' := by
  intro d
  induction d with
  | zero =>
    intro i v log hd
    refine ⟨1, v, log, ?_⟩
    simp only [Function.iterate_one, sndStep, if_neg (show ¬ i < n by omega)]
  | succ d ih =>
    intro i v log hd
    have hi : i < n := by omega
    have hx : (m.arrs arr)[i]? = some ((m.arrs arr)[i]'(by omega)) := List.getElem?_eq_getElem _
    obtain ⟨v1, log1, h1⟩ := inner_runs m val arr n i ((m.arrs arr)[i]'(by omega)).1 ((m.arrs arr)[i]'(by omega)).2 [] v log
    obtain ⟨t, v2, log2, h2⟩ := ih (i + 1) v1 log1 (by omega)
    refine ⟨t + (((m.arrs arr)[i]'(by omega)).2.length + 1) + 1, v2, log2, ?_⟩
    rw [Function.iterate_succ_apply]
    simp only [sndStep, if_pos hi, hx]
    rw [Function.iterate_add_apply, h1, h2]

theorem run_snd (k t : Nat) : ∀ {p : St I T} {val : T} {s : SndSt I T}, p.snds[k]? = some (val, s) →
    (p.run (List.replicate t (.snd k))).snds[k]? = some (val, (sndStep p.reg val)^[t] s) := by
  induction t with
  | zero => intro p val s h; simpa [St.run] using h
  | succ t ih =>
    intro p val s h
    have hp : (p.step (.snd k)).snds[k]? = some (val, sndStep p.reg val s) ∧ (p.step (.snd k)).reg = p.reg := by
      simp only [St.step, h]
      exact ⟨List.getElem?_set_self (List.getElem?_eq_some_iff.mp h).1, trivial⟩
    have := ih hp.1
    rw [hp.2] at this
    rw [Function.iterate_succ_apply, ← this]
    rfl

/-- C150. At every moment, a Send needs only its own steps to return: it waits for nobody, and does not go on for ever. -/
theorem c150_returns (ops0 : List (MOp I (Recv T))) (m0 : Reg I (Recv T)) (h0 : memOps Reg.zero ops0 = some m0) (opss : List (List (MOp I (Recv T)))) (vals : List T) (sched : List Choice)
    (k : Nat) (hk : k < vals.length) :
    ∃ n w log, ((St.init m0 opss vals).run (sched ++ List.replicate n (.snd k))).snds[k]? = some (vals[k], .done w log) := by
  have hrun : ∀ n, (St.init m0 opss vals).run (sched ++ List.replicate n (.snd k)) = ((St.init m0 opss vals).run sched).run (List.replicate n (.snd k)) := by
    intro n; simp [St.run]
  obtain ⟨a, b⟩ := ainv_any h0 opss vals sched
  have hs : SInv (fun _ e => ∀ r ∈ e.2, CalledAny ops0 opss e.1 r) (fun _ => []) (St.init m0 opss vals) := by
    intro j v hv
    rw [init_ready opss vals v (List.mem_of_getElem? hv)]
    trivial
  obtain ⟨Ss, hs', _⟩ := sinv_run sched hs b
  have hval : ∀ (sched : List Choice) (p : St I T) (val : T), (∃ s, p.snds[k]? = some (val, s)) → ∃ s, (p.run sched).snds[k]? = some (val, s) := by
    intro sched
    induction sched with
    | nil => intro p val h; exact h
    | cons c sched ih =>
      rintro p val ⟨s, h⟩
      refine ih _ val ?_
      cases c with
      | chg j => refine ⟨s, ?_⟩; simp only [St.step]; split <;> exact h
      | snd j =>
        simp only [St.step]
        split
        · exact ⟨s, h⟩
        · rename_i val' s' hj
          by_cases e : j = k
          · subst e
            rw [h] at hj
            cases hj
            exact ⟨_, List.getElem?_set_self (List.getElem?_eq_some_iff.mp h).1⟩
          · exact ⟨s, by simp only; rw [List.getElem?_set_ne e]; exact h⟩
  obtain ⟨s, hk'⟩ := hval sched (St.init m0 opss vals) vals[k] ⟨.ready, by simp [St.init, hk]⟩
  have hok := hs' k _ hk'
  have fin : ∃ t v log, (sndStep ((St.init m0 opss vals).run sched).reg vals[k])^[t] s = .done v log := by
    cases s with
    | ready =>
      obtain ⟨t, v, log, h⟩ := loop_runs ((St.init m0 opss vals).run sched).reg vals[k] _ _ a.ok.2 _ 0 vals[k] [] rfl
      exact ⟨t + 1, v, log, by rw [Function.iterate_succ_apply]; exact h⟩
    | loop arr n i v log => exact loop_runs _ _ _ _ hok.2.2.1 _ _ _ _ rfl
    | inner arr n i id called rest v log =>
      obtain ⟨v1, log1, h1⟩ := inner_runs ((St.init m0 opss vals).run sched).reg vals[k] arr n i id rest called v log
      obtain ⟨t, v2, log2, h2⟩ := loop_runs ((St.init m0 opss vals).run sched).reg vals[k] arr n hok.2.2.1 _ (i + 1) v1 log1 rfl
      exact ⟨t + (rest.length + 1), v2, log2, by rw [Function.iterate_add_apply, h1, h2]⟩
    | done v log => exact ⟨0, v, log, rfl⟩
    | panicked => exact hok.elim
  obtain ⟨t, v, log, h⟩ := fin
  exact ⟨t, v, log, by rw [hrun, run_snd k t hk', h]⟩

/-- C150. A Send that is not disturbed (while it runs there are only other Sends) calls exactly the receivers the registry holds, id by id in order. -/
theorem c150_undisturbed (ops0 : List (MOp I (Recv T))) (m0 : Reg I (Recv T)) (h0 : memOps Reg.zero ops0 = some m0) (opss : List (List (MOp I (Recv T)))) (vals : List T)
    (s1 s2 : List Choice) (hs2 : ∀ c ∈ s2, ∃ j, c = .snd j) (k : Nat) (val w : T) (log : List (I × List (Recv T)))
    (hr : ((St.init m0 opss vals).run s1).snds[k]? = some (val, .ready))
    (hd : ((St.init m0 opss vals).run (s1 ++ .snd k :: s2)).snds[k]? = some (val, .done w log)) :
    log = ((St.init m0 opss vals).run s1).reg.receivers ∧ w = passed val ((St.init m0 opss vals).run s1).reg.receivers := by
  obtain ⟨a, _⟩ := ainv_any h0 opss vals s1
  -- the Send k alone: its state only depends on the registry, which does not change
  have run_k : ∀ (sched : List Choice) (p : St I T) (s : SndSt I T), (∀ c ∈ sched, ∃ j, c = .snd j) → p.snds[k]? = some (val, s) →
      ∃ t, (p.run sched).snds[k]? = some (val, (sndStep p.reg val)^[t] s) := by
    intro sched
    induction sched with
    | nil => intro p s _ h; exact ⟨0, h⟩
    | cons c sched ih =>
      intro p s hc h
      obtain ⟨j, rfl⟩ := hc c (by simp)
      have hreg : (p.step (.snd j)).reg = p.reg := by simp only [St.step]; split <;> rfl
      by_cases e : j = k
      · subst e
        have h' : (p.step (.snd j)).snds[j]? = some (val, sndStep p.reg val s) := by
          simp only [St.step, h]
          exact List.getElem?_set_self (List.getElem?_eq_some_iff.mp h).1
        obtain ⟨t, ht⟩ := ih _ _ (fun c h => hc c (by simp [h])) h'
        rw [hreg] at ht
        exact ⟨t + 1, by rw [Function.iterate_succ_apply]; exact ht⟩
      · have h' : (p.step (.snd j)).snds[k]? = some (val, s) := by
          simp only [St.step]
          split
          · exact h
          · simp only; rw [List.getElem?_set_ne e]; exact h
        obtain ⟨t, ht⟩ := ih _ _ (fun c h => hc c (by simp [h])) h'
        rw [hreg] at ht
        exact ⟨t, ht⟩
  have hrun : (St.init m0 opss vals).run (s1 ++ .snd k :: s2) = ((St.init m0 opss vals).run s1).run (.snd k :: s2) := by simp [St.run]
  obtain ⟨t, ht⟩ := run_k (.snd k :: s2) _ .ready (by intro c hc; rcases List.mem_cons.mp hc with rfl | hc; exacts [⟨k, rfl⟩, hs2 c hc]) hr
  rw [← hrun, hd] at ht
  have ok : ∀ t, 0 < t → SndOk (fun x y => x = y) ((St.init m0 opss vals).run s1).reg.receivers val ((St.init m0 opss vals).run s1).reg
      ((sndStep ((St.init m0 opss vals).run s1).reg val)^[t] .ready) := by
    intro t
    induction t with
    | zero => intro h; omega
    | succ t ih =>
      intro _
      rw [Function.iterate_succ_apply']
      by_cases e : t = 0
      · subst e
        exact sndStep_begin a.ok (fun _ _ => rfl)
      · refine sndStep_ok ?_ (ih (by omega))
        obtain ⟨t', rfl⟩ := Nat.exists_eq_succ_of_ne_zero e
        rw [Function.iterate_succ_apply']
        exact sndStep_not_ready _ _ _
  have hdone : (sndStep ((St.init m0 opss vals).run s1).reg val)^[t] .ready = .done w log := by
    simp only [Option.some.injEq, Prod.mk.injEq, true_and] at ht
    exact ht.symm
  have hpos : 0 < t := by
    rcases Nat.eq_zero_or_pos t with rfl | h
    · cases hdone
    · exact h
  have hf := ok t hpos
  rw [hdone] at hf
  have : ((St.init m0 opss vals).run s1).reg.receivers = log := List.forall₂_eq_eq_eq ▸ hf.1
  exact ⟨this.symm, by rw [this]; exact hf.2⟩

/-! ### One change at a time -/

theorem hinv_init {ops0 : List (MOp I (Recv T))} {m0 : Reg I (Recv T)} (h0 : memOps Reg.zero ops0 = some m0) (opss : List (List (MOp I (Recv T)))) (vals : List T) :
    HInv Reg.zero ops0 (St.init m0 opss vals) := by
  refine .inl ⟨?_, h0⟩
  intro j g hg
  simp only [St.init, List.getElem?_map] at hg
  obtain ⟨ops, _, rfl⟩ := Option.map_eq_some_iff.mp hg
  simp

/-- C150 (partial). If calls of Register, RemoveId and Remove do not overlap with one another, none of them panics. Missing: calls that overlap (`c150_panic_refuted`). -/
theorem c150_no_panic_partial (ops0 : List (MOp I (Recv T))) (m0 : Reg I (Recv T)) (h0 : memOps Reg.zero ops0 = some m0) (opss : List (List (MOp I (Recv T)))) (vals : List T)
    (sched : List Choice) (ho : OneAtATime (St.init m0 opss vals) sched) : ∀ g ∈ ((St.init m0 opss vals).run sched).muts, g.1 ≠ .panicked := fun g hg =>
  ((current_run sched (ainv_init h0 opss vals) (current_init m0 opss vals) ho).2.1 g hg).1

/-- C150 (partial). If calls of Register, RemoveId and Remove do not overlap with one another, in each round a Send calls only receivers that have been registered with the id of the round. Missing: calls that overlap
(`c150_id_refuted`). -/
theorem c150_calls_partial (ops0 : List (MOp I (Recv T))) (m0 : Reg I (Recv T)) (h0 : memOps Reg.zero ops0 = some m0) (opss : List (List (MOp I (Recv T)))) (vals : List T)
    (s1 s2 : List Choice) (k : Nat) (ho : OneAtATime (St.init m0 opss vals) (s1 ++ .snd k :: s2)) (val w : T) (log : List (I × List (Recv T)))
    (hr : ((St.init m0 opss vals).run s1).snds[k]? = some (val, .ready))
    (hd : ((St.init m0 opss vals).run (s1 ++ .snd k :: s2)).snds[k]? = some (val, .done w log)) :
    ∀ e ∈ log, ∀ r ∈ e.2, MOp.add e.1 r ∈ ops0 ++ opss.flatten := by
  obtain ⟨_, _, b⟩ := current_run (s1 ++ .snd k :: s2) (ainv_init h0 opss vals) (current_init m0 opss vals) ho
  obtain ⟨h1, h2⟩ := sinv_done _ (init_ready opss vals) s1 s2 k b val hr _ hd
  intro e he
  obtain ⟨j, hj, rfl⟩ := List.mem_iff_getElem.mp he
  exact (List.forall₂_iff_get.mp h1).2 j (by rw [h1.length_eq]; exact hj) hj

/-- C150 (partial). If calls of Register, RemoveId and Remove do not overlap with one another, Sends may overlap with them in any way: between two calls the registry is exactly what those that have returned make of it,
one after the other. Missing: calls that overlap (`c150_lost_refuted`). -/
theorem c150_holds_partial (ops0 : List (MOp I (Recv T))) (m0 : Reg I (Recv T)) (h0 : memOps Reg.zero ops0 = some m0) (opss : List (List (MOp I (Recv T)))) (vals : List T)
    (sched : List Choice) (ho : OneAtATime (St.init m0 opss vals) sched) (hidle : ∀ g ∈ ((St.init m0 opss vals).run sched).muts, g.1 = .idle) :
    memOps Reg.zero (ops0 ++ returned (St.init m0 opss vals) sched) = some ((St.init m0 opss vals).run sched).reg := by
  rcases hinv_run sched (hinv_init h0 opss vals) (ainv_init h0 opss vals) (current_init m0 opss vals) ho with ⟨_, h⟩ | ⟨k, op, ws, todo, h, _⟩
  · exact h
  · have := hidle _ (List.mem_of_getElem? h)
    cases this

theorem ginv_init {D : Recv T → Bool} {m0 : Reg I (Recv T)} (opss : List (List (MOp I (Recv T)))) (vals : List T) (hD : ∀ op ∈ opss.flatten, Allowed D op) :
    GInv D [] (St.init m0 opss vals) := by
  refine ⟨?_, ?_, ?_, by simp⟩
  · intro g hg
    simp only [St.init, List.mem_map] at hg
    obtain ⟨ops, hops, rfl⟩ := hg
    exact fun op hop => hD op (List.mem_flatten.mpr ⟨ops, hops, hop⟩)
  · intro g hg op at_ b e
    simp only [St.init, List.mem_map] at hg
    obtain ⟨ops, hops, rfl⟩ := hg
    cases e
  · intro g hg op ws e
    simp only [St.init, List.mem_map] at hg
    obtain ⟨ops, hops, rfl⟩ := hg
    cases e

/-- C150 (partial). Calls of Register and Remove, one at a time, while events are sent: a Send visits the ids there were when it began, each once and in order, and of the receivers that nobody removes (D: those that
may be removed) it calls those that were registered when it began, each once, in order and before any that are registered while it runs. Missing: calls that overlap (`c150_lost_refuted`) and RemoveId
(`c150_removeId_refuted`). -/
theorem c150_send_partial (D : Recv T → Bool) (ops0 : List (MOp I (Recv T))) (m0 : Reg I (Recv T)) (h0 : memOps Reg.zero ops0 = some m0) (opss : List (List (MOp I (Recv T))))
    (hD : ∀ op ∈ opss.flatten, Allowed D op) (vals : List T) (s1 s2 : List Choice) (k : Nat) (ho : OneAtATime (St.init m0 opss vals) (s1 ++ .snd k :: s2)) (val w : T)
    (log : List (I × List (Recv T))) (hr : ((St.init m0 opss vals).run s1).snds[k]? = some (val, .ready))
    (hd : ((St.init m0 opss vals).run (s1 ++ .snd k :: s2)).snds[k]? = some (val, .done w log)) :
    List.Forall₂ (fun atStart now => now.1 = atStart.1 ∧ (atStart.2.filter fun r => !D r) <+: (now.2.filter fun r => !D r)) ((St.init m0 opss vals).run s1).reg.receivers log := by
  obtain ⟨_, b⟩ := ginv_run (s1 ++ .snd k :: s2) (ginv_init (D := D) (m0 := m0) opss vals hD) (ainv_init h0 opss vals) (current_init m0 opss vals) ho
  exact (sinv_done _ (init_ready opss vals) s1 s2 k b val hr _ hd).1

/-- C150 (partial). Under the same conditions: a receiver whose Register call has returned before a Send begins, and that nobody removes, is called by this Send, in the round of its id; also if other
calls are under way when the Send begins. -/
theorem c150_registered_partial (D : Recv T → Bool) (ops0 : List (MOp I (Recv T))) (m0 : Reg I (Recv T)) (h0 : memOps Reg.zero ops0 = some m0) (opss : List (List (MOp I (Recv T))))
    (hD : ∀ op ∈ opss.flatten, Allowed D op) (vals : List T) (s1 s2 : List Choice) (k : Nat) (ho : OneAtATime (St.init m0 opss vals) (s1 ++ .snd k :: s2)) (val w : T)
    (log : List (I × List (Recv T))) (hr : ((St.init m0 opss vals).run s1).snds[k]? = some (val, .ready))
    (hd : ((St.init m0 opss vals).run (s1 ++ .snd k :: s2)).snds[k]? = some (val, .done w log)) (id : I) (r : Recv T) (hreg : MOp.add id r ∈ returned (St.init m0 opss vals) s1)
    (hkeep : D r = false) : ∃ rs, (id, rs) ∈ log ∧ r ∈ rs := by
  have hf := c150_send_partial D ops0 m0 h0 opss hD vals s1 s2 k ho val w log hr hd
  obtain ⟨g, _⟩ := ginv_run s1 (ginv_init (D := D) (m0 := m0) opss vals hD) (ainv_init h0 opss vals) (current_init m0 opss vals) ho.split.1
  obtain ⟨rs, h1, h2⟩ := g.has id r (by simpa using hreg) hkeep
  obtain ⟨j, hj⟩ := List.mem_iff_getElem?.mp h1
  obtain ⟨⟨id', rs'⟩, e1, e2, e3⟩ := forall2_getElem? hf j _ hj
  simp only at e2 e3
  subst e2
  refine ⟨rs', List.mem_of_getElem? e1, ?_⟩
  have : r ∈ rs.filter fun r => !D r := List.mem_filter.mpr ⟨h2, by simp [hkeep]⟩
  exact (List.mem_filter.mp (e3.subset this)).1

/-- The condition that calls do not overlap holds for every schedule if only one goroutine calls Register, RemoveId and Remove. -/
theorem c150_one_goroutine (m0 : Reg I (Recv T)) (ops : List (MOp I (Recv T))) (vals : List T) (sched : List Choice) : OneAtATime (St.init m0 [ops] vals) sched := by
  have one : ∀ (sched : List Choice) (p : St I T), p.muts.length = 1 → OneAtATime p sched := by
    intro sched
    induction sched with
    | nil => intro p _; trivial
    | cons c sched ih =>
      intro p hp
      refine ⟨?_, ih _ ?_⟩
      · rintro k rfl hk j g hj hjk
        have := (List.getElem?_eq_some_iff.mp hj).1
        omega
      · cases c with
        | chg k => simp only [St.step]; split <;> simp [hp]
        | snd k => simp only [St.step]; split <;> simp [hp]
  exact one _ _ rfl

/-- The goroutine k, which changes the registry, has made all its calls, or has panicked. -/
def Ended (p : St I T) (k : Nat) : Prop := p.muts[k]? = some (.idle, []) ∨ ∃ todo, p.muts[k]? = some (.panicked, todo)

theorem ends_step {p : St I T} {k : Nat} (h : ∃ n, Ended ((p.step (.chg k)).run (List.replicate n (.chg k))) k) : ∃ n, Ended (p.run (List.replicate n (.chg k))) k := by
  obtain ⟨n, h⟩ := h
  exact ⟨n + 1, h⟩

theorem chg_get {p : St I T} {k : Nat} {g : MutSt I T × List (MOp I (Recv T))} (h : p.muts[k]? = some g) : (p.step (.chg k)).muts[k]? = some (mutStep p.reg g).2 := by
  simp only [St.step, h]
  exact List.getElem?_set_self (List.getElem?_eq_some_iff.mp h).1

theorem ends_writing {k : Nat} {op : MOp I (Recv T)} {todo : List (MOp I (Recv T))}
    (hi : ∀ p : St I T, p.muts[k]? = some (.idle, todo) → ∃ n, Ended (p.run (List.replicate n (.chg k))) k) (ws : List (Write I T)) :
    ∀ p : St I T, p.muts[k]? = some (.writing op ws, todo) → ∃ n, Ended (p.run (List.replicate n (.chg k))) k := by
  induction ws with
  | nil => intro p h; exact ends_step (hi _ (chg_get h))
  | cons w ws ih => intro p h; exact ends_step (ih _ (chg_get h))

theorem ends_searched {k : Nat} {op : MOp I (Recv T)} {todo : List (MOp I (Recv T))}
    (hi : ∀ p : St I T, p.muts[k]? = some (.idle, todo) → ∃ n, Ended (p.run (List.replicate n (.chg k))) k) (index : Option Nat) (b : Bool)
    (p : St I T) (h : p.muts[k]? = some (.searched op index b, todo)) : ∃ n, Ended (p.run (List.replicate n (.chg k))) k := by
  have h' := chg_get h
  simp only [mutStep] at h'
  refine ends_step ?_
  cases hp : planAt p.reg op index b with
  | none => rw [hp] at h'; exact ⟨0, .inr ⟨_, h'⟩⟩
  | some ws => rw [hp] at h'; exact ends_writing hi ws _ h'

theorem ends_idle {k : Nat} (todo : List (MOp I (Recv T))) : ∀ p : St I T, p.muts[k]? = some (.idle, todo) → ∃ n, Ended (p.run (List.replicate n (.chg k))) k := by
  induction todo with
  | nil => intro p h; exact ⟨0, .inl h⟩
  | cons op todo ih =>
    intro p h
    have h' := chg_get h
    simp only [mutStep] at h'
    refine ends_step ?_
    cases hs : search p.reg.receivers (key op) with
    | none => rw [hs] at h'; exact ⟨0, .inr ⟨_, h'⟩⟩
    | some r => obtain ⟨index, b⟩ := r; rw [hs] at h'; exact ends_searched ih index b _ h'

theorem length_muts (sched : List Choice) : ∀ p : St I T, (p.run sched).muts.length = p.muts.length := by
  induction sched with
  | nil => intro p; rfl
  | cons c sched ih =>
    intro p
    refine (ih _).trans ?_
    cases c with
    | chg k => simp only [St.step]; split <;> simp
    | snd k => simp only [St.step]; split <;> simp

/-- C150. Nobody waits for anybody: whatever has happened, a goroutine that changes the registry needs only its own steps until all its calls have returned, unless one panics. -/
theorem c150_changes_return (m0 : Reg I (Recv T)) (opss : List (List (MOp I (Recv T)))) (vals : List T) (sched : List Choice) (k : Nat) (hk : k < opss.length) :
    ∃ n, ((St.init m0 opss vals).run (sched ++ List.replicate n (.chg k))).muts[k]? = some (.idle, []) ∨
      ∃ todo, ((St.init m0 opss vals).run (sched ++ List.replicate n (.chg k))).muts[k]? = some (.panicked, todo) := by
  have hrun : ∀ n, (St.init m0 opss vals).run (sched ++ List.replicate n (.chg k)) = ((St.init m0 opss vals).run sched).run (List.replicate n (.chg k)) := fun n => by
    simp [St.run, List.foldl_append]
  simp only [hrun]
  have hl : k < ((St.init m0 opss vals).run sched).muts.length := by rw [length_muts]; simpa [St.init] using hk
  have hg := List.getElem?_eq_getElem hl
  generalize ((St.init m0 opss vals).run sched).muts[k] = g at hg
  obtain ⟨st, todo⟩ := g
  cases st with
  | idle => exact ends_idle todo _ hg
  | searched op index b => exact ends_searched (ends_idle todo) index b _ hg
  | writing op ws => exact ends_writing (ends_idle todo) ws _ hg
  | panicked => exact ⟨0, .inr ⟨todo, hg⟩⟩

/-- C150 (partial). If only one goroutine changes the registry, all its calls return: it needs only its own steps, and none of them panics. Missing: calls that overlap (`c150_panic_refuted`). -/
theorem c150_changes_return_partial (ops0 : List (MOp I (Recv T))) (m0 : Reg I (Recv T)) (h0 : memOps Reg.zero ops0 = some m0) (ops : List (MOp I (Recv T))) (vals : List T)
    (sched : List Choice) : ∃ n, ((St.init m0 [ops] vals).run (sched ++ List.replicate n (.chg 0))).muts = [(.idle, [])] := by
  obtain ⟨n, h | ⟨todo, h⟩⟩ := c150_changes_return m0 [ops] vals sched 0 (by simp)
  · refine ⟨n, ?_⟩
    have hl : ((St.init m0 [ops] vals).run (sched ++ List.replicate n (.chg 0))).muts.length = 1 := by rw [length_muts]; rfl
    obtain ⟨g, hg⟩ := List.length_eq_one_iff.mp hl
    rw [hg] at h ⊢
    simpa using h
  · exact absurd rfl (c150_no_panic_partial ops0 m0 h0 [ops] vals _ (c150_one_goroutine m0 ops vals _) _ (List.mem_of_getElem? h))

/-! ### What may go wrong, and examples: events are lists of numbers, receiver n appends n -/

/-- Receiver n. -/
def rn (n : Nat) : Recv (List Nat) := ⟨n, fun l => l ++ [n]⟩

/-- Register calls for receiver 10 under id 1, 20 under 2 and 30 under 3. -/
def exOps : List (MOp Nat (Recv (List Nat))) := [.add 1 (rn 10), .add 2 (rn 20), .add 3 (rn 30)]

/-- The registry that these calls make. -/
def exMem : Reg Nat (Recv (List Nat)) := ⟨fun a => if a = 3 then [(1, [rn 10]), (2, [rn 20]), (3, [rn 30])] else if a = 2 then [(1, [rn 10]), (2, [rn 20])] else
  if a = 1 then [(1, [rn 10])] else [], 4, 3, 3⟩

theorem search_zero (k : Nat) : search ([] : List (Nat × List (Recv (List Nat)))) k = some (none, false) := by simp [search]

theorem search_one (a k : Nat) (x : List (Recv (List Nat))) : search [(a, x)] k = some (some 0, decide (k = a)) := by
  simp only [search, List.length_cons, List.length_nil]
  rw [searchLoop]
  simp

theorem exMem_made : memOps Reg.zero exOps = some exMem := by
  simp [memOps, exOps, Reg.register, Reg.zero, Reg.receivers, search_zero, search_one, search_two, Reg.alloc, exMem]
  funext a
  by_cases h3 : a = 3
  · subst h3; simp
  by_cases h2 : a = 2
  · subst h2; simp
  by_cases h1 : a = 1
  · subst h1; simp
  simp [Function.update_of_ne, h1, h2, h3]

/-- C150 is violated: two goroutines register a receiver under the same id at the same time, both calls return, and one of the receivers is lost. -/
theorem c150_lost_refuted :
    let p := St.init exMem [[.add 2 (rn 21)], [.add 2 (rn 22)]] [[]]
    let sched : List Choice := [.chg 0, .chg 1, .chg 0, .chg 1, .chg 0, .chg 0, .chg 1, .chg 1]
    returned p sched = [.add 2 (rn 21), .add 2 (rn 22)] ∧
    (p.run sched).reg.receivers = [(1, [rn 10]), (2, [rn 20, rn 22]), (3, [rn 30])] := by
  refine ⟨?_, ?_⟩ <;>
  simp [St.init, returned, returns, St.run, St.step, mutStep, planAt, key, exMem, Reg.receivers, search_three, Write.perform]

/-- C150 is violated: a call of Register panics, because another goroutine's RemoveId has removed an id after the search. -/
theorem c150_panic_refuted :
    let p := St.init exMem [[.add 3 (rn 31)], [.removeKey 1]] [[]]
    let sched : List Choice := [.chg 0, .chg 1, .chg 1, .chg 1, .chg 1, .chg 1, .chg 1, .chg 0]
    returned p sched = [.removeKey 1] ∧ (p.run sched).muts = [(.panicked, []), (.idle, [])] := by
  refine ⟨?_, ?_⟩ <;>
  simp [St.init, returned, returns, St.run, St.step, mutStep, planAt, key, exMem, Reg.receivers, search_three, Write.perform, shift]

/-- C150 is violated: a call of Register with id 2 overlaps with a call of RemoveId with id 1; both return. Then id 2 is in the registry twice, id 3 is not, and a Send calls receiver 30, registered only with id 3, in a
round of id 2. -/
theorem c150_id_refuted :
    let p := St.init exMem [[.add 2 (rn 21)], [.removeKey 1]] [[]]
    let sched : List Choice := [.chg 0, .chg 1, .chg 1, .chg 1, .chg 1, .chg 1, .chg 1, .chg 0, .chg 0, .chg 0]
    returned p sched = [.removeKey 1, .add 2 (rn 21)] ∧ (p.run sched).reg.receivers = [(2, [rn 20]), (2, [rn 30, rn 21])] ∧
    (p.run (sched ++ .snd 0 :: List.replicate 8 (.snd 0))).snds = [([], .done [20, 30, 21] [(2, [rn 20]), (2, [rn 30, rn 21])])] := by
  refine ⟨?_, ?_, ?_⟩ <;>
  simp [St.init, returned, returns, St.run, St.step, mutStep, sndStep, planAt, key, exMem, Reg.receivers, search_three, Write.perform, shift, rn]

/-- C150 is violated: while an event is sent, another goroutine calls RemoveId for an id whose receivers have been called; the Send skips the receivers of the next id, and calls those of the last id twice. -/
theorem c150_removeId_refuted :
    let p := St.init exMem [[.removeKey 1]] [[]]
    let s1 : List Choice := []
    let s2 : List Choice := [.snd 0, .snd 0, .snd 0, .chg 0, .chg 0, .chg 0, .chg 0, .chg 0, .chg 0] ++ List.replicate 7 (.snd 0)
    returned p (s1 ++ .snd 0 :: s2) = [.removeKey 1] ∧
    (p.run (s1 ++ .snd 0 :: s2)).snds = [([], .done [10, 30, 30] [(1, [rn 10]), (3, [rn 30]), (3, [rn 30])])] := by
  refine ⟨?_, ?_⟩ <;>
  simp [St.init, returned, returns, St.run, St.step, mutStep, sndStep, planAt, key, exMem, Reg.receivers, search_three, Write.perform, shift, rn]

/-- Non-vacuity of c150_no_panic, c150_no_panic_partial, c150_calls, c150_calls_partial, c150_holds_partial, c150_send_partial and c150_registered_partial: one goroutine registers receiver 31 under id 3, removes 10,
which is called meanwhile, and registers 21 under id 2 while the Send is in that round; the Send began after the first call had returned. -/
example :
    let p := St.init exMem [[.add 3 (rn 31), .removeValue 1 (rn 10) false, .add 2 (rn 21)]] [[]]
    let s1 : List Choice := [.chg 0, .chg 0, .chg 0, .chg 0]
    let s2 : List Choice := [.snd 0, .snd 0, .chg 0, .chg 0, .chg 0, .chg 0, .snd 0, .snd 0, .chg 0, .chg 0, .chg 0, .chg 0] ++ List.replicate 7 (.snd 0)
    memOps Reg.zero exOps = some exMem ∧ OneAtATime p (s1 ++ .snd 0 :: s2) ∧
    (∀ op ∈ [[MOp.add 3 (rn 31), .removeValue 1 (rn 10) false, .add 2 (rn 21)]].flatten, Allowed (fun r => r.ptr == 10) op) ∧
    returned p s1 = [.add 3 (rn 31)] ∧ (p.run s1).snds = [([], .ready)] ∧ (p.run s1).reg.receivers = [(1, [rn 10]), (2, [rn 20]), (3, [rn 30, rn 31])] ∧
    (p.run (s1 ++ .snd 0 :: s2)).snds = [([], .done [10, 20, 30, 31] [(1, [rn 10]), (2, [rn 20]), (3, [rn 30, rn 31])])] ∧
    (p.run (s1 ++ .snd 0 :: s2)).muts = [(.idle, [])] ∧
    (p.run (s1 ++ .snd 0 :: s2)).reg.receivers = [(1, []), (2, [rn 20, rn 21]), (3, [rn 30, rn 31])] := by
  refine ⟨exMem_made, c150_one_goroutine _ _ _ _, ?_, ?_, ?_, ?_, ?_, ?_, ?_⟩
  · intro op hop
    simp only [List.flatten_cons, List.flatten_nil, List.append_nil, List.mem_cons, List.not_mem_nil, or_false] at hop
    rcases hop with rfl | rfl | rfl
    · trivial
    · intro x hx; simpa [rn] using hx
    · trivial
  all_goals
    simp [St.init, returned, returns, St.run, St.step, mutStep, sndStep, planAt, key, exMem, Reg.receivers, search_three, Write.perform, sliceRemoveUncomparable, sliceIndex, removeFirst, rn]

/-- Non-vacuity of c150_returns and c150_undisturbed: two Sends at the same time. -/
example :
    let p := St.init exMem [] [[], [0]]
    let s2 : List Choice := [.snd 1, .snd 1] ++ List.replicate 10 (.snd 0)
    (p.run ([] ++ .snd 0 :: s2)).snds[0]? = some ([], .done [10, 20, 30] [(1, [rn 10]), (2, [rn 20]), (3, [rn 30])]) ∧ (∀ c ∈ s2, ∃ j, c = .snd j) := by
  refine ⟨?_, ?_⟩
  · simp [St.init, St.run, St.step, sndStep, exMem, rn]
  · intro c hc
    simp only [List.mem_append, List.mem_cons, List.not_mem_nil, or_false, List.mem_replicate] at hc
    rcases hc with (rfl | rfl) | ⟨_, rfl⟩ <;> exact ⟨_, rfl⟩

/-- Non-vacuity of c150_changes_return and c150_changes_return_partial: in the middle of a Send, and of a call that removes the first id, the goroutine goes on alone, to the end of its calls. -/
example :
    let p := St.init exMem [[.removeKey 1, .add 2 (rn 21)]] [[]]
    memOps Reg.zero exOps = some exMem ∧
    (p.run ([.snd 0, .snd 0, .chg 0, .chg 0, .chg 0] ++ List.replicate 7 (.chg 0))).muts = [(.idle, [])] ∧
    (p.run ([.snd 0, .snd 0, .chg 0, .chg 0, .chg 0] ++ List.replicate 7 (.chg 0))).reg.receivers = [(2, [rn 20, rn 21]), (3, [rn 30])] := by
  refine ⟨exMem_made, ?_, ?_⟩ <;>
  simp [St.init, St.run, St.step, mutStep, sndStep, planAt, key, exMem, Reg.receivers, search_three, search_two, Write.perform, shift, rn]

end Micro.Event.Conc
