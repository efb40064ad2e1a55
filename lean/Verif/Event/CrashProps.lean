import Verif.Event.CrashModel
import Verif.Event.RemoveProps
set_option linter.unusedSimpArgs false
/-
C146: receivers that panic.
-/
namespace Micro.Event
open Micro Micro.Funcs

variable {P I R T : Type} [LinearOrder I]

/-! ### Specification -/

/-- All the receivers of a registry, with their ids, in the order of ids and of registration. -/
def flat (l : List (I × List R)) : List (I × R) := l.flatMap fun e => e.2.map fun r => (e.1, r)

/-- A history of Register, RemoveId and Remove calls on the registry. -/
def regOps (ptr : R → Nat) (m : Reg I R) : List (MOp I R) → Option (Reg I R)
  | [] => some m
  | .add k v :: ops => (m.register k v).bind fun m => regOps ptr m ops
  | .removeKey k :: ops => (m.removeId k).bind fun m => regOps ptr m ops
  | .removeValue k v all :: ops => (m.remove ptr k v all).bind fun m => regOps ptr m ops

/-- A receiver that computes a value or panics. -/
def compute : Except P T → PProg P I R T
  | .ok v => .ret v
  | .error p => .panic p

/-- A Process function that does not panic and does not recover. -/
def noPanic : Prog I R T → PProg P I R T
  | .ret val => .ret val
  | .register id r k => .register id r (noPanic k)
  | .removeId id k => .removeId id (noPanic k)
  | .remove id r all k => .remove id r all (noPanic k)
  | .send val k => .send val fun x => match x with
    | .ok v => noPanic (k v)
    | .error p => .panic p

/-- The Process function does not send. -/
inductive NoSendP : PProg P I R T → Prop where
  | ret (val : T) : NoSendP (.ret val)
  | panic (p : P) : NoSendP (.panic p)
  | register (id : I) (r : R) (k : PProg P I R T) : NoSendP k → NoSendP (.register id r k)
  | removeId (id : I) (k : PProg P I R T) : NoSendP k → NoSendP (.removeId id k)
  | remove (id : I) (r : R) (all : Bool) (k : PProg P I R T) : NoSendP k → NoSendP (.remove id r all k)

/-- The same Process function, which returns d where it would panic. -/
def insteadOfPanic (d : P → T) : PProg P I R T → PProg P I R T
  | .ret val => .ret val
  | .panic p => .ret (d p)
  | .register id r k => .register id r (insteadOfPanic d k)
  | .removeId id k => .removeId id (insteadOfPanic d k)
  | .remove id r all k => .remove id r all (insteadOfPanic d k)
  | .send val k => .send val fun x => insteadOfPanic d (k x)

/-! ### Receivers that compute or panic -/

private theorem innerP_plain (f : R → T → Except P T) (call : R → T → Reg I R → Option (Except P T × Reg I R))
    (hc : ∀ r v m, call r v m = some (f r v, m)) (id : I) (m : Reg I R) (rs : List R) (val : T) :
    ∃ x log, sendInnerP call id rs val m = some (x, m, log) ∧
      ((∃ w, x = .ok w ∧ rs.foldlM (fun v r => f r v) val = .ok w ∧ log = rs.map fun r => (id, r)) ∨
       (∃ pre r post w p, x = .error p ∧ rs = pre ++ r :: post ∧ pre.foldlM (fun v r => f r v) val = .ok w ∧ f r w = .error p ∧
        log = (pre ++ [r]).map fun r => (id, r))) := by
  induction rs generalizing val with
  | nil => exact ⟨_, _, rfl, Or.inl ⟨val, rfl, rfl, rfl⟩⟩
  | cons r rs ih =>
    simp only [sendInnerP, hc]
    rcases hf : f r val with p | v
    · exact ⟨_, _, rfl, Or.inr ⟨[], r, rs, val, p, rfl, rfl, rfl, hf, rfl⟩⟩
    · obtain ⟨x, log, h1, h2⟩ := ih v
      refine ⟨x, (id, r) :: log, by simp [h1], ?_⟩
      rcases h2 with ⟨w, rfl, h3, rfl⟩ | ⟨pre, r', post, w, p, rfl, rfl, h3, h4, rfl⟩
      · exact Or.inl ⟨w, rfl, by simp [List.foldlM_cons, hf, h3, bind, Except.bind], rfl⟩
      · exact Or.inr ⟨r :: pre, r', post, w, p, rfl, rfl, by simp [List.foldlM_cons, hf, h3, bind, Except.bind], h4, rfl⟩

private theorem outerP_plain (f : R → T → Except P T) (call : R → T → Reg I R → Option (Except P T × Reg I R))
    (hc : ∀ r v m, call r v m = some (f r v, m)) (arr : Nat) (m : Reg I R) : ∀ n i val, i + n ≤ (m.arrs arr).length →
    ∃ x log, sendOuterP call arr n i val m = some (x, m, log) ∧
      ((∃ w, x = .ok w ∧ (flat (((m.arrs arr).drop i).take n)).foldlM (fun v r => f r.2 v) val = .ok w ∧ log = flat (((m.arrs arr).drop i).take n)) ∨
       (∃ pre r post w p, x = .error p ∧ flat (((m.arrs arr).drop i).take n) = pre ++ r :: post ∧ pre.foldlM (fun v r => f r.2 v) val = .ok w ∧
        f r.2 w = .error p ∧ log = pre ++ [r])) := by
  intro n
  induction n with
  | zero => intro i val _; exact ⟨_, _, rfl, Or.inl ⟨val, rfl, by simp [flat, pure, Except.pure], by simp [flat]⟩⟩
  | succ n ih =>
    intro i val h
    have hi : i < (m.arrs arr).length := by omega
    obtain ⟨x, log, h1, h2⟩ := innerP_plain f call hc (m.arrs arr)[i].1 m (m.arrs arr)[i].2 val
    have hd : flat (((m.arrs arr).drop i).take (n + 1)) = ((m.arrs arr)[i].2.map fun r => ((m.arrs arr)[i].1, r)) ++
        flat (((m.arrs arr).drop (i + 1)).take n) := by
      rw [List.drop_eq_getElem_cons hi]
      simp only [flat, List.take_succ_cons, List.flatMap_cons]
    have hfold : ∀ (id : I) (rs : List R) (val : T), (rs.map fun r => (id, r)).foldlM (fun v (r : I × R) => f r.2 v) val = rs.foldlM (fun v r => f r v) val := by
      intro id rs val; rw [List.foldlM_map]
    simp only [sendOuterP, List.getElem?_eq_getElem hi, h1]
    rw [hd]
    rcases h2 with ⟨w, rfl, h3, rfl⟩ | ⟨pre, r', post, w, p, rfl, h0, h3, h4, rfl⟩
    · obtain ⟨x', log', k1, k2⟩ := ih (i + 1) w (by omega)
      refine ⟨x', _, by simp only [k1, Option.map_some]; rfl, ?_⟩
      rcases k2 with ⟨w', rfl, k3, rfl⟩ | ⟨pre, r', post, w', p, rfl, k0, k3, k4, rfl⟩
      · refine Or.inl ⟨w', rfl, ?_, rfl⟩
        rw [List.foldlM_append, hfold, h3]
        exact k3
      · refine Or.inr ⟨((m.arrs arr)[i].2.map fun r => ((m.arrs arr)[i].1, r)) ++ pre, r', post, w', p, rfl, by rw [k0, List.append_assoc], ?_, k4, by simp⟩
        rw [List.foldlM_append, hfold, h3]
        exact k3
    · refine ⟨_, _, rfl, Or.inr ⟨pre.map fun r => ((m.arrs arr)[i].1, r), ((m.arrs arr)[i].1, r'), (post.map fun r => ((m.arrs arr)[i].1, r)) ++
        flat (((m.arrs arr).drop (i + 1)).take n), w, p, rfl, by rw [h0]; simp, by rw [hfold]; exact h3, h4, by simp⟩⟩

/-- C146: receivers that compute a value or panic. Send passes the value through the receivers in order; if one of them panics, Send panics with the
same value, no receiver after that one is called, and the registry is as before. -/
theorem c146_send (ptr : R → Nat) (f : R → T → Except P T) (m : Reg I R) (hm : m.Ok) (depth : Nat) (val : T) :
    (∃ w, (flat m.receivers).foldlM (fun v r => f r.2 v) val = .ok w ∧
      sendP ptr (fun r v => compute (f r v)) (depth + 1) m val = some (.ok w, m, flat m.receivers)) ∨
    (∃ pre id r post w p, flat m.receivers = pre ++ (id, r) :: post ∧ pre.foldlM (fun v r => f r.2 v) val = .ok w ∧ f r w = .error p ∧
      sendP ptr (fun r v => compute (f r v)) (depth + 1) m val = some (.error p, m, pre ++ [(id, r)])) := by
  obtain ⟨x, log, h1, h2⟩ := outerP_plain f (fun rcvr v m => execP ptr (fun m w => (sendP ptr (fun r v => compute (f r v)) depth m w).map
    fun (x, m', _) => (x, m')) (compute (f rcvr v)) m) (fun r v m => by rcases f r v with p | w <;> rfl) m.cur m m.len 0 val (by have := hm.2; omega)
  simp only [List.drop_zero] at h2
  rcases h2 with ⟨w, rfl, h3, rfl⟩ | ⟨pre, ⟨id, r⟩, post, w, p, rfl, h0, h3, h4, rfl⟩
  · exact Or.inl ⟨w, h3, h1⟩
  · exact Or.inr ⟨pre, id, r, post, w, p, h0, h3, h4, h1⟩

/-- C146: a Send after a panic starts again with the first receiver: once the receivers do not panic any more the event reaches all of them, as if
nothing had happened. -/
theorem c146_again (ptr : R → Nat) (f g : R → T → Except P T) (m m' : Reg I R) (hm : m.Ok) (depth : Nat) (val val' w : T) (p : P) (log : List (I × R))
    (h : sendP ptr (fun r v => compute (f r v)) (depth + 1) m val = some (.error p, m', log))
    (hg : (flat m.receivers).foldlM (fun v r => g r.2 v) val' = .ok w) :
    sendP ptr (fun r v => compute (g r v)) (depth + 1) m' val' = some (.ok w, m', flat m.receivers) := by
  have hmm : m' = m := by
    rcases c146_send ptr f m hm depth val with ⟨w, h1, h2⟩ | ⟨pre, id, r, post, w, p', h1, h2, h3, h4⟩
    · rw [h2] at h; simp at h
    · rw [h4] at h; simp at h; exact h.2.1.symm
  subst hmm
  rcases c146_send ptr g m' hm depth val' with ⟨w', h1, h2⟩ | ⟨pre, id, r, post, w', p', h1, h2, h3, h4⟩
  · rw [h1] at hg; simp at hg; rw [h2, hg]
  · rw [h1, List.foldlM_append, h2] at hg
    simp [List.foldlM_cons, h3, bind, Except.bind] at hg

/-! ### Receivers that do not panic -/

private theorem noPanic_exec (ptr : R → Nat) (sf : Reg I R → T → Option (Reg I R × T)) (sp : Reg I R → T → Option (Except P T × Reg I R))
    (hs : ∀ m v, sp m v = (sf m v).map fun (m', w) => (.ok w, m')) (p : Prog I R T) (m : Reg I R) :
    execP ptr sp (noPanic p) m = (exec ptr sf p m).map fun (m', w) => (.ok w, m') := by
  induction p generalizing m with
  | ret val => rfl
  | register id r k ih => simp only [noPanic, execP, exec]; cases m.register id r <;> simp [ih]
  | removeId id k ih => simp only [noPanic, execP, exec]; cases m.removeId id <;> simp [ih]
  | remove id r all k ih => simp only [noPanic, execP, exec]; cases m.remove ptr id r all <;> simp [ih]
  | send val k ih => simp only [noPanic, execP, exec, hs]; cases sf m val <;> simp [ih]

private theorem noPanic_inner (cf : R → T → Reg I R → Option (Reg I R × T)) (cp : R → T → Reg I R → Option (Except P T × Reg I R))
    (hc : ∀ r v m, cp r v m = (cf r v m).map fun (m', w) => (.ok w, m')) (id : I) (rs : List R) (val : T) (m : Reg I R) :
    sendInnerP cp id rs val m = (sendInner cf rs val m).map fun (m', w, log) => (.ok w, m', log.map fun r => (id, r)) := by
  induction rs generalizing val m with
  | nil => rfl
  | cons r rs ih =>
    simp only [sendInnerP, sendInner, hc]
    rcases cf r val m with _ | ⟨m', w⟩
    · rfl
    · simp only [Option.map_some, Option.bind_some, ih]
      rcases sendInner cf rs w m' with _ | ⟨_, _, _⟩ <;> rfl

private theorem noPanic_outer (cf : R → T → Reg I R → Option (Reg I R × T)) (cp : R → T → Reg I R → Option (Except P T × Reg I R))
    (hc : ∀ r v m, cp r v m = (cf r v m).map fun (m', w) => (.ok w, m')) (arr : Nat) : ∀ n i val (m : Reg I R),
    sendOuterP cp arr n i val m = (sendOuter cf arr n i val m).map fun (m', w, log) => (.ok w, m', flat log) := by
  intro n
  induction n with
  | zero => intro i val m; rfl
  | succ n ih =>
    intro i val m
    simp only [sendOuterP, sendOuter]
    rcases (m.arrs arr)[i]? with _ | e
    · rfl
    · simp only [noPanic_inner cf cp hc]
      rcases sendInner cf e.2 val m with _ | ⟨m', w, log⟩
      · rfl
      · simp only [Option.map_some, ih]
        rcases sendOuter cf arr n (i + 1) w m' with _ | ⟨_, _, _⟩ <;> simp [flat]

/-- C146: if no receiver panics, all is as C45 and C106 say, whatever the receivers do with the registry. -/
theorem c146_conservative (ptr : R → Nat) (proc : R → T → Prog I R T) (depth : Nat) (m : Reg I R) (val : T) :
    sendP (P := P) ptr (fun r v => noPanic (proc r v)) depth m val =
      (sendReg ptr proc depth m val).map fun (m', w, log) => (.ok w, m', flat log) := by
  induction depth generalizing m val with
  | zero => rfl
  | succ d ih =>
    unfold sendP sendReg
    apply noPanic_outer
    intro r v m
    apply noPanic_exec
    intro m v
    rw [ih]
    rcases sendReg ptr proc d m v with _ | ⟨_, _, _⟩ <;> rfl

/-! ### What is left behind -/

theorem regOps_append (ptr : R → Nat) (m : Reg I R) (a b : List (MOp I R)) : regOps ptr m (a ++ b) = (regOps ptr m a).bind fun m' => regOps ptr m' b := by
  induction a generalizing m with
  | nil => rfl
  | cons o a ih =>
    rcases o with ⟨k, v⟩ | k | ⟨k, v, all⟩ <;> simp only [List.cons_append, regOps, Option.bind_assoc] <;> congr 1 <;> funext m' <;> exact ih m'

private theorem exec_history (ptr : R → Nat) (sp : Reg I R → T → Option (Except P T × Reg I R))
    (hs : ∀ m v x m', sp m v = some (x, m') → ∃ ops, regOps ptr m ops = some m') (p : PProg P I R T) :
    ∀ (m m' : Reg I R) x, execP ptr sp p m = some (x, m') → ∃ ops, regOps ptr m ops = some m' := by
  induction p with
  | ret val => intro m m' x h; simp [execP] at h; exact ⟨[], by simp [regOps, h]⟩
  | panic p => intro m m' x h; simp [execP] at h; exact ⟨[], by simp [regOps, h]⟩
  | register id r k ih =>
    intro m m' x h
    simp only [execP, Option.bind_eq_some_iff] at h
    obtain ⟨m1, h1, h2⟩ := h
    obtain ⟨ops, h3⟩ := ih m1 m' x h2
    exact ⟨.add id r :: ops, by simp [regOps, h1, h3]⟩
  | removeId id k ih =>
    intro m m' x h
    simp only [execP, Option.bind_eq_some_iff] at h
    obtain ⟨m1, h1, h2⟩ := h
    obtain ⟨ops, h3⟩ := ih m1 m' x h2
    exact ⟨.removeKey id :: ops, by simp [regOps, h1, h3]⟩
  | remove id r all k ih =>
    intro m m' x h
    simp only [execP, Option.bind_eq_some_iff] at h
    obtain ⟨m1, h1, h2⟩ := h
    obtain ⟨ops, h3⟩ := ih m1 m' x h2
    exact ⟨.removeValue id r all :: ops, by simp [regOps, h1, h3]⟩
  | send val k ih =>
    intro m m' x h
    simp only [execP, Option.bind_eq_some_iff] at h
    obtain ⟨⟨r, m1⟩, h1, h2⟩ := h
    obtain ⟨a, h3⟩ := hs _ _ _ _ h1
    obtain ⟨b, h4⟩ := ih r m1 m' x h2
    exact ⟨a ++ b, by simp [regOps_append, h3, h4]⟩

private theorem inner_history (ptr : R → Nat) (cp : R → T → Reg I R → Option (Except P T × Reg I R))
    (hc : ∀ r v m m' x, cp r v m = some (x, m') → ∃ ops, regOps ptr m ops = some m') (id : I) (rs : List R) :
    ∀ val (m m' : Reg I R) x log, sendInnerP cp id rs val m = some (x, m', log) → ∃ ops, regOps ptr m ops = some m' := by
  induction rs with
  | nil => intro val m m' x log h; simp [sendInnerP] at h; exact ⟨[], by simp [regOps, h]⟩
  | cons r rs ih =>
    intro val m m' x log h
    simp only [sendInnerP] at h
    rcases hr : cp r val m with _ | ⟨p | v, m1⟩ <;> simp only [hr] at h
    · simp at h
    · simp at h; obtain ⟨-, rfl, -⟩ := h; exact hc _ _ _ _ _ hr
    · simp only [Option.map_eq_some_iff] at h
      obtain ⟨⟨x', m2, log'⟩, h1, h2⟩ := h
      simp at h2
      obtain ⟨-, rfl, -⟩ := h2
      obtain ⟨a, h3⟩ := hc _ _ _ _ _ hr
      obtain ⟨b, h4⟩ := ih _ _ _ _ _ h1
      exact ⟨a ++ b, by simp [regOps_append, h3, h4]⟩

private theorem outer_history (ptr : R → Nat) (cp : R → T → Reg I R → Option (Except P T × Reg I R))
    (hc : ∀ r v m m' x, cp r v m = some (x, m') → ∃ ops, regOps ptr m ops = some m') (arr : Nat) : ∀ n i val (m m' : Reg I R) x log,
    sendOuterP cp arr n i val m = some (x, m', log) → ∃ ops, regOps ptr m ops = some m' := by
  intro n
  induction n with
  | zero => intro i val m m' x log h; simp [sendOuterP] at h; exact ⟨[], by simp [regOps, h]⟩
  | succ n ih =>
    intro i val m m' x log h
    simp only [sendOuterP] at h
    rcases he : (m.arrs arr)[i]? with _ | e <;> simp only [he] at h
    · simp at h
    · rcases hr : sendInnerP cp e.1 e.2 val m with _ | ⟨p | v, m1, l1⟩ <;> simp only [hr] at h
      · simp at h
      · simp at h; obtain ⟨-, rfl, -⟩ := h; exact inner_history ptr cp hc _ _ _ _ _ _ _ hr
      · simp only [Option.map_eq_some_iff] at h
        obtain ⟨⟨x', m2, log'⟩, h1, h2⟩ := h
        simp at h2
        obtain ⟨-, rfl, -⟩ := h2
        obtain ⟨a, h3⟩ := inner_history ptr cp hc _ _ _ _ _ _ _ hr
        obtain ⟨b, h4⟩ := ih _ _ _ _ _ _ h1
        exact ⟨a ++ b, by simp [regOps_append, h3, h4]⟩

/-- C146: whatever the receivers do, and whether Send returns or panics: the registry it leaves behind is what some sequence of whole calls of Register,
RemoveId and Remove (those the receivers made up to then) makes of the registry there was. It is never left half changed. -/
theorem c146_history (ptr : R → Nat) (proc : R → T → PProg P I R T) (depth : Nat) (m m' : Reg I R) (val : T) (x : Except P T) (log : List (I × R))
    (h : sendP ptr proc depth m val = some (x, m', log)) : ∃ ops, regOps ptr m ops = some m' := by
  induction depth generalizing m m' val x log with
  | zero => simp [sendP] at h
  | succ d ih =>
    unfold sendP at h
    refine outer_history ptr _ ?_ _ _ _ _ _ _ _ _ h
    intro r v m m' x hx
    refine exec_history ptr _ ?_ _ _ _ _ hx
    intro m v x m' hs
    simp only [Option.map_eq_some_iff] at hs
    obtain ⟨⟨x', m2, log'⟩, h1, h2⟩ := hs
    simp at h2
    obtain ⟨-, rfl⟩ := h2
    exact ih _ _ _ _ _ h1

/-! ### Send returns or panics -/

private theorem execP_total (ptr : R → Nat) (sp : Reg I R → T → Option (Except P T × Reg I R)) (p : PProg P I R T) (hp : NoSendP p) :
    ∀ m, m.Ok → ∃ m' x, execP ptr sp p m = some (x, m') ∧ SameShape m m' := by
  induction hp with
  | ret val => intro m hm; exact ⟨m, _, rfl, SameShape.refl hm⟩
  | panic p => intro m hm; exact ⟨m, _, rfl, SameShape.refl hm⟩
  | register id r k _ ih =>
    intro m hm
    obtain ⟨m1, h1, s1⟩ := register_total m hm id r
    obtain ⟨m2, w, h2, s2⟩ := ih m1 s1.1
    exact ⟨m2, w, by simp [execP, h1, h2], s1.trans s2⟩
  | removeId id k _ ih =>
    intro m hm
    obtain ⟨m1, h1, s1⟩ := removeId_total m hm id
    obtain ⟨m2, w, h2, s2⟩ := ih m1 s1.1
    exact ⟨m2, w, by simp [execP, h1, h2], s1.trans s2⟩
  | remove id r all k _ ih =>
    intro m hm
    obtain ⟨m1, h1, s1⟩ := remove_total ptr m hm id r all
    obtain ⟨m2, w, h2, s2⟩ := ih m1 s1.1
    exact ⟨m2, w, by simp [execP, h1, h2], s1.trans s2⟩

private theorem innerP_total (cp : R → T → Reg I R → Option (Except P T × Reg I R)) (hc : ∀ r v m, m.Ok → ∃ m' x, cp r v m = some (x, m') ∧ SameShape m m')
    (id : I) (rs : List R) : ∀ val m, m.Ok → ∃ m' x log, sendInnerP cp id rs val m = some (x, m', log) ∧ SameShape m m' := by
  induction rs with
  | nil => intro val m hm; exact ⟨m, _, _, rfl, SameShape.refl hm⟩
  | cons r rs ih =>
    intro val m hm
    obtain ⟨m1, x, h1, s1⟩ := hc r val m hm
    rcases x with p | v
    · exact ⟨m1, .error p, [(id, r)], by simp [sendInnerP, h1], s1⟩
    · obtain ⟨m2, w, log, h2, s2⟩ := ih v m1 s1.1
      exact ⟨m2, w, (id, r) :: log, by simp [sendInnerP, h1, h2], s1.trans s2⟩

private theorem outerP_total (cp : R → T → Reg I R → Option (Except P T × Reg I R)) (hc : ∀ r v m, m.Ok → ∃ m' x, cp r v m = some (x, m') ∧ SameShape m m')
    (arr : Nat) : ∀ n i val m, m.Ok → arr < m.next → i + n ≤ (m.arrs arr).length → ∃ m' x log, sendOuterP cp arr n i val m = some (x, m', log) ∧ SameShape m m' := by
  intro n
  induction n with
  | zero => intro i val m hm _ _; exact ⟨m, _, [], rfl, SameShape.refl hm⟩
  | succ n ih =>
    intro i val m hm ha hb
    have hi : i < (m.arrs arr).length := by omega
    obtain ⟨m1, x, log, h1, s1⟩ := innerP_total cp hc (m.arrs arr)[i].1 (m.arrs arr)[i].2 val m hm
    rcases x with p | v
    · exact ⟨m1, .error p, log, by simp [sendOuterP, List.getElem?_eq_getElem hi, h1], s1⟩
    · obtain ⟨m2, w, log', h2, s2⟩ := ih (i + 1) v m1 s1.1 (Nat.lt_of_lt_of_le ha s1.2.1) (by rw [s1.2.2 arr ha]; omega)
      exact ⟨m2, w, log ++ log', by simp [sendOuterP, List.getElem?_eq_getElem hi, h1, h2], s1.trans s2⟩

/-- C146: if no receiver sends, Send returns or panics with the value a receiver panicked with, whatever the receivers do to the registry, and leaves
a registry behind that can be used. -/
theorem c146_terminates (ptr : R → Nat) (proc : R → T → PProg P I R T) (hp : ∀ r v, NoSendP (proc r v)) (m : Reg I R) (hm : m.Ok) (val : T) :
    ∃ m' x log, sendP ptr proc 1 m val = some (x, m', log) ∧ m'.Ok := by
  obtain ⟨m', x, log, h, s⟩ := outerP_total _ (fun r v m hm => execP_total ptr _ (proc r v) (hp r v) m hm) m.cur m.len 0 val m hm hm.1 (by have := hm.2; omega)
  exact ⟨m', x, log, h, s.1⟩

/-! ### The receivers before the panic -/

private theorem execP_instead (ptr : R → Nat) (d : P → T) (sp sp' : Reg I R → T → Option (Except P T × Reg I R)) (p : PProg P I R T) (hp : NoSendP p) :
    ∀ m, execP ptr sp' (insteadOfPanic d p) m = (execP ptr sp p m).map fun (x, m') => (match x with | .ok v => .ok v | .error p => .ok (d p), m') := by
  induction hp with
  | ret val => intro m; rfl
  | panic p => intro m; rfl
  | register id r k _ ih => intro m; simp only [insteadOfPanic, execP]; cases m.register id r <;> simp [ih]
  | removeId id k _ ih => intro m; simp only [insteadOfPanic, execP]; cases m.removeId id <;> simp [ih]
  | remove id r all k _ ih => intro m; simp only [insteadOfPanic, execP]; cases m.remove ptr id r all <;> simp [ih]

private theorem innerP_instead (cp cp' : R → T → Reg I R → Option (Except P T × Reg I R)) (d : P → T)
    (hc : ∀ r v m, cp' r v m = (cp r v m).map fun (x, m') => (match x with | .ok v => .ok v | .error p => .ok (d p), m')) (id : I) (rs : List R) :
    ∀ val m x m' log y n' log', sendInnerP cp id rs val m = some (x, m', log) → sendInnerP cp' id rs val m = some (y, n', log') →
      log <+: log' ∧ (∀ v, x = .ok v → (y, n', log') = (.ok v, m', log)) ∧ ∃ w, y = .ok w := by
  induction rs with
  | nil =>
    intro val m x m' log y n' log' h1 h2
    simp [sendInnerP] at h1 h2
    obtain ⟨rfl, rfl, rfl⟩ := h1
    obtain ⟨rfl, rfl, rfl⟩ := h2
    simp
  | cons r rs ih =>
    intro val m x m' log y n' log' h1 h2
    simp only [sendInnerP, hc] at h1 h2
    rcases hr : cp r val m with _ | ⟨p | v, m1⟩ <;> simp only [hr, Option.map_some, Option.map_none] at h1 h2
    · simp at h1
    · simp at h1
      obtain ⟨rfl, rfl, rfl⟩ := h1
      simp only [Option.map_eq_some_iff] at h2
      obtain ⟨⟨x2, m2, l2⟩, k1, k2⟩ := h2
      simp at k2
      obtain ⟨rfl, rfl, rfl⟩ := k2
      refine ⟨by simp, by simp, ?_⟩
      clear hr
      -- the rest never panics
      have : ∀ (rs : List R) val m y n' log', sendInnerP cp' id rs val m = some (y, n', log') → ∃ w, y = .ok w := by
        intro rs
        induction rs with
        | nil => intro val m y n' log' h; simp [sendInnerP] at h; exact ⟨_, h.1.symm⟩
        | cons r rs ih =>
          intro val m y n' log' h
          simp only [sendInnerP, hc] at h
          rcases hr : cp r val m with _ | ⟨p | v, m1⟩ <;> simp only [hr, Option.map_some, Option.map_none, Option.map_eq_some_iff] at h
          · simp at h
          all_goals
            obtain ⟨⟨x3, m3, l3⟩, k1, k2⟩ := h
            simp at k2
            obtain ⟨rfl, -, -⟩ := k2
            exact ih _ _ _ _ _ k1
      exact this _ _ _ _ _ _ k1
    · simp only [Option.map_eq_some_iff] at h1 h2
      obtain ⟨⟨x2, m2, l2⟩, k1, k2⟩ := h1
      obtain ⟨⟨x3, m3, l3⟩, k3, k4⟩ := h2
      simp at k2 k4
      obtain ⟨rfl, rfl, rfl⟩ := k2
      obtain ⟨rfl, rfl, rfl⟩ := k4
      obtain ⟨a1, a2, a3⟩ := ih _ _ _ _ _ _ _ _ k1 k3
      refine ⟨by simpa using a1, ?_, a3⟩
      intro v hv
      have := a2 v hv
      simp at this ⊢
      exact this

/-- C146: what happens before a panic does not depend on it: if no receiver sends, the receivers called are the first of those that would be called if
the receivers returned a value where they panic. -/
theorem c146_prefix (ptr : R → Nat) (d : P → T) (proc : R → T → PProg P I R T) (hp : ∀ r v, NoSendP (proc r v)) (m m' n' : Reg I R) (val : T)
    (x y : Except P T) (log log' : List (I × R)) (h1 : sendP ptr proc 1 m val = some (x, m', log))
    (h2 : sendP ptr (fun r v => insteadOfPanic d (proc r v)) 1 m val = some (y, n', log')) :
    log <+: log' ∧ (∀ v, x = .ok v → (y, n', log') = (.ok v, m', log)) := by
  unfold sendP at h1 h2
  have hc : ∀ (r : R) (v : T) (m : Reg I R), (fun rcvr v m => execP ptr (fun m w => (sendP ptr (fun r v => insteadOfPanic d (proc r v)) 0 m w).map
        fun (x, m', _) => (x, m')) (insteadOfPanic d (proc rcvr v)) m) r v m =
      ((fun rcvr v m => execP ptr (fun m w => (sendP ptr proc 0 m w).map fun (x, m', _) => (x, m')) (proc rcvr v) m) r v m).map
        fun (x, m') => (match x with | .ok v => .ok v | .error p => .ok (d p), m') := fun r v m => execP_instead ptr d _ _ _ (hp r v) m
  generalize (fun rcvr v m => execP ptr (fun m w => (sendP ptr (fun r v => insteadOfPanic d (proc r v)) 0 m w).map
        fun (x, m', _) => (x, m')) (insteadOfPanic d (proc rcvr v)) m) = cp' at hc h2
  generalize (fun rcvr v m => execP ptr (fun m w => (sendP ptr proc 0 m w).map fun (x, m', _) => (x, m')) (proc rcvr v) m) = cp at hc h1
  generalize m.cur = arr at h1 h2
  generalize m.len = len at h1 h2
  generalize 0 = i at h1 h2
  induction len generalizing i val m x m' log y n' log' with
  | zero =>
    simp [sendOuterP] at h1 h2
    obtain ⟨rfl, rfl, rfl⟩ := h1
    obtain ⟨rfl, rfl, rfl⟩ := h2
    simp
  | succ n ih =>
    simp only [sendOuterP] at h1 h2
    rcases he : (m.arrs arr)[i]? with _ | e <;> simp only [he] at h1 h2
    · simp at h1
    · rcases hr : sendInnerP cp e.1 e.2 val m with _ | ⟨x1, m1, l1⟩ <;> simp only [hr] at h1
      · simp at h1
      rcases hr' : sendInnerP cp' e.1 e.2 val m with _ | ⟨y1, n1, l1'⟩ <;> simp only [hr'] at h2
      · simp at h2
      obtain ⟨a1, a2, w, rfl⟩ := innerP_instead cp cp' d hc _ _ _ _ _ _ _ _ _ _ hr hr'
      simp only [Option.map_eq_some_iff] at h2
      obtain ⟨⟨x3, m3, l3⟩, k3, k4⟩ := h2
      simp at k4
      obtain ⟨rfl, rfl, rfl⟩ := k4
      rcases x1 with p | v
      · simp at h1
        obtain ⟨rfl, rfl, rfl⟩ := h1
        exact ⟨a1.trans (List.prefix_append _ _), by simp⟩
      · have := a2 v rfl
        simp at this
        obtain ⟨rfl, rfl, rfl⟩ := this
        simp only [Option.map_eq_some_iff] at h1
        obtain ⟨⟨x2, m2, l2⟩, k1, k2⟩ := h1
        simp at k2
        obtain ⟨rfl, rfl, rfl⟩ := k2
        obtain ⟨b1, b2⟩ := ih _ _ _ _ _ _ _ _ _ k1 k3
        refine ⟨(List.prefix_append_right_inj _).mpr b1, ?_⟩
        intro v hv
        have := b2 v hv
        simp at this ⊢
        exact this

/-! ### Taking out the receiver that panics -/

/-- C146: removing a receiver (all its registrations under the id) after it has panicked: the next Send passes the event through all the others. -/
theorem c146_removed (ptr : R → Nat) (f : R → T → Except P T) (m : Reg I R) (hm : m.Ok) (hs : SortedKeys m.receivers) (id : I) (r : R)
    (hr : (id, r) ∈ flat m.receivers) (depth : Nat) (val w : T)
    (hf : ((flat m.receivers).filter fun x => !(decide (x.1 = id) && ptr x.2 == ptr r)).foldlM (fun v r => f r.2 v) val = .ok w) :
    ∃ m', m.remove ptr id r true = some m' ∧ flat m'.receivers = ((flat m.receivers).filter fun x => !(decide (x.1 = id) && ptr x.2 == ptr r)) ∧
      sendP ptr (fun r v => compute (f r v)) (depth + 1) m' val = some (.ok w, m', flat m'.receivers) := by
  obtain ⟨e, he, hre⟩ := List.mem_flatMap.mp hr
  obtain ⟨r', -, hrr⟩ := List.mem_map.mp hre
  simp only [Prod.mk.injEq] at hrr
  obtain ⟨he1, -⟩ := hrr
  obtain ⟨k, vs⟩ := e
  simp only at he1
  subst he1
  obtain ⟨A, B, hk⟩ := List.append_of_mem he
  have hsearch := search_at m.receivers hs A B k vs hk
  have hrem : m.remove ptr k r true = some (m.assign A.length (k, sliceRemoveUncomparable ptr vs r [true])) := by
    unfold Reg.remove
    rw [hsearch]
    have : m.receivers[A.length]? = some (k, vs) := by rw [hk]; simp
    simp only [this]
  obtain ⟨m', h1, h2⟩ := remove_total ptr m hm k r true
  have hm' : m' = m.assign A.length (k, sliceRemoveUncomparable ptr vs r [true]) := by rw [hrem] at h1; simpa using h1.symm
  have hrec := assign_receivers m A B k vs (k, sliceRemoveUncomparable ptr vs r [true]) hk
  rw [← hm'] at hrec
  have hother : ∀ l : List (I × List R), (∀ e ∈ l, e.1 ≠ k) → (flat l).filter (fun x => !(decide (x.1 = k) && ptr x.2 == ptr r)) = flat l := by
    intro l hl
    rw [List.filter_eq_self]
    intro x hx
    obtain ⟨e, he, hre⟩ := List.mem_flatMap.mp hx
    obtain ⟨r', -, rfl⟩ := List.mem_map.mp hre
    simp [hl e he]
  have hs' := hs
  rw [hk] at hs'
  unfold SortedKeys at hs'
  rw [List.pairwise_append, List.pairwise_cons] at hs'
  obtain ⟨-, ⟨hB, -⟩, hA⟩ := hs'
  have hflat : flat m'.receivers = ((flat m.receivers).filter fun x => !(decide (x.1 = k) && ptr x.2 == ptr r)) := by
    have happ : ∀ a b : List (I × List R), flat (a ++ b) = flat a ++ flat b := by intro a b; simp [flat]
    have hcons : ∀ (e : I × List R) b, flat (e :: b) = (e.2.map fun r => (e.1, r)) ++ flat b := by intro e b; simp [flat]
    rw [hrec, hk, happ, happ, hcons, hcons, List.filter_append, List.filter_append,
      hother A (fun e he => ne_of_lt (hA e he (k, vs) (by simp))), hother B (fun e he => ne_of_gt (hB e he)), sliceRemoveUncomparable_eq]
    simp only [if_true, List.filter_map]
    congr 3
    apply List.filter_congr
    intro x _
    simp
  refine ⟨m', h1, hflat, ?_⟩
  rcases c146_send ptr f m' h2.1 depth val with ⟨w', h3, h4⟩ | ⟨pre, id', r', post, w', p, h3, h4, h5, h6⟩
  · rw [hflat, hf] at h3
    simp at h3
    rw [h4, h3]
  · rw [← hflat, h3, List.foldlM_append, h4] at hf
    simp [List.foldlM_cons, h5, bind, Except.bind] at hf

/-! ### Examples -/

/-- Receiver 20 panics, the others add their number. -/
def exPanic (r : Nat) (v : List Nat) : Except String (List Nat) := if r = 20 then .error "twenty" else .ok (v ++ [r])

/-- Receiver 10 registers 60 under id 1 and then panics. -/
def exPanic2 (r : Nat) (v : List Nat) : PProg String Nat Nat (List Nat) := if r = 10 then .register 1 60 (.panic "ten") else .ret (v ++ [r])

theorem exPanic2_noSend (r : Nat) (v : List Nat) : NoSendP (exPanic2 r v) := by
  unfold exPanic2; split
  · exact .register _ _ _ (.panic _)
  · exact .ret _

/-- Receiver 20 is the second of three: the first is called, the third is not. -/
def exReg3 : Reg Nat Nat := ⟨fun a => if a = 0 then [(1, [10]), (2, [20, 30])] else [], 1, 0, 2⟩

example : sendP id (fun r v => compute (exPanic r v)) 1 exReg3 [] = some (.error "twenty", exReg3, [(1, 10), (2, 20)]) := rfl
example := c146_send id exPanic exReg3 ⟨by decide, by decide⟩ 0 []
example := c146_again id exPanic (fun r v => .ok (v ++ [r])) exReg3 exReg3 ⟨by decide, by decide⟩ 0 [] [] [10, 20, 30] "twenty" [(1, 10), (2, 20)] rfl rfl
example := c146_removed id exPanic exReg3 ⟨by decide, by decide⟩ (by simp [exReg3, Reg.receivers, SortedKeys]) 2 20 (by decide) 0 [] [10, 30] rfl
example := c146_conservative (P := String) id (fun r v => (.register 7 9 (.ret (v ++ [r])) : Prog Nat Nat (List Nat))) 1 exReg3 []
example := c146_terminates id exPanic2 exPanic2_noSend exReg3 ⟨by decide, by decide⟩ []
/-- The change made before the panic stays. -/
example : (sendP id exPanic2 1 exReg3 []).map (fun x => x.2.1.receivers) = some [(1, [10, 60]), (2, [20, 30])] := by
  simp [sendP, sendOuterP, sendInnerP, exReg3, exPanic2, execP, Reg.register, Reg.receivers, search_two, Reg.assign]
example : ∃ x m' log, sendP id exPanic2 1 exReg3 [] = some (x, m', log) ∧ ∃ ops, regOps id exReg3 ops = some m' := by
  obtain ⟨m', x, log, h, -⟩ := c146_terminates id exPanic2 exPanic2_noSend exReg3 ⟨by decide, by decide⟩ []
  exact ⟨x, m', log, h, c146_history _ _ _ _ _ _ _ _ h⟩
example := c146_prefix id (fun _ => [99]) (fun r v => compute (exPanic r v)) (fun r v => by
    unfold exPanic; split
    · exact .panic _
    · exact .ret _) exReg3 exReg3 exReg3 [] (.error "twenty") (.ok [99, 30]) [(1, 10), (2, 20)] [(1, 10), (2, 20), (2, 30)] rfl rfl

end Micro.Event
