import Verif.Event.Lemmas
import Verif.Funcs.Props
import Mathlib.Data.Nat.Basic
set_option linter.unusedSimpArgs false
/-
Theorems C106: receivers that change the registry, or send, while an event is being sent.
-/
namespace Micro.Event
open Micro Micro.Funcs

variable {I R T : Type} [LinearOrder I]

/-- C106. The zero registry works, and no call of Register, RemoveId or Remove ever panics: after every sequence of them there is a registry. -/
theorem c106_reach (ptr : R → Nat) (p : Prog I R T) (hp : NoSend p) (sendF : Reg I R → T → Option (Reg I R × T)) :
    ∃ m w, exec ptr sendF p Reg.zero = some (m, w) ∧ m.Ok := by
  obtain ⟨m, w, h, s⟩ := exec_total ptr sendF p hp Reg.zero ⟨by simp [Reg.zero], by simp [Reg.zero]⟩
  exact ⟨m, w, h, s.1⟩

/-- C106 (restricted). Receivers may register receivers, remove receivers and send events while an event is being sent. If none of them calls
RemoveId, Send visits the ids there were at the start, each once and in order, and of the receivers of an id that nobody removes it calls those
registered at the start, each once, in order and first. Missing: receivers that call RemoveId, for which the claim is false
(`c106_removeId_refuted`). -/
theorem c106_send_partial (ptr : R → Nat) (removed : R → Bool) (proc : R → T → Prog I R T) (hp : ∀ r v, NoRemoveId ptr removed (proc r v))
    (m : Reg I R) (hm : m.Ok) (depth : Nat) (val : T) (m' : Reg I R) (w : T) (called : List (I × List R))
    (h : sendReg ptr proc depth m val = some (m', w, called)) :
    List.Forall₂ (fun atStart now => now.1 = atStart.1 ∧ (atStart.2.filter fun r => !removed r) <+: (now.2.filter fun r => !removed r)) m.receivers called :=
  (sendReg_grown ptr removed proc hp depth m val m' w called hm h).2

/-- C106. If the receivers do not change the registry (they may send), Send calls exactly the registered receivers, in order, and the registry is
as before. -/
theorem c106_quiet (ptr : R → Nat) (proc : R → T → Prog I R T) (hp : ∀ r v, Quiet (proc r v)) (m : Reg I R) (depth : Nat) (val : T) (m' : Reg I R) (w : T)
    (called : List (I × List R)) (h : sendReg ptr proc depth m val = some (m', w, called)) : called = m.receivers ∧ m' = m :=
  (sendReg_quiet ptr proc hp depth m val m' w called h).symm

/-- C106. If no receiver sends, Send returns: it does not panic and does not run forever, whatever the receivers do to the registry. -/
theorem c106_terminates (ptr : R → Nat) (proc : R → T → Prog I R T) (hp : ∀ r v, NoSend (proc r v)) (m : Reg I R) (hm : m.Ok) (val : T) :
    ∃ m' w called, sendReg ptr proc 1 m val = some (m', w, called) ∧ m'.Ok := by
  obtain ⟨m', w, log, h, s⟩ := sendOuter_total _ (fun r v m hm => exec_total ptr _ (proc r v) (hp r v) m hm) m.cur m.len 0 val m hm hm.1 (by have := hm.2; omega)
  exact ⟨m', w, log, h, s.1⟩

theorem sendInner_plain (f : R → T → T) (call : R → T → Reg I R → Option (Reg I R × T)) (hc : ∀ r v m, call r v m = some (m, f r v)) (rs : List R) :
    ∀ val m, sendInner call rs val m = some (m, rs.foldl (fun v r => f r v) val, rs) := by
  induction rs with
  | nil => intro val m; rfl
  | cons r rs ih => intro val m; simp [sendInner, hc, ih]

theorem sendOuter_plain (f : R → T → T) (call : R → T → Reg I R → Option (Reg I R × T)) (hc : ∀ r v m, call r v m = some (m, f r v)) (arr : Nat) :
    ∀ n i val m, i + n ≤ (m.arrs arr).length → sendOuter call arr n i val m =
      some (m, ((((m.arrs arr).drop i).take n).flatMap (·.2)).foldl (fun v r => f r v) val, ((m.arrs arr).drop i).take n) := by
  intro n
  induction n with
  | zero => intro i val m _; simp [sendOuter]
  | succ n ih =>
    intro i val m h
    have hi : i < (m.arrs arr).length := by omega
    have := ih (i + 1) (((m.arrs arr)[i].2).foldl (fun v r => f r v) val) m (by omega)
    simp only [sendOuter, List.getElem?_eq_getElem hi, sendInner_plain f call hc, this]
    rw [List.drop_eq_getElem_cons hi]
    simp only [List.take_succ_cons, List.flatMap_cons, List.foldl_append, Option.map_some]

/-- C106. Receivers that only compute: the value is passed through all of them in order. -/
theorem c106_plain (ptr : R → Nat) (f : R → T → T) (m : Reg I R) (hm : m.Ok) (depth : Nat) (val : T) :
    sendReg ptr (fun r v => .ret (f r v)) (depth + 1) m val = some (m, (m.receivers.flatMap (·.2)).foldl (fun v r => f r v) val, m.receivers) := by
  have := sendOuter_plain f (fun rcvr v m => exec ptr (fun m w => (sendReg ptr (fun r v => .ret (f r v)) depth m w).map fun (m', x, _) => (m', x))
    (.ret (f rcvr v)) m) (fun _ _ _ => rfl) m.cur m.len 0 val m (by have := hm.2; omega)
  simpa [sendReg, Reg.receivers] using this

/-- C106. What Register, RemoveId and Remove do to the slice in memory is what C44 says of the ordered slices, although RemoveId works in place. -/
theorem c106_operations (ptr : R → Nat) (m : Reg I R) (hm : m.Ok) (id : I) (r : R) (all : Bool) :
    (m.register id r).map Reg.receivers = orderedAdd m.receivers id r ∧
    (m.removeId id).map Reg.receivers = orderedRemoveKey m.receivers id ∧
    (m.remove ptr id r all).map Reg.receivers = orderedRemoveUncomparable ptr m.receivers id r [all] := by
  have hl : m.receivers.length = m.len := by have := hm.2; simp [Reg.receivers]; omega
  have hset : ∀ i e, (m.assign i e).receivers = m.receivers.set i e := by
    intro i e
    simp only [Reg.assign, Reg.receivers, Function.update_self]
    rw [List.take_set]
  have halloc : ∀ l, (m.alloc l).receivers = l := by
    intro l; simp [Reg.alloc, Reg.receivers]
  refine ⟨?_, ?_, ?_⟩
  · unfold Reg.register orderedAdd
    rcases search_total m.receivers id with h | ⟨i, b, h, hi⟩
    · rw [h]; simp [halloc]
    · rw [h]
      cases b with
      | true => simp only [List.getElem?_eq_getElem hi, Option.map_some, hset]
      | false => simp only [Option.map_some, halloc]
  · unfold Reg.removeId orderedRemoveKey
    rcases search_total m.receivers id with h | ⟨i, b, h, hi⟩
    · rw [h]; rfl
    · rw [h]
      cases b with
      | false => rfl
      | true =>
        simp only [Option.map_some, Option.some.injEq]
        rw [hl] at hi
        have e1 : ({ m with arrs := Function.update m.arrs m.cur (writeAt (m.arrs m.cur) i (m.receivers.drop (i + 1))), len := m.len - 1 } : Reg I R).receivers =
            (writeAt (m.arrs m.cur) i (m.receivers.drop (i + 1))).take (m.len - 1) := by
          simp only [Reg.receivers, Function.update_self]
        rw [e1]
        have h2 := hm.2
        have hi2 : ((m.arrs m.cur).take i).length = i := by simp; omega
        have hd2 : (m.receivers.drop (i + 1)).length = m.len - (i + 1) := by rw [List.length_drop, hl]
        have ht : m.receivers.take i = (m.arrs m.cur).take i := by
          unfold Reg.receivers
          rw [List.take_take, Nat.min_eq_left (by omega)]
        unfold writeAt
        rw [ht, List.take_append_of_le_length (by rw [List.length_append, hi2, hd2]; omega),
          List.take_of_length_le (by rw [List.length_append, hi2, hd2]; omega)]
  · unfold Reg.remove orderedRemoveUncomparable orderedRemoveWith
    rcases search_total m.receivers id with h | ⟨i, b, h, hi⟩
    · rw [h]; rfl
    · rw [h]
      cases b with
      | true => simp only [List.getElem?_eq_getElem hi, Option.map_some, hset]
      | false => rfl

/-- C106. After every history in which no id is added below the least one there is (C44), a Send passes the value through the receivers of the multimap the
history describes, id by id in order. -/
theorem c106_history (ops : List (MOp I (Recv T))) (h : NeverBelow (fun a b => a.ptr == b.ptr) (MM.empty : MM I (Recv T)) ops) :
    ∃ m ids, memOps Reg.zero ops = some m ∧ List.Pairwise (· < ·) ids ∧
      (∀ i, i ∈ ids ↔ (MM.empty.applyAll (fun a b => a.ptr == b.ptr) ops) i ≠ none) ∧
      ∀ depth val, (sendReg Recv.ptr (fun r v => .ret (r.process v)) (depth + 1) m val).map (fun x => (x.1, x.2.1)) =
        some (m, (ids.flatMap (fun i => ((MM.empty.applyAll (fun a b => a.ptr == b.ptr) ops) i).getD [])).foldl (fun v rcvr => rcvr.process v) val) := by
  obtain ⟨r, ids, h1, h2, h3, h4⟩ := c45_send_partial ops h
  have main : ∀ (ops : List (MOp I (Recv T))) (m : Reg I (Recv T)) (r : Registry I T), m.Ok → regOps m.receivers ops = some r →
      ∃ m', memOps m ops = some m' ∧ m'.receivers = r ∧ m'.Ok := by
    intro ops
    induction ops with
    | nil => intro m r hm hr; simp only [regOps, Option.some.injEq] at hr; exact ⟨m, rfl, hr, hm⟩
    | cons op ops ih =>
      intro m r hm hr
      cases op with
      | add k v =>
        obtain ⟨m1, e1, s1⟩ := register_total m hm k v
        have := (c106_operations Recv.ptr m hm k v false).1
        rw [e1] at this
        simp only [regOps, regOp, register, ← this, Option.map_some, Option.bind_some] at hr
        obtain ⟨m', a, b⟩ := ih m1 r s1.1 hr
        exact ⟨m', by simp only [memOps, e1, Option.bind_some, a], b⟩
      | removeKey k =>
        obtain ⟨m1, e1, s1⟩ := removeId_total m hm k
        by_cases hv : Nonempty (Recv T)
        · obtain ⟨v⟩ := hv
          have := (c106_operations Recv.ptr m hm k v false).2.1
          rw [e1] at this
          simp only [regOps, regOp, removeId, ← this, Option.map_some, Option.bind_some] at hr
          obtain ⟨m', a, b⟩ := ih m1 r s1.1 hr
          exact ⟨m', by simp only [memOps, e1, Option.bind_some, a], b⟩
        · exact absurd ⟨⟨0, id⟩⟩ hv
      | removeValue k v all =>
        obtain ⟨m1, e1, s1⟩ := remove_total Recv.ptr m hm k v all
        have := (c106_operations Recv.ptr m hm k v all).2.2
        rw [e1] at this
        simp only [regOps, regOp, remove, ← this, Option.map_some, Option.bind_some] at hr
        obtain ⟨m', a, b⟩ := ih m1 r s1.1 hr
        exact ⟨m', by simp only [memOps, e1, Option.bind_some, a], b⟩
  have hz : (Reg.zero : Reg I (Recv T)).Ok := ⟨by simp [Reg.zero], by simp [Reg.zero]⟩
  have hr0 : (Reg.zero : Reg I (Recv T)).receivers = [] := by simp [Reg.zero, Reg.receivers]
  obtain ⟨m, e1, e2, e3⟩ := main ops Reg.zero r hz (by rw [hr0]; exact h1)
  refine ⟨m, ids, e1, h2, h3, fun depth val => ?_⟩
  rw [c106_plain Recv.ptr (fun r v => r.process v) m e3 depth val, ← h4 val, e2]
  have hsend : ∀ (r : Registry I T) (val : T), (r.flatMap (·.2)).foldl (fun v r => r.process v) val = send r val := by
    intro r
    induction r with
    | nil => intro val; rfl
    | cons e r ih =>
      intro val
      have hto : ∀ (l : List (Recv T)) (val : T), l.foldl (fun v r => r.process v) val = sendTo l val := by
        intro l
        induction l with
        | nil => intro val; rfl
        | cons x l ih => intro val; exact ih _
      rw [List.flatMap_cons, List.foldl_append, ih, hto]; rfl
  simp [hsend]

theorem search_three {V : Type} (e f g : I × V) (key : I) : search [e, f, g] key =
    if f.1 > key then some (some 0, decide (key = e.1)) else if g.1 > key then some (some 1, decide (key = f.1)) else some (some 2, decide (key = g.1)) := by
  unfold search
  simp only [List.length_cons, List.length_nil]
  rw [if_neg (by omega), searchLoop]
  have h1 : mid 0 2 = 1 := by decide
  simp only [h1]
  simp
  split
  · simp [searchLoop_self]
  · rw [searchLoop]
    simp [mid, searchLoop_self]
    split <;> simp

/-- A registry with receiver 10 under id 1, 20 under 2 and 30 under 3. -/
def exReg : Reg Nat Nat := ⟨fun a => if a = 0 then [(1, [10]), (2, [20]), (3, [30])] else [], 1, 0, 3⟩

/-- Receiver 10 removes its own id; the others do nothing. -/
def exOnce (r : Nat) (v : List Nat) : Prog Nat Nat (List Nat) := if r = 10 then .removeId 1 (.ret (v ++ [r])) else .ret (v ++ [r])

/-- C106 refuted: a receiver that removes its own id (a receiver for one event, say) makes Send skip the receivers of the next id and call those
of the last id twice. -/
theorem c106_removeId_refuted : exReg.Ok ∧ exReg.receivers = [(1, [10]), (2, [20]), (3, [30])] ∧
    (sendReg id exOnce 1 exReg []).map (fun r => (r.2.1, r.1.receivers)) = some ([10, 30, 30], [(2, [20]), (3, [30])]) :=
  ⟨⟨by decide, by decide⟩, by decide, by
    simp [sendReg, sendOuter, sendInner, exec, exReg, exOnce, Reg.removeId, Reg.register, Reg.assign, Reg.alloc, Reg.receivers, search_two, search_three, writeAt, Function.update]⟩

/-- A registry with receiver 10 under id 1 and 20 under 2. -/
def exReg2 : Reg Nat Nat := ⟨fun a => if a = 0 then [(1, [10]), (2, [20])] else [], 1, 0, 2⟩

/-- Receiver 10 registers 40 under id 2, after registering 50 under the given ids. -/
def exLate (before : List Nat) (r : Nat) (v : List Nat) : Prog Nat Nat (List Nat) :=
  if r = 10 then before.foldr (fun i k => .register i 50 k) (.register 2 40 (.ret (v ++ [r]))) else .ret (v ++ [r])

/-- C106 refuted for "at any time": whether a receiver that is registered during Send, under an id that is still to come, is called in this Send
depends on whether a new id was registered in between. -/
theorem c106_register_refuted : (sendReg id (exLate []) 1 exReg2 []).map (·.2.1) = some [10, 20, 40] ∧
    (sendReg id (exLate [3]) 1 exReg2 []).map (·.2.1) = some [10, 20] :=
  ⟨by
    simp [sendReg, sendOuter, sendInner, exec, exReg2, exLate, Reg.removeId, Reg.register, Reg.assign, Reg.alloc, Reg.receivers, search_two, search_three, writeAt, Function.update], by
    simp [sendReg, sendOuter, sendInner, exec, exReg2, exLate, Reg.removeId, Reg.register, Reg.assign, Reg.alloc, Reg.receivers, search_two, search_three, writeAt, Function.update]⟩

/-- Non-vacuity of the hypotheses: the second program meets those of `c106_send_partial` and `c106_terminates`, and its Send returns. -/
example : (∀ r v, NoRemoveId id (fun _ => false) (exLate [3] r v)) ∧ (∀ r v, NoSend (exLate [3] r v)) ∧
    (sendReg id (exLate [3]) 1 exReg2 []).isSome = true := by
  refine ⟨fun r v => ?_, fun r v => ?_, by
    simp [sendReg, sendOuter, sendInner, exec, exReg2, exLate, Reg.removeId, Reg.register, Reg.assign, Reg.alloc, Reg.receivers, search_two, search_three, writeAt, Function.update]⟩
  · unfold exLate
    split
    · exact .register _ _ _ (.register _ _ _ (.ret _))
    · exact .ret _
  · unfold exLate
    split
    · exact .register _ _ _ (.register _ _ _ (.ret _))
    · exact .ret _

/-- Receivers that send: 10 sends an event of its own unless the event is long already. -/
def exSender (r : Nat) (v : List Nat) : Prog Nat Nat (List Nat) := if r = 10 ∧ v.length < 1 then .send [r] .ret else .ret (v ++ [r])

/-- Non-vacuity for `c106_quiet`: a nested Send. -/
example : (∀ r v, Quiet (exSender r v)) ∧ (sendReg id exSender 2 exReg []).map (·.2.1) = some [10, 10, 20, 30, 20, 30] := by
  refine ⟨fun r v => ?_, by decide⟩
  unfold exSender
  split
  · exact .send _ _ (fun _ => .ret _)
  · exact .ret _

end Micro.Event
