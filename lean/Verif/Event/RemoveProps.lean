import Verif.Event.RemoveLemmas
import Verif.Event.Props
import Verif.Funcs.Lemmas
set_option linter.unusedSimpArgs false
/-
Theorems C106: receivers that call RemoveId while an event is being sent.
-/
namespace Micro.Event
open Micro Micro.Funcs

variable {I R T : Type} [LinearOrder I]

/-- C106. Receivers that call RemoveId, as often as they like, and may send: Send still makes as many rounds as there were ids at the start, calls
only ids that were registered at the start, with all their receivers, and goes through them in order (never back); in round p it is at the p-th id
or a later one. So ids may be skipped or called more than once, but nothing else goes wrong. -/
theorem c106_removeId_order (ptr : R → Nat) (proc : R → T → Prog I R T) (hp : ∀ r v, OnlyRemoveId (proc r v)) (m : Reg I R) (hm : m.Ok) (depth : Nat)
    (val : T) (m' : Reg I R) (w : T) (called : List (I × List R)) (h : sendReg ptr proc depth m val = some (m', w, called)) :
    ∃ places : List Nat, List.Forall₂ (fun j e => m.receivers[j]? = some e) places called ∧ called.length = m.receivers.length ∧
      places.Pairwise (· ≤ ·) ∧ ∀ (p j : Nat), places[p]? = some j → p ≤ j := by
  obtain ⟨-, js, k0, k1, k2, k3⟩ := sendReg_shift ptr proc hp depth m val m' w called hm h
  have hl : m.receivers.length = m.len := by have := hm.2; simp [Reg.receivers]; omega
  refine ⟨js, ?_, by rw [← k1.length_eq, k0, hl], k2, fun p j hj => (k3 p j hj).1⟩
  have : ∀ (js : List Nat) (l : List (I × List R)), (∀ j ∈ js, j < m.len) → List.Forall₂ (fun j e => (m.arrs m.cur)[j]? = some e) js l →
      List.Forall₂ (fun j e => m.receivers[j]? = some e) js l := by
    intro js l hlt h
    induction h with
    | nil => exact .nil
    | cons hd _ ih =>
      refine .cons ?_ (ih (fun j hj => hlt j (List.mem_cons_of_mem _ hj)))
      unfold Reg.receivers
      rw [List.getElem?_take, if_pos (hlt _ (List.mem_cons_self ..))]
      exact hd
  refine this js called (fun j hj => ?_) k1
  obtain ⟨p, hp⟩ := List.getElem?_of_mem hj
  exact (k3 p j hp).2

example : ∃ m' w called, sendReg id exOnce 1 exReg [] = some (m', w, called) ∧ ∀ r v, OnlyRemoveId (exOnce r v) := by
  have h := c106_removeId_refuted.2.2
  cases hs : sendReg id exOnce 1 exReg [] with
  | none => rw [hs] at h; cases h
  | some x =>
    refine ⟨x.1, x.2.1, x.2.2, rfl, fun r v => ?_⟩
    unfold exOnce
    split
    · exact .removeId _ _ (.ret _)
    · exact .ret _

/-- A receiver that removes the id k, among receivers that do not touch the registry. -/
def removing [DecidableEq R] (r0 : R) (k : I) (f : R → T → T) (r : R) (v : T) : Prog I R T := if r = r0 then .removeId k (.ret (f r v)) else .ret (f r v)

theorem drop_last {α : Type} (x : α) (B tail : List α) : (x :: B ++ tail).drop B.length = (x :: B).getLast (by simp) :: tail := by
  induction B generalizing x with
  | nil => rfl
  | cons b B ih => simpa using ih b

theorem writeAt_last {α : Type} (A B tail : List α) (x : α) :
    writeAt (A ++ x :: B ++ tail) A.length B = A ++ B ++ (x :: B).getLast (by simp) :: tail := by
  unfold writeAt
  rw [List.append_assoc A, List.take_left, ← List.drop_drop, List.drop_left]
  rw [drop_last]

theorem search_at {V : Type} (mp : List (I × V)) (hs : SortedKeys mp) (A B : List (I × V)) (k : I) (vs : V) (hk : mp = A ++ (k, vs) :: B) :
    search mp k = some (some A.length, true) := by
  rcases search_spec mp hs k with ⟨h, _⟩ | ⟨A', v', B', h, hse⟩ | ⟨A', B', h, _, _, ha, hb⟩ | ⟨_, _, h⟩
  · rw [hk] at h; simp at h
  · have : A'.length = A.length := by
      rw [hk] at h
      have hs' := hs
      rw [hk] at hs'
      by_contra hne
      have hlt : A.length < (A ++ (k, vs) :: B).length := by simp
      have hlt' : A'.length < (A ++ (k, vs) :: B).length := by rw [h]; simp
      have e1 : ((A ++ (k, vs) :: B)[A.length]'hlt).1 = k := by simp
      have e2 : ((A ++ (k, vs) :: B)[A'.length]'hlt').1 = k := by
        have : (A ++ (k, vs) :: B)[A'.length]'hlt' = (A' ++ (k, v') :: B')[A'.length]'(by simp) := by simp only [h]
        rw [this]; simp
      have hp := List.pairwise_iff_getElem.1 hs'
      rcases Nat.lt_or_gt_of_ne hne with h' | h'
      · exact absurd (hp _ _ hlt' hlt h') (by rw [e1, e2]; exact lt_irrefl _)
      · exact absurd (hp _ _ hlt hlt' h') (by rw [e1, e2]; exact lt_irrefl _)
    rw [hse, this]
  · have hmem : (k, vs) ∈ A' ++ B' := by rw [← h, hk]; simp
    rcases List.mem_append.1 hmem with h' | h'
    · exact absurd (ha _ h') (lt_irrefl _)
    · exact absurd (hb _ h') (lt_irrefl _)
  · exact absurd (h (k, vs) (by rw [hk]; simp)) (lt_irrefl _)

/-- One receiver changes the registry, once. -/
theorem send_one (f : R → T → T) (call : R → T → Reg I R → Option (Reg I R × T)) (m m1 : Reg I R) (hm : m.Ok) (r0 : R)
    (hq : ∀ r, r ≠ r0 → ∀ v m, call r v m = some (m, f r v)) (hr0 : ∀ v, call r0 v m = some (m1, f r0 v))
    (pre post after : List (I × List R)) (i : I) (rs1 rs2 : List R) (hL : m.receivers = pre ++ (i, rs1 ++ r0 :: rs2) :: post)
    (h1 : ∀ e ∈ pre, r0 ∉ e.2) (h3 : r0 ∉ rs1) (h4 : r0 ∉ rs2) (haflen : after.length = post.length) (hafno : ∀ e ∈ after, r0 ∉ e.2)
    (hafget : ∀ p, p < after.length → (m1.arrs m.cur)[pre.length + 1 + p]? = after[p]?) (val : T) :
    sendOuter call m.cur m.len 0 val m =
      some (m1, ((m.receivers.take (pre.length + 1) ++ after).flatMap (·.2)).foldl (fun v r => f r v) val, m.receivers.take (pre.length + 1) ++ after) := by
  have hl : m.receivers.length = m.len := by have := hm.2; simp [Reg.receivers]; omega
  obtain ⟨tail, htail⟩ : ∃ tail, m.arrs m.cur = m.receivers ++ tail := ⟨(m.arrs m.cur).drop m.len, by simp [Reg.receivers]⟩
  have hn : pre.length + (post.length + 1) = m.len := by rw [← hl, hL]; simp
  have hqs : ∀ l : List R, r0 ∉ l → ∀ r ∈ l, ∀ v m, call r v m = some (m, f r v) := fun l hl r hr => hq r (fun h => hl (h ▸ hr))
  have hinner : ∀ v, sendInner call (rs1 ++ r0 :: rs2) v m = some (m1, (rs1 ++ r0 :: rs2).foldl (fun v r => f r v) v, rs1 ++ r0 :: rs2) := by
    intro v
    rw [sendInner_append, sendInner_quietList f call rs1 (hqs rs1 h3)]
    simp only [Option.bind_some, sendInner, hr0, sendInner_quietList f call rs2 (hqs rs2 h4), Option.map_some, List.foldl_append, List.foldl_cons]
  have htk : m.receivers.take (pre.length + 1) = pre ++ [(i, rs1 ++ r0 :: rs2)] := by
    rw [hL, show pre ++ (i, rs1 ++ r0 :: rs2) :: post = (pre ++ [(i, rs1 ++ r0 :: rs2)]) ++ post by simp,
      show pre.length + 1 = (pre ++ [(i, rs1 ++ r0 :: rs2)]).length by simp, List.take_left]
  have hget : (m.arrs m.cur)[pre.length]? = some (i, rs1 ++ r0 :: rs2) := by
    rw [htail, hL, List.append_assoc, List.getElem?_append_right (Nat.le_refl _)]
    simp
  have hpre : ∀ v, sendOuter call m.cur pre.length 0 v m = some (m, (pre.flatMap (·.2)).foldl (fun v r => f r v) v, pre) := by
    intro v
    refine sendOuter_quietList f call m.cur m pre 0 v (fun e he => hqs e.2 (h1 e he)) (fun p hp => ?_)
    rw [htail, hL, Nat.zero_add, List.append_assoc, List.getElem?_append_left hp]
  have hpost : ∀ v, sendOuter call m.cur post.length (pre.length + 1) v m1 = some (m1, (after.flatMap (·.2)).foldl (fun v r => f r v) v, after) := by
    intro v
    rw [← haflen]
    refine sendOuter_quietList f call m.cur m1 after (pre.length + 1) v (fun e he => hqs e.2 (hafno e he)) (fun p hp => ?_)
    exact hafget p hp
  rw [← hn, sendOuter_split, hpre]
  simp only [Option.bind_some, Nat.zero_add, sendOuter, hget, hinner, hpost, Option.map_some, htk]
  simp [List.flatMap_append, List.foldl_append]

/-- C106, RemoveId exactly. A receiver of one id (the only place where it is registered) calls RemoveId(k), nobody else touches the registry: if k
is registered, Send calls the ids up to and including the receiver's as they were, and then goes on, by position, in the list in which k is left out
and the last id is repeated at the end. So if k is the receiver's id or an earlier one, the next id is skipped and the last one called twice; if k
is a later one it is left out, and the last one called twice; and if k is the last one, it is called although it has been removed. -/
theorem c106_removeId_exact [DecidableEq R] (ptr : R → Nat) (r0 : R) (f : R → T → T) (m : Reg I R) (hm : m.Ok) (hs : SortedKeys m.receivers)
    (pre post : List (I × List R)) (i : I) (rs1 rs2 : List R) (hL : m.receivers = pre ++ (i, rs1 ++ r0 :: rs2) :: post)
    (h1 : ∀ e ∈ pre, r0 ∉ e.2) (h2 : ∀ e ∈ post, r0 ∉ e.2) (h3 : r0 ∉ rs1) (h4 : r0 ∉ rs2)
    (A B : List (I × List R)) (k : I) (vs : List R) (hk : m.receivers = A ++ (k, vs) :: B) (depth : Nat) (val : T) :
    ∃ m' called, sendReg ptr (removing r0 k f) (depth + 1) m val = some (m', (called.flatMap (·.2)).foldl (fun v r => f r v) val, called) ∧
      m'.receivers = A ++ B ∧
      called = m.receivers.take (pre.length + 1) ++ (A ++ B ++ [((k, vs) :: B).getLast (by simp)]).drop (pre.length + 1) := by
  have hl : m.receivers.length = m.len := by have := hm.2; simp [Reg.receivers]; omega
  obtain ⟨tail, htail⟩ : ∃ tail, m.arrs m.cur = m.receivers ++ tail := ⟨(m.arrs m.cur).drop m.len, by simp [Reg.receivers]⟩
  have hsearch := search_at m.receivers hs A B k vs hk
  obtain ⟨last, hlast⟩ : ∃ last, last = ((k, vs) :: B).getLast (by simp) := ⟨_, rfl⟩
  obtain ⟨m1, hm1, harr, hlen1, hcur1⟩ : ∃ m1, m.removeId k = some m1 ∧ m1.arrs m.cur = A ++ B ++ last :: tail ∧ m1.len = m.len - 1 ∧ m1.cur = m.cur := by
    have hrm : m.removeId k = some { m with arrs := Function.update m.arrs m.cur (writeAt (m.arrs m.cur) A.length (m.receivers.drop (A.length + 1))), len := m.len - 1 } := by
      unfold Reg.removeId; rw [hsearch]
    refine ⟨_, hrm, ?_, rfl, rfl⟩
    simp only [Function.update_self]
    have hd : m.receivers.drop (A.length + 1) = B := by rw [hk, ← List.drop_drop, List.drop_left]; rfl
    rw [hd, htail, hk, writeAt_last, ← hlast]
  have hABlen : A.length + B.length + 1 = m.len := by rw [← hl, hk]; simp; omega
  have hrcv : m1.receivers = A ++ B := by
    unfold Reg.receivers
    rw [hcur1, harr, hlen1, show m.len - 1 = (A ++ B).length by simp; omega, List.take_left]
  have hn : pre.length + (post.length + 1) = m.len := by rw [← hl, hL]; simp
  -- the calls
  generalize hcall : (fun rcvr v (m : Reg I R) => exec ptr (fun m w => (sendReg ptr (removing r0 k f) depth m w).map fun (m', x, _) => (m', x))
    (removing r0 k f rcvr v) m) = call
  have hq : ∀ r, r ≠ r0 → ∀ v m, call r v m = some (m, f r v) := by
    intro r hr v m
    rw [← hcall]
    simp only [removing, hr, if_false, exec]
  have hr0 : ∀ v, call r0 v m = some (m1, f r0 v) := by
    intro v
    rw [← hcall]
    simp only [removing, if_true, exec, hm1, Option.bind_some]
  -- the list after the removal
  obtain ⟨after, hafter⟩ : ∃ after, after = (A ++ B ++ [last]).drop (pre.length + 1) := ⟨_, rfl⟩
  have haflen : after.length = post.length := by rw [hafter]; simp; omega
  have hafmem : ∀ e ∈ after, e ∈ post := by
    have hsplit : A ++ (k, vs) :: B = pre ++ (i, rs1 ++ r0 :: rs2) :: post := hk.symm.trans hL
    have hpost : post = (A ++ (k, vs) :: B).drop (pre.length + 1) := by rw [hsplit, ← List.drop_drop, List.drop_left]; rfl
    intro e he
    obtain ⟨q, hq⟩ := List.getElem?_of_mem he
    rw [hafter, List.getElem?_drop] at hq
    have hqn : q < post.length := by
      have := (List.getElem?_eq_some_iff.1 hq).1
      simp at this; omega
    have hlastpost : last ∈ post := by
      have hne : post ≠ [] := by intro h; rw [h] at hqn; simp at hqn
      have e1 : (A ++ (k, vs) :: B).getLast (by simp) = last := by rw [hlast, List.getLast_append_of_ne_nil]
      have e2 : (pre ++ (i, rs1 ++ r0 :: rs2) :: post).getLast (by simp) = post.getLast hne := by
        rw [List.getLast_append_of_ne_nil _ (by simp), List.getLast_cons hne]
      have e3 : (A ++ (k, vs) :: B).getLast (by simp) = (pre ++ (i, rs1 ++ r0 :: rs2) :: post).getLast (by simp) := by simp only [hsplit]
      rw [← e1, e3, e2]
      exact List.getLast_mem hne
    have hmemdrop : ∀ q', pre.length + 1 ≤ q' → (A ++ (k, vs) :: B)[q']? = some e → e ∈ post := by
      intro q' h1 h2
      rw [hpost]
      refine List.mem_of_getElem? (i := q' - (pre.length + 1)) ?_
      rw [List.getElem?_drop, ← h2]; congr 1; omega
    by_cases c1 : pre.length + 1 + q < A.length
    · rw [List.append_assoc, List.getElem?_append_left c1] at hq
      exact hmemdrop (pre.length + 1 + q) (by omega) (by rw [List.getElem?_append_left c1]; exact hq)
    · by_cases c2 : pre.length + 1 + q < A.length + B.length
      · rw [List.getElem?_append_left (by simp; omega), List.getElem?_append_right (by omega)] at hq
        refine hmemdrop (pre.length + 1 + q + 1) (by omega) ?_
        rw [List.getElem?_append_right (by omega), show pre.length + 1 + q + 1 - A.length = (pre.length + 1 + q - A.length) + 1 by omega, List.getElem?_cons_succ]
        exact hq
      · rw [List.getElem?_append_right (by simp; omega)] at hq
        have : e = last := by
          have := List.mem_of_getElem? hq
          simpa using this
        rw [this]; exact hlastpost
  refine ⟨m1, m.receivers.take (pre.length + 1) ++ after, ?_, hrcv, by rw [hafter, hlast]⟩
  unfold sendReg
  rw [hcall]
  refine send_one f call m m1 hm r0 hq hr0 pre post after i rs1 rs2 hL h1 h3 h4 haflen (fun e he => h2 e (hafmem e he)) (fun p hp => ?_) val
  rw [harr, hafter, List.getElem?_drop, show A ++ B ++ last :: tail = (A ++ B ++ [last]) ++ tail by simp, List.getElem?_append_left (by simp; omega)]

/-- The hypotheses are met by the registry of `c106_removeId_refuted`. -/
example := c106_removeId_exact id 10 (fun r v => v ++ [r]) exReg ⟨by decide, by decide⟩ (show SortedKeys exReg.receivers by simp [exReg, Reg.receivers, SortedKeys])
  [] [(2, [20]), (3, [30])] 1 [] [] rfl (by simp) (by simp) (by simp) (by simp) [] [(2, [20]), (3, [30])] 1 [10] rfl 0 []

/-- A receiver that registers a receiver x under the id k, among receivers that do not touch the registry. -/
def registering [DecidableEq R] (r0 : R) (k : I) (x : R) (f : R → T → T) (r : R) (v : T) : Prog I R T :=
  if r = r0 then .register k x (.ret (f r v)) else .ret (f r v)

/-- A receiver that removes a receiver x from the id k. -/
def removingOne [DecidableEq R] (r0 : R) (k : I) (x : R) (all : Bool) (f : R → T → T) (r : R) (v : T) : Prog I R T :=
  if r = r0 then .remove k x all (.ret (f r v)) else .ret (f r v)

theorem assign_get (m : Reg I R) (A B tail : List (I × List R)) (k : I) (vs : List R) (e : I × List R) (h : m.arrs m.cur = A ++ (k, vs) :: B ++ tail) (q : Nat)
    (hq : q < A.length + B.length + 1) : ((m.assign A.length e).arrs m.cur)[q]? = (A ++ e :: B)[q]? := by
  simp only [Reg.assign, Function.update_self, h]
  rw [List.append_assoc, List.set_append_right _ _ (Nat.le_refl _), Nat.sub_self]
  simp only [List.cons_append, List.set_cons_zero]
  rw [show A ++ e :: (B ++ tail) = (A ++ e :: B) ++ tail by simp, List.getElem?_append_left (by simp; omega)]

theorem assign_receivers (m : Reg I R) (A B : List (I × List R)) (k : I) (vs : List R) (e : I × List R) (h : m.receivers = A ++ (k, vs) :: B) :
    (m.assign A.length e).receivers = A ++ e :: B := by
  have : (m.assign A.length e).receivers = m.receivers.set A.length e := by
    simp only [Reg.assign, Reg.receivers, Function.update_self]
    rw [List.take_set]
  rw [this, h, List.set_append_right _ _ (Nat.le_refl _), Nat.sub_self]
  rfl

/-- The entries after the one of the receiver that makes the change: no other receiver is the same. -/
theorem after_assign (pre post A B : List (I × List R)) (i k : I) (rs vs vs' : List R) (r0 : R) (h : A ++ (k, vs) :: B = pre ++ (i, rs) :: post)
    (h2 : ∀ e ∈ post, r0 ∉ e.2) (hvs : r0 ∉ vs → r0 ∉ vs') : ∀ e ∈ (A ++ (k, vs') :: B).drop (pre.length + 1), r0 ∉ e.2 := by
  have hpost : post = (A ++ (k, vs) :: B).drop (pre.length + 1) := by rw [h, ← List.drop_drop, List.drop_left]; rfl
  intro e he
  obtain ⟨q, hq⟩ := List.getElem?_of_mem he
  rw [List.getElem?_drop] at hq
  have hmem : ∀ x, (A ++ (k, vs) :: B)[pre.length + 1 + q]? = some x → x ∈ post := by
    intro x hx
    rw [hpost]
    exact List.mem_of_getElem? (i := q) (by rw [List.getElem?_drop]; exact hx)
  by_cases c1 : pre.length + 1 + q < A.length
  · rw [List.getElem?_append_left c1] at hq
    exact h2 e (hmem e (by rw [List.getElem?_append_left c1]; exact hq))
  · rw [List.getElem?_append_right (by omega)] at hq
    by_cases c2 : pre.length + 1 + q = A.length
    · rw [c2, Nat.sub_self, List.getElem?_cons_zero] at hq
      cases hq
      exact hvs (h2 (k, vs) (hmem _ (by rw [c2]; simp)))
    · obtain ⟨d, hd⟩ : ∃ d, pre.length + 1 + q - A.length = d + 1 := ⟨pre.length + q - A.length, by omega⟩
      rw [hd, List.getElem?_cons_succ] at hq
      exact h2 e (hmem e (by rw [List.getElem?_append_right (by omega), hd, List.getElem?_cons_succ]; exact hq))

/-- C106, Register exactly: a receiver registers x under an id k that is registered. If k comes later, x is called in this Send, after the other
receivers of k; if it is the receiver's own id or an earlier one, x is not called in this Send. -/
theorem c106_register_exact [DecidableEq R] (ptr : R → Nat) (r0 x : R) (hx : x ≠ r0) (f : R → T → T) (m : Reg I R) (hm : m.Ok) (hs : SortedKeys m.receivers)
    (pre post : List (I × List R)) (i : I) (rs1 rs2 : List R) (hL : m.receivers = pre ++ (i, rs1 ++ r0 :: rs2) :: post)
    (h1 : ∀ e ∈ pre, r0 ∉ e.2) (h2 : ∀ e ∈ post, r0 ∉ e.2) (h3 : r0 ∉ rs1) (h4 : r0 ∉ rs2)
    (A B : List (I × List R)) (k : I) (vs : List R) (hk : m.receivers = A ++ (k, vs) :: B) (depth : Nat) (val : T) :
    ∃ m' called, sendReg ptr (registering r0 k x f) (depth + 1) m val = some (m', (called.flatMap (·.2)).foldl (fun v r => f r v) val, called) ∧
      m'.receivers = A ++ (k, vs ++ [x]) :: B ∧
      called = m.receivers.take (pre.length + 1) ++ (A ++ (k, vs ++ [x]) :: B).drop (pre.length + 1) := by
  have hl : m.receivers.length = m.len := by have := hm.2; simp [Reg.receivers]; omega
  obtain ⟨tail, htail⟩ : ∃ tail, m.arrs m.cur = m.receivers ++ tail := ⟨(m.arrs m.cur).drop m.len, by simp [Reg.receivers]⟩
  have hlen : A.length + (B.length + 1) = pre.length + (post.length + 1) := by
    have := congrArg List.length (hk.symm.trans hL)
    simpa using this
  have hsearch := search_at m.receivers hs A B k vs hk
  have hreg : m.register k x = some (m.assign A.length (k, vs ++ [x])) := by
    unfold Reg.register
    rw [hsearch]
    have : m.receivers[A.length]? = some (k, vs) := by rw [hk]; simp
    simp only [this]
  refine ⟨_, _, ?_, assign_receivers m A B k vs (k, vs ++ [x]) hk, rfl⟩
  unfold sendReg
  refine send_one f _ m (m.assign A.length (k, vs ++ [x])) hm r0 ?_ ?_ pre post _ i rs1 rs2 hL h1 h3 h4 (by simp; omega)
    (after_assign pre post A B i k _ vs (vs ++ [x]) r0 (hk.symm.trans hL) h2 (by intro h; simp [h, Ne.symm hx])) (fun p hp => ?_) val
  · intro r hr v m
    simp only [registering, hr, if_false, exec]
  · intro v
    simp only [registering, if_true, exec, hreg, Option.bind_some]
  · rw [assign_get m A B tail k vs (k, vs ++ [x]) (by rw [htail, hk]) _ (by simp at hp; omega), List.getElem?_drop]

/-- C106, Register exactly: x is registered under an id that is not registered. It is not called in this Send, even if the id comes later. -/
theorem c106_register_new [DecidableEq R] (ptr : R → Nat) (r0 x : R) (f : R → T → T) (m : Reg I R) (hm : m.Ok) (hs : SortedKeys m.receivers)
    (pre post : List (I × List R)) (i : I) (rs1 rs2 : List R) (hL : m.receivers = pre ++ (i, rs1 ++ r0 :: rs2) :: post)
    (h1 : ∀ e ∈ pre, r0 ∉ e.2) (h2 : ∀ e ∈ post, r0 ∉ e.2) (h3 : r0 ∉ rs1) (h4 : r0 ∉ rs2)
    (k : I) (hk : ∀ e ∈ m.receivers, e.1 ≠ k) (depth : Nat) (val : T) :
    ∃ m', sendReg ptr (registering r0 k x f) (depth + 1) m val =
      some (m', (m.receivers.flatMap (·.2)).foldl (fun v r => f r v) val, m.receivers) ∧ (k, [x]) ∈ m'.receivers := by
  have hl : m.receivers.length = m.len := by have := hm.2; simp [Reg.receivers]; omega
  obtain ⟨tail, htail⟩ : ∃ tail, m.arrs m.cur = m.receivers ++ tail := ⟨(m.arrs m.cur).drop m.len, by simp [Reg.receivers]⟩
  obtain ⟨l, hreg, hmem⟩ : ∃ l, m.register k x = some (m.alloc l) ∧ (k, [x]) ∈ l := by
    unfold Reg.register
    rcases search_spec m.receivers hs k with ⟨_, hse⟩ | ⟨A', v', B', h, hse⟩ | ⟨A', B', h, _, hse, _, _⟩ | ⟨_, hse, h⟩
    · rw [hse]; exact ⟨_, rfl, by simp⟩
    · exact absurd rfl (hk (k, v') (by rw [h]; simp))
    · rw [hse]; exact ⟨_, rfl, by simp⟩
    · rw [hse]; exact ⟨_, rfl, by simp⟩
  have harr : (m.alloc l).arrs m.cur = m.arrs m.cur := by
    have := hm.1
    simp only [Reg.alloc, Function.update_of_ne (show m.cur ≠ m.next by omega)]
  have hsplit : m.receivers = m.receivers.take (pre.length + 1) ++ post := by
    have : post = m.receivers.drop (pre.length + 1) := by rw [hL, ← List.drop_drop, List.drop_left]; rfl
    rw [this]; simp
  refine ⟨m.alloc l, ?_, by simpa [Reg.alloc, Reg.receivers] using hmem⟩
  unfold sendReg
  rw [hsplit]
  have hmr := send_one f (fun rcvr v (m : Reg I R) => exec ptr (fun m w => (sendReg ptr (registering r0 k x f) depth m w).map fun (m', x, _) => (m', x))
    (registering r0 k x f rcvr v) m) m (m.alloc l) hm r0 ?_ ?_ pre post post i rs1 rs2 hL h1 h3 h4 rfl h2 (fun p hp => ?_) val
  · rw [hmr, ← hsplit]
  · intro r hr v m
    simp only [registering, hr, if_false, exec]
  · intro v
    simp only [registering, if_true, exec, hreg, Option.bind_some]
  · rw [harr, htail, hL, List.append_assoc, List.cons_append, List.getElem?_append_right (by omega),
      show pre.length + 1 + p - pre.length = p + 1 by omega, List.getElem?_cons_succ, List.getElem?_append_left hp]

theorem sliceRemoveUncomparable_subset (ptr : R → Nat) (l : List R) (v : R) (all : Bool) {x : R} (h : x ∈ sliceRemoveUncomparable ptr l v [all]) : x ∈ l := by
  rw [sliceRemoveUncomparable_eq] at h
  cases all with
  | true => simp only [if_true] at h; exact List.mem_of_mem_filter h
  | false => simp at h; exact List.mem_of_mem_eraseP h

/-- C106, Remove exactly: a receiver removes x from an id k that is registered. If k comes later, the removed receivers are not called any more in
this Send; if it is the receiver's own id or an earlier one, this Send is as if nothing had happened. -/
theorem c106_remove_exact [DecidableEq R] (ptr : R → Nat) (r0 x : R) (all : Bool) (f : R → T → T) (m : Reg I R) (hm : m.Ok) (hs : SortedKeys m.receivers)
    (pre post : List (I × List R)) (i : I) (rs1 rs2 : List R) (hL : m.receivers = pre ++ (i, rs1 ++ r0 :: rs2) :: post)
    (h1 : ∀ e ∈ pre, r0 ∉ e.2) (h2 : ∀ e ∈ post, r0 ∉ e.2) (h3 : r0 ∉ rs1) (h4 : r0 ∉ rs2)
    (A B : List (I × List R)) (k : I) (vs : List R) (hk : m.receivers = A ++ (k, vs) :: B) (depth : Nat) (val : T) :
    ∃ m' called, sendReg ptr (removingOne r0 k x all f) (depth + 1) m val = some (m', (called.flatMap (·.2)).foldl (fun v r => f r v) val, called) ∧
      m'.receivers = A ++ (k, sliceRemoveUncomparable ptr vs x [all]) :: B ∧
      called = m.receivers.take (pre.length + 1) ++ (A ++ (k, sliceRemoveUncomparable ptr vs x [all]) :: B).drop (pre.length + 1) := by
  have hl : m.receivers.length = m.len := by have := hm.2; simp [Reg.receivers]; omega
  obtain ⟨tail, htail⟩ : ∃ tail, m.arrs m.cur = m.receivers ++ tail := ⟨(m.arrs m.cur).drop m.len, by simp [Reg.receivers]⟩
  have hlen : A.length + (B.length + 1) = pre.length + (post.length + 1) := by
    have := congrArg List.length (hk.symm.trans hL)
    simpa using this
  have hsearch := search_at m.receivers hs A B k vs hk
  have hreg : m.remove ptr k x all = some (m.assign A.length (k, sliceRemoveUncomparable ptr vs x [all])) := by
    unfold Reg.remove
    rw [hsearch]
    have : m.receivers[A.length]? = some (k, vs) := by rw [hk]; simp
    simp only [this]
  refine ⟨_, _, ?_, assign_receivers m A B k vs (k, sliceRemoveUncomparable ptr vs x [all]) hk, rfl⟩
  unfold sendReg
  refine send_one f _ m (m.assign A.length (k, sliceRemoveUncomparable ptr vs x [all])) hm r0 ?_ ?_ pre post _ i rs1 rs2 hL h1 h3 h4 (by simp; omega)
    (after_assign pre post A B i k _ vs (sliceRemoveUncomparable ptr vs x [all]) r0 (hk.symm.trans hL) h2
      (fun h h' => h (sliceRemoveUncomparable_subset ptr vs x all h'))) (fun p hp => ?_) val
  · intro r hr v m
    simp only [removingOne, hr, if_false, exec]
  · intro v
    simp only [removingOne, if_true, exec, hreg, Option.bind_some]
  · rw [assign_get m A B tail k vs (k, sliceRemoveUncomparable ptr vs x [all]) (by rw [htail, hk]) _ (by simp at hp; omega), List.getElem?_drop]

example := c106_register_exact id 10 40 (by decide) (fun r v => v ++ [r]) exReg2 ⟨by decide, by decide⟩ (show SortedKeys exReg2.receivers by simp [exReg2, Reg.receivers, SortedKeys])
  [] [(2, [20])] 1 [] [] rfl (by simp) (by simp) (by simp) (by simp) [(1, [10])] [] 2 [20] rfl 0 []

example := c106_register_new id 10 40 (fun r v => v ++ [r]) exReg2 ⟨by decide, by decide⟩ (show SortedKeys exReg2.receivers by simp [exReg2, Reg.receivers, SortedKeys])
  [] [(2, [20])] 1 [] [] rfl (by simp) (by simp) (by simp) (by simp) 3 (by simp [exReg2, Reg.receivers]) 0 []

example := c106_remove_exact id 10 20 true (fun r v => v ++ [r]) exReg2 ⟨by decide, by decide⟩ (show SortedKeys exReg2.receivers by simp [exReg2, Reg.receivers, SortedKeys])
  [] [(2, [20])] 1 [] [] rfl (by simp) (by simp) (by simp) (by simp) [(1, [10])] [] 2 [20] rfl 0 []

end Micro.Event
