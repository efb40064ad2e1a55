import Verif.Event.Lemmas
import Mathlib.Data.Nat.Basic
set_option linter.unusedSimpArgs false
/-
Lemmas for receivers that call RemoveId while an event is being sent.
-/
namespace Micro.Event
open Micro Micro.Funcs

variable {I R T : Type}

/-- The Process function changes the registry only by RemoveId; it may send. -/
inductive OnlyRemoveId : Prog I R T → Prop where
  | ret (val : T) : OnlyRemoveId (.ret val)
  | removeId (id : I) (k : Prog I R T) : OnlyRemoveId k → OnlyRemoveId (.removeId id k)
  | send (val : T) (k : T → Prog I R T) : (∀ v, OnlyRemoveId (k v)) → OnlyRemoveId (.send val k)

/-- Within the first n cells, every cell of b holds what a cell of a at or after the same place held, in order. -/
def Shift {α : Type} (n : Nat) (a b : List α) : Prop :=
  b.length = a.length ∧ ∃ g : Nat → Nat, (∀ i j, i ≤ j → g i ≤ g j) ∧ (∀ i, i ≤ g i) ∧ (∀ i, i < n → g i < n) ∧ ∀ i, b[i]? = a[g i]?

theorem Shift.refl {α : Type} (n : Nat) (a : List α) : Shift n a a := ⟨rfl, id, fun _ _ h => h, fun _ => Nat.le_refl _, fun _ h => h, fun _ => rfl⟩

theorem Shift.trans {α : Type} {n : Nat} {a b c : List α} (h1 : Shift n a b) (h2 : Shift n b c) : Shift n a c := by
  obtain ⟨l1, g1, a1, b1, c1, d1⟩ := h1
  obtain ⟨l2, g2, a2, b2, c2, d2⟩ := h2
  exact ⟨l2.trans l1, fun i => g1 (g2 i), fun i j h => a1 _ _ (a2 _ _ h), fun i => Nat.le_trans (b2 i) (b1 _), fun i h => c1 _ (c2 i h),
    fun i => by rw [d2, d1]⟩

/-- The elements after index j of the first l are copied over the element j. -/
theorem writeAt_shift {α : Type} (n l j : Nat) (a : List α) (hj : j < l) (hl : l ≤ n) (hn : l ≤ a.length) :
    Shift n a (writeAt a j ((a.take l).drop (j + 1))) := by
  have hlen : ((a.take l).drop (j + 1)).length = l - (j + 1) := by simp; omega
  refine ⟨?_, fun i => if j ≤ i ∧ i + 1 < l then i + 1 else i, ?_, ?_, ?_, ?_⟩
  · simp [writeAt]; omega
  · intro i i' h
    by_cases c : j ≤ i ∧ i + 1 < l <;> by_cases c' : j ≤ i' ∧ i' + 1 < l <;> simp only [c, c', if_true, if_false, and_self] <;> omega
  · intro i
    by_cases c : j ≤ i ∧ i + 1 < l <;> simp only [c, if_true, if_false, and_self] <;> omega
  · intro i h
    by_cases c : j ≤ i ∧ i + 1 < l <;> simp only [c, if_true, if_false, and_self] <;> omega
  · intro i
    unfold writeAt
    rw [hlen]
    beta_reduce
    have htl : (a.take j).length = j := by simp; omega
    by_cases c1 : i < j
    · rw [if_neg (by omega), List.append_assoc, List.getElem?_append_left (by rw [htl]; exact c1), List.getElem?_take, if_pos c1]
    · rw [List.append_assoc, List.getElem?_append_right (by rw [htl]; omega), htl]
      by_cases c2 : i + 1 < l
      · rw [if_pos ⟨by omega, c2⟩, List.getElem?_append_left (by rw [hlen]; omega), List.getElem?_drop, List.getElem?_take, if_pos (by omega)]
        congr 1; omega
      · rw [if_neg (by omega), List.getElem?_append_right (by rw [hlen]; omega), hlen, List.getElem?_drop]
        congr 1; omega

/-- What RemoveId does to the memory. -/
def MemShift (m m' : Reg I R) : Prop :=
  m'.Ok ∧ m'.cur = m.cur ∧ m'.len ≤ m.len ∧ ∀ n, m.len ≤ n → Shift n (m.arrs m.cur) (m'.arrs m.cur)

theorem MemShift.refl {m : Reg I R} (h : m.Ok) : MemShift m m := ⟨h, rfl, Nat.le_refl _, fun n _ => Shift.refl n _⟩

theorem MemShift.trans {a b c : Reg I R} (h1 : MemShift a b) (h2 : MemShift b c) : MemShift a c := by
  obtain ⟨_, e1, l1, s1⟩ := h1
  obtain ⟨o2, e2, l2, s2⟩ := h2
  refine ⟨o2, e2.trans e1, Nat.le_trans l2 l1, fun n hn => (s1 n hn).trans ?_⟩
  have := s2 n (Nat.le_trans l1 hn)
  rwa [e1] at this

section
variable [LinearOrder I]

theorem removeId_shift (m m' : Reg I R) (hm : m.Ok) (id : I) (h : m.removeId id = some m') : MemShift m m' := by
  have hok : m'.Ok := by
    obtain ⟨m1, e1, s1⟩ := removeId_total m hm id
    rw [h] at e1; cases e1; exact s1.1
  unfold Reg.removeId at h
  rcases search_total m.receivers id with hs | ⟨i, b, hs, hi⟩
  · rw [hs] at h; cases h; exact MemShift.refl hm
  · rw [hs] at h
    cases b with
    | false => cases h; exact MemShift.refl hm
    | true =>
      have hl : m.receivers.length = m.len := by have := hm.2; simp [Reg.receivers]; omega
      simp only [Option.some.injEq] at h
      subst h
      refine ⟨hok, rfl, by simp, fun n hn => ?_⟩
      simp only [Function.update_self]
      exact writeAt_shift n m.len i _ (by omega) hn hm.2

variable (ptr : R → Nat)

theorem exec_shift (sendF : Reg I R → T → Option (Reg I R × T)) (hF : ∀ m v m' w, m.Ok → sendF m v = some (m', w) → MemShift m m') (p : Prog I R T)
    (hp : OnlyRemoveId p) : ∀ m m' w, m.Ok → exec ptr sendF p m = some (m', w) → MemShift m m' := by
  induction hp with
  | ret val => intro m m' w hm h; simp only [exec, Option.some.injEq, Prod.mk.injEq] at h; obtain ⟨rfl, rfl⟩ := h; exact MemShift.refl hm
  | removeId id k _ ih =>
    intro m m' w hm h
    simp only [exec, Option.bind_eq_some_iff] at h
    obtain ⟨m1, h1, h2⟩ := h
    have s1 := removeId_shift m m1 hm id h1
    exact s1.trans (ih m1 m' w s1.1 h2)
  | send val k _ ih =>
    intro m m' w hm h
    simp only [exec, Option.bind_eq_some_iff] at h
    obtain ⟨⟨m1, v⟩, h1, h2⟩ := h
    have s1 := hF m val m1 v hm h1
    exact s1.trans (ih v m1 m' w s1.1 h2)

theorem sendInner_shift (call : R → T → Reg I R → Option (Reg I R × T)) (hc : ∀ r v m m' w, m.Ok → call r v m = some (m', w) → MemShift m m')
    (rs : List R) : ∀ val m m' w called, m.Ok → sendInner call rs val m = some (m', w, called) → MemShift m m' := by
  induction rs with
  | nil => intro val m m' w called hm h; simp only [sendInner, Option.some.injEq, Prod.mk.injEq] at h; obtain ⟨rfl, rfl, rfl⟩ := h; exact MemShift.refl hm
  | cons r rs ih =>
    intro val m m' w called hm h
    simp only [sendInner, Option.bind_eq_some_iff, Option.map_eq_some_iff] at h
    obtain ⟨⟨m1, v⟩, h1, ⟨m2, w2, l2⟩, h2, h3⟩ := h
    simp only [Prod.mk.injEq] at h3
    obtain ⟨rfl, rfl, rfl⟩ := h3
    have s1 := hc r val m m1 v hm h1
    exact s1.trans (ih v m1 m2 w2 l2 s1.1 h2)

theorem forall2_map_index {α : Type} {a b : List α} {g : Nat → Nat} (hg : ∀ i, b[i]? = a[g i]?) {js : List Nat} {l : List α}
    (h : List.Forall₂ (fun j e => b[j]? = some e) js l) : List.Forall₂ (fun j e => a[j]? = some e) (js.map g) l := by
  induction h with
  | nil => exact .nil
  | cons hd _ ih => exact .cons (by rw [← hg]; exact hd) ih

theorem sendOuter_shift (call : R → T → Reg I R → Option (Reg I R × T)) (hc : ∀ r v m m' w, m.Ok → call r v m = some (m', w) → MemShift m m') :
    ∀ n i val m m' w log, m.Ok → m.len ≤ i + n → sendOuter call m.cur n i val m = some (m', w, log) →
      MemShift m m' ∧ ∃ js : List Nat, js.length = n ∧ List.Forall₂ (fun j e => (m.arrs m.cur)[j]? = some e) js log ∧ js.Pairwise (· ≤ ·) ∧
        ∀ p j, js[p]? = some j → i + p ≤ j ∧ j < i + n := by
  intro n
  induction n with
  | zero =>
    intro i val m m' w log hm _ h
    simp only [sendOuter, Option.some.injEq, Prod.mk.injEq] at h
    obtain ⟨rfl, rfl, rfl⟩ := h
    exact ⟨MemShift.refl hm, [], rfl, .nil, .nil, by simp⟩
  | succ n ih =>
    intro i val m m' w log hm hle h
    simp only [sendOuter] at h
    split at h
    · cases h
    · rename_i e he
      split at h
      · cases h
      · rename_i m1 v called hi
        have hcl := sendInner_called call e.2 val m m1 v called hi
        subst hcl
        simp only [Option.map_eq_some_iff] at h
        obtain ⟨⟨m2, w2, log2⟩, h1, h2⟩ := h
        simp only [Prod.mk.injEq] at h2
        obtain ⟨rfl, rfl, rfl⟩ := h2
        have s1 := sendInner_shift call hc e.2 val m m1 v e.2 hm hi
        rw [← s1.2.1] at h1
        obtain ⟨s2, js, k0, k1, k2, k3⟩ := ih (i + 1) v m1 m2 w2 log2 s1.1 (by have := s1.2.2.1; omega) h1
        obtain ⟨_, g, g1, g2, g3, g4⟩ := s1.2.2.2 (i + (n + 1)) hle
        refine ⟨s1.trans s2, i :: js.map g, by simp [k0], .cons he ?_, ?_, ?_⟩
        · rw [s1.2.1] at k1
          exact forall2_map_index g4 k1
        · refine List.pairwise_cons.2 ⟨?_, ?_⟩
          · intro a ha
            obtain ⟨b, hb, rfl⟩ := List.mem_map.1 ha
            obtain ⟨p, hp⟩ := List.getElem?_of_mem hb
            have := (k3 p b hp).1
            have := g2 b
            omega
          · rw [List.pairwise_map]
            exact k2.imp (fun h => g1 _ _ h)
        · intro p j hp
          cases p with
          | zero => simp only [List.getElem?_cons_zero, Option.some.injEq] at hp; omega
          | succ p =>
            simp only [List.getElem?_cons_succ, List.getElem?_map, Option.map_eq_some_iff] at hp
            obtain ⟨b, hb, rfl⟩ := hp
            obtain ⟨q1, q2⟩ := k3 p b hb
            have := g2 b
            have := g3 b (by omega)
            omega

theorem sendReg_shift (proc : R → T → Prog I R T) (hp : ∀ r v, OnlyRemoveId (proc r v)) :
    ∀ d m val m' w log, m.Ok → sendReg ptr proc d m val = some (m', w, log) →
      MemShift m m' ∧ ∃ js : List Nat, js.length = m.len ∧ List.Forall₂ (fun j e => (m.arrs m.cur)[j]? = some e) js log ∧ js.Pairwise (· ≤ ·) ∧
        ∀ p j, js[p]? = some j → p ≤ j ∧ j < m.len := by
  intro d
  induction d with
  | zero => intro m val m' w log _ h; cases h
  | succ d ih =>
    intro m val m' w log hm h
    simp only [sendReg] at h
    obtain ⟨s, js, k0, k1, k2, k3⟩ := sendOuter_shift _ (fun r v m m' w hm h => exec_shift ptr _ (by
      intro m v m' w hm h
      simp only [Option.map_eq_some_iff] at h
      obtain ⟨⟨m1, x, l⟩, h1, h2⟩ := h
      simp only [Prod.mk.injEq] at h2
      obtain ⟨rfl, rfl⟩ := h2
      exact (ih m v m1 x l hm h1).1) _ (hp r v) m m' w hm h) m.len 0 val m m' w log hm (by omega) h
    exact ⟨s, js, k0, k1, k2, fun p j hj => by have := k3 p j hj; omega⟩

/-! ### One receiver that removes one id -/

theorem sendInner_quietList (f : R → T → T) (call : R → T → Reg I R → Option (Reg I R × T)) (rs : List R) :
    (∀ r ∈ rs, ∀ v m, call r v m = some (m, f r v)) → ∀ val m, sendInner call rs val m = some (m, rs.foldl (fun v r => f r v) val, rs) := by
  induction rs with
  | nil => intro _ val m; rfl
  | cons r rs ih =>
    intro hc val m
    simp only [sendInner, hc r (List.mem_cons_self ..), Option.bind_some, ih (fun r hr => hc r (List.mem_cons_of_mem _ hr)), Option.map_some, List.foldl_cons]

theorem sendInner_append (call : R → T → Reg I R → Option (Reg I R × T)) (a b : List R) : ∀ val m,
    sendInner call (a ++ b) val m = (sendInner call a val m).bind fun (m', v, l) => (sendInner call b v m').map fun (m'', w, l') => (m'', w, l ++ l') := by
  induction a with
  | nil => intro val m; simp [sendInner]
  | cons r a ih =>
    intro val m
    simp only [List.cons_append, sendInner]
    cases call r val m with
    | none => rfl
    | some x =>
      simp only [Option.bind_some, ih]
      cases sendInner call a x.2 x.1 with
      | none => rfl
      | some y =>
        simp only [Option.bind_some, Option.map_some, Option.map_map]
        cases sendInner call b y.2.1 y.1 <;> simp

theorem sendOuter_quietList (f : R → T → T) (call : R → T → Reg I R → Option (Reg I R × T)) (arr : Nat) (m : Reg I R) : ∀ (l : List (I × List R)) (i : Nat) (val : T),
    (∀ e ∈ l, ∀ r ∈ e.2, ∀ v m, call r v m = some (m, f r v)) → (∀ p, p < l.length → (m.arrs arr)[i + p]? = l[p]?) →
    sendOuter call arr l.length i val m = some (m, (l.flatMap (·.2)).foldl (fun v r => f r v) val, l) := by
  intro l
  induction l with
  | nil => intro i val _ _; rfl
  | cons e l ih =>
    intro i val hc hm
    have h0 : (m.arrs arr)[i]? = some e := by simpa using hm 0 (by simp)
    have := ih (i + 1) (e.2.foldl (fun v r => f r v) val) (fun e' he' => hc e' (List.mem_cons_of_mem _ he')) (fun p hp => by
      have := hm (p + 1) (by simp; omega)
      rw [List.getElem?_cons_succ] at this
      rw [← this]; congr 1; omega)
    simp only [List.length_cons, sendOuter, h0, sendInner_quietList f call e.2 (hc e (List.mem_cons_self ..)), this, Option.map_some, List.flatMap_cons,
      List.foldl_append]

theorem sendOuter_split (call : R → T → Reg I R → Option (Reg I R × T)) (arr : Nat) : ∀ (a b i : Nat) (val : T) (m : Reg I R),
    sendOuter call arr (a + b) i val m =
      (sendOuter call arr a i val m).bind fun (m', v, l) => (sendOuter call arr b (i + a) v m').map fun (m'', w, l') => (m'', w, l ++ l') := by
  intro a
  induction a with
  | zero => intro b i val m; simp [sendOuter]
  | succ a ih =>
    intro b i val m
    rw [Nat.add_right_comm]
    simp only [sendOuter]
    cases (m.arrs arr)[i]? with
    | none => rfl
    | some e =>
      simp only
      cases sendInner call e.2 val m with
      | none => rfl
      | some x =>
        simp only [ih]
        cases sendOuter call arr a (i + 1) x.2.1 x.1 with
        | none => rfl
        | some y =>
          simp only [Option.bind_some, Option.map_some, Option.map_map]
          rw [show i + 1 + a = i + (a + 1) by omega]
          cases sendOuter call arr b (i + (a + 1)) y.2.1 y.1 <;> simp

end
end Micro.Event
