import Verif.Event.ConcModel
import Verif.Event.Props
/-
Lemmas for C150: goroutines that send events while others change the registry.
-/
namespace Micro.Event.Conc
open Micro Micro.Funcs

variable {I T : Type} [LinearOrder I]

/-- The call of Register, RemoveId or Remove that returns with this step. -/
def returns (p : St I T) : Choice → List (MOp I (Recv T))
  | .chg k => match p.muts[k]? with
    | some (.writing op [], _) => [op]
    | _ => []
  | .snd _ => []

/-- The calls of Register, RemoveId and Remove that have returned, in order. -/
def returned : St I T → List Choice → List (MOp I (Recv T))
  | _, [] => []
  | p, c :: cs => returns p c ++ returned (p.step c) cs

/-- No goroutine makes a step of a call of Register, RemoveId or Remove while another is in such a call: there is only one, or they use a lock. Sends are not restricted. -/
def OneAtATime : St I T → List Choice → Prop
  | _, [] => True
  | p, c :: cs => (∀ k, c = .chg k → k < p.muts.length → ∀ j g, p.muts[j]? = some g → j ≠ k → g.1 = .idle) ∧ OneAtATime (p.step c) cs

/-- What the receivers called, in order, make of a value. -/
def passed (val : T) (log : List (I × List (Recv T))) : T := (log.flatMap (·.2)).foldl (fun v r => r.process v) val

/-! ### Sends -/

/-- A step of the memory that keeps the relation of an entry to what it was. -/
def Pres (ρ : I × List (Recv T) → I × List (Recv T) → Prop) (m m' : Reg I (Recv T)) : Prop :=
  m.next ≤ m'.next ∧ ∀ a < m.next, (m'.arrs a).length = (m.arrs a).length ∧
    ∀ (j : Nat) x x', (m.arrs a)[j]? = some x → (m'.arrs a)[j]? = some x' → ∀ e, ρ e x → ρ e x'

theorem Pres.refl (ρ : I × List (Recv T) → I × List (Recv T) → Prop) (m : Reg I (Recv T)) : Pres ρ m m :=
  ⟨Nat.le_refl _, fun _ _ => ⟨rfl, fun j x x' h h' e he => by rw [h] at h'; cases h'; exact he⟩⟩

/-- A Send that began when the registry held S. -/
def SndOk (ρ : I × List (Recv T) → I × List (Recv T) → Prop) (S : List (I × List (Recv T))) (val : T) (m : Reg I (Recv T)) : SndSt I T → Prop
  | .ready => True
  | .loop arr n i v log => arr < m.next ∧ S.length = n ∧ n ≤ (m.arrs arr).length ∧ i ≤ n ∧ List.Forall₂ ρ (S.take i) log ∧ v = passed val log ∧
      ∀ (j : Nat) e x, i ≤ j → S[j]? = some e → (m.arrs arr)[j]? = some x → ρ e x
  | .inner arr n i id called rest v log => arr < m.next ∧ S.length = n ∧ n ≤ (m.arrs arr).length ∧ i < n ∧ List.Forall₂ ρ (S.take i) log ∧
      v = passed val (log ++ [(id, called)]) ∧ (∀ e, S[i]? = some e → ρ e (id, called ++ rest)) ∧
      ∀ (j : Nat) e x, i ≤ j → S[j]? = some e → (m.arrs arr)[j]? = some x → ρ e x
  | .done v log => List.Forall₂ ρ S log ∧ v = passed val log
  | .panicked => False

theorem SndOk.pres {ρ : I × List (Recv T) → I × List (Recv T) → Prop} {S : List (I × List (Recv T))} {val : T} {m m' : Reg I (Recv T)} (h : Pres ρ m m') {s : SndSt I T}
    (hs : SndOk ρ S val m s) : SndOk ρ S val m' s := by
  have key : ∀ arr, arr < m.next → ∀ i, S.length ≤ (m.arrs arr).length → (∀ (j : Nat) e x, i ≤ j → S[j]? = some e → (m.arrs arr)[j]? = some x → ρ e x) →
      ∀ (j : Nat) e x, i ≤ j → S[j]? = some e → (m'.arrs arr)[j]? = some x → ρ e x := by
    intro arr ha i hl hk j e x hij he hx
    have hj : j < S.length := (List.getElem?_eq_some_iff.mp he).1
    have hy : (m.arrs arr)[j]? = some ((m.arrs arr)[j]'(by omega)) := List.getElem?_eq_getElem _
    exact (h.2 arr ha).2 j _ x hy hx e (hk j e _ hij he hy)
  cases s with
  | ready => trivial
  | done v log => exact hs
  | panicked => exact hs
  | loop arr n i v log =>
    obtain ⟨h1, h2, h3, h4, h5, h6, h7⟩ := hs
    exact ⟨Nat.lt_of_lt_of_le h1 h.1, h2, by rw [(h.2 arr h1).1]; exact h3, h4, h5, h6, key arr h1 i (by omega) h7⟩
  | inner arr n i id called rest v log =>
    obtain ⟨h1, h2, h3, h4, h5, h6, h7, h8⟩ := hs
    exact ⟨Nat.lt_of_lt_of_le h1 h.1, h2, by rw [(h.2 arr h1).1]; exact h3, h4, h5, h6, h7, key arr h1 i (by omega) h8⟩

theorem passed_snoc (val : T) (log : List (I × List (Recv T))) (id : I) (called : List (Recv T)) (r : Recv T) :
    passed val (log ++ [(id, called ++ [r])]) = r.process (passed val (log ++ [(id, called)])) := by
  simp [passed, List.flatMap_append, List.foldl_append]

theorem passed_round (val : T) (log : List (I × List (Recv T))) (id : I) : passed val (log ++ [(id, [])]) = passed val log := by
  simp [passed, List.flatMap_append]

theorem length_receivers {m : Reg I (Recv T)} (hm : m.Ok) : m.receivers.length = m.len := by
  have := hm.2
  simp [Reg.receivers]; omega

/-- A step of a Send that has begun. -/
theorem sndStep_ok {ρ : I × List (Recv T) → I × List (Recv T) → Prop} {S : List (I × List (Recv T))} {val : T} {m : Reg I (Recv T)} {s : SndSt I T} (hne : s ≠ .ready)
    (hs : SndOk ρ S val m s) : SndOk ρ S val m (sndStep m val s) := by
  cases s with
  | ready => exact absurd rfl hne
  | done v log => exact hs
  | panicked => exact hs
  | loop arr n i v log =>
    obtain ⟨h1, h2, h3, h4, h5, h6, h7⟩ := hs
    by_cases hi : i < n
    · have hx : (m.arrs arr)[i]? = some ((m.arrs arr)[i]'(by omega)) := List.getElem?_eq_getElem _
      simp only [sndStep, if_pos hi, hx]
      refine ⟨h1, h2, h3, hi, h5, by rw [passed_round]; exact h6, ?_, h7⟩
      intro e he
      exact h7 i e _ (Nat.le_refl _) he hx
    · simp only [sndStep, if_neg hi]
      refine ⟨?_, h6⟩
      rwa [List.take_of_length_le (by omega)] at h5
  | inner arr n i id called rest v log =>
    obtain ⟨h1, h2, h3, h4, h5, h6, h7, h8⟩ := hs
    cases rest with
    | nil =>
      refine ⟨h1, h2, h3, h4, ?_, h6, fun j e x hj => h8 j e x (by omega)⟩
      have hS : S[i]? = some (S[i]'(by omega)) := List.getElem?_eq_getElem _
      rw [List.take_succ, hS]
      exact List.rel_append h5 (.cons (by simpa using h7 _ hS) .nil)
    | cons r rest =>
      refine ⟨h1, h2, h3, h4, h5, by rw [passed_snoc, ← h6], ?_, h8⟩
      intro e he
      simpa using h7 e he

/-- The beginning of a Send. -/
theorem sndStep_begin {ρ : I × List (Recv T) → I × List (Recv T) → Prop} {val : T} {m : Reg I (Recv T)} (hm : m.Ok) (hr : ∀ e ∈ m.receivers, ρ e e) :
    SndOk ρ m.receivers val m (sndStep m val .ready) := by
  refine ⟨hm.1, length_receivers hm, hm.2, Nat.zero_le _, .nil, rfl, ?_⟩
  intro j e x _ he hx
  have : (m.arrs m.cur)[j]? = some e := by
    unfold Reg.receivers at he
    rw [List.getElem?_take] at he
    split at he
    · exact he
    · cases he
  rw [hx] at this
  cases this
  exact hr _ (List.mem_of_getElem? he)

/-- What the registry held when the Sends began. -/
def found (p : St I T) (Ss : Nat → List (I × List (Recv T))) : Choice → Nat → List (I × List (Recv T))
  | .snd k => match p.snds[k]? with
    | some (_, .ready) => Function.update Ss k p.reg.receivers
    | _ => Ss
  | .chg _ => Ss

/-- All steps of a run change the memory so, and all its states are so. -/
def Along (ρ : I × List (Recv T) → I × List (Recv T) → Prop) : St I T → List Choice → Prop
  | _, [] => True
  | p, c :: cs => p.reg.Ok ∧ (∀ e ∈ p.reg.receivers, ρ e e) ∧ Pres ρ p.reg (p.step c).reg ∧ Along ρ (p.step c) cs

theorem Along.split {ρ : I × List (Recv T) → I × List (Recv T) → Prop} (s1 s2 : List Choice) :
    ∀ {p : St I T}, Along ρ p (s1 ++ s2) → Along ρ p s1 ∧ Along ρ (p.run s1) s2 := by
  induction s1 with
  | nil => intro p h; exact ⟨trivial, h⟩
  | cons c s1 ih => intro p h; exact ⟨⟨h.1, h.2.1, h.2.2.1, (ih h.2.2.2).1⟩, (ih h.2.2.2).2⟩

omit [LinearOrder I] in
theorem sndStep_not_ready (m : Reg I (Recv T)) (val : T) (s : SndSt I T) : sndStep m val s ≠ .ready := by
  cases s with
  | loop arr n i v log =>
    simp only [sndStep]
    split
    · split <;> simp
    · simp
  | inner arr n i id called rest v log => cases rest <;> simp [sndStep]
  | _ => simp [sndStep]

def SInv (ρ : I × List (Recv T) → I × List (Recv T) → Prop) (Ss : Nat → List (I × List (Recv T))) (p : St I T) : Prop :=
  ∀ k v, p.snds[k]? = some v → SndOk ρ (Ss k) v.1 p.reg v.2

theorem sinv_step {ρ : I × List (Recv T) → I × List (Recv T) → Prop} {Ss : Nat → List (I × List (Recv T))} {p : St I T} (h : SInv ρ Ss p) (c : Choice) (hok : p.reg.Ok)
    (hrefl : ∀ e ∈ p.reg.receivers, ρ e e) (hp : Pres ρ p.reg (p.step c).reg) : SInv ρ (found p Ss c) (p.step c) := by
  cases c with
  | chg k =>
    intro j v hv
    have : (p.step (.chg k)).snds = p.snds := by simp only [St.step]; split <;> rfl
    rw [this] at hv
    exact (h j v hv).pres hp
  | snd k =>
    intro j v hv
    cases hk : p.snds[k]? with
    | none => simp only [St.step, hk, found] at hv ⊢; exact h j v hv
    | some w =>
      obtain ⟨val, s⟩ := w
      have hlt := (List.getElem?_eq_some_iff.mp hk).1
      simp only [St.step, hk] at hv ⊢
      by_cases e : k = j
      · subst e
        rw [List.getElem?_set_self hlt] at hv
        cases hv
        by_cases hs : s = .ready
        · subst hs
          simp only [found, hk, Function.update_self]
          exact sndStep_begin hok hrefl
        · have : found p Ss (.snd k) k = Ss k := by
            cases s <;> simp only [found, hk]
            exact absurd rfl hs
          rw [this]
          exact sndStep_ok hs (h k _ hk)
      · rw [List.getElem?_set_ne e] at hv
        have : found p Ss (.snd k) j = Ss j := by
          cases s <;> simp only [found, hk]
          exact Function.update_of_ne (fun e' => e e'.symm) _ _
        rw [this]
        exact h j v hv

theorem sinv_run {ρ : I × List (Recv T) → I × List (Recv T) → Prop} (sched : List Choice) :
    ∀ {Ss : Nat → List (I × List (Recv T))} {p : St I T}, SInv ρ Ss p → Along ρ p sched →
    ∃ Ss', SInv ρ Ss' (p.run sched) ∧ ∀ k, (∀ v, p.snds[k]? = some v → v.2 ≠ .ready) → Ss' k = Ss k := by
  induction sched with
  | nil => intro Ss p h _; exact ⟨Ss, h, fun _ _ => rfl⟩
  | cons c sched ih =>
    intro Ss p h ha
    obtain ⟨Ss', h1, h2⟩ := ih (sinv_step h c ha.1 ha.2.1 ha.2.2.1) ha.2.2.2
    refine ⟨Ss', h1, ?_⟩
    intro k hk
    rw [h2 k ?_]
    · cases c with
      | chg j => rfl
      | snd j =>
        cases hj : p.snds[j]? with
        | none => simp only [found, hj]
        | some w =>
          obtain ⟨val, s⟩ := w
          cases s <;> simp only [found, hj]
          refine Function.update_of_ne ?_ _ _
          rintro rfl
          exact hk _ hj rfl
    · intro v hv
      cases c with
      | chg j =>
        have : (p.step (.chg j)).snds = p.snds := by simp only [St.step]; split <;> rfl
        rw [this] at hv
        exact hk v hv
      | snd j =>
        simp only [St.step] at hv
        cases hj : p.snds[j]? with
        | none => rw [hj] at hv; exact hk v hv
        | some w =>
          obtain ⟨val, s⟩ := w
          simp only [hj] at hv
          by_cases e : j = k
          · subst e
            rw [List.getElem?_set_self (List.getElem?_eq_some_iff.mp hj).1] at hv
            cases hv
            exact sndStep_not_ready _ _ _
          · rw [List.getElem?_set_ne e] at hv
            exact hk v hv

/-- A Send that began after s1 and has returned after s1, its first step, and s2. -/
theorem sinv_done {ρ : I × List (Recv T) → I × List (Recv T) → Prop} (p : St I T) (hp : ∀ v ∈ p.snds, v.2 = .ready) (s1 s2 : List Choice) (k : Nat) (ha : Along ρ p (s1 ++ .snd k :: s2))
    (val : T) (hr : (p.run s1).snds[k]? = some (val, .ready)) :
    ∀ s, (p.run (s1 ++ .snd k :: s2)).snds[k]? = some (val, s) → SndOk ρ (p.run s1).reg.receivers val (p.run (s1 ++ .snd k :: s2)).reg s := by
  intro s hd
  obtain ⟨a1, a2⟩ := ha.split
  have h0 : SInv ρ (fun _ => []) p := by
    intro j v hv
    rw [hp v (List.mem_of_getElem? hv)]
    trivial
  obtain ⟨Ss, h1, _⟩ := sinv_run s1 h0 a1
  have h2 := sinv_step h1 (.snd k) a2.1 a2.2.1 a2.2.2.1
  obtain ⟨Ss', h3, he⟩ := sinv_run s2 h2 a2.2.2.2
  have hrun : p.run (s1 ++ .snd k :: s2) = ((p.run s1).step (.snd k)).run s2 := by simp [St.run]
  rw [hrun] at hd ⊢
  have hb := h3 k _ hd
  rw [he k ?_] at hb
  · simp only [found, hr, Function.update_self] at hb
    exact hb
  · intro v hv
    simp only [St.step, hr] at hv
    rw [List.getElem?_set_self (List.getElem?_eq_some_iff.mp hr).1] at hv
    cases hv
    exact sndStep_not_ready (p.run s1).reg val .ready

/-! ### Calls that change the registry: in every schedule -/

/-- The search and the writes, if nobody changes the registry between them. -/
def plan (m : Reg I (Recv T)) (op : MOp I (Recv T)) : Option (List (Write I T)) := (search m.receivers (key op)).bind fun x => planAt m op x.1 x.2

theorem plan_of {m : Reg I (Recv T)} {op : MOp I (Recv T)} {at_ : Option Nat} {b : Bool} (h : search m.receivers (key op) = some (at_, b)) : plan m op = planAt m op at_ b := by
  simp [plan, h]

theorem plan_total {m : Reg I (Recv T)} (op : MOp I (Recv T)) : ∃ ws, plan m op = some ws := by
  rcases search_total m.receivers (key op) with h | ⟨i, b, h, hi⟩
  · rw [plan_of h]; cases op <;> simp [planAt]
  · rw [plan_of h]
    cases op <;> cases b <;> simp [planAt, hi, Nat.succ_le_of_lt hi]

/-- A write that is in order: it stays within the memory, and stores only receivers under an id for which Q holds. -/
def WOk (Q : I → Recv T → Prop) (m : Reg I (Recv T)) : Write I T → Prop
  | .elem arr _ e => arr < m.next ∧ ∀ r ∈ e.2, Q e.1 r
  | .fresh l => ∀ e ∈ l, ∀ r ∈ e.2, Q e.1 r
  | .header cur len => cur < m.next ∧ len ≤ (m.arrs cur).length

/-- All entries in memory hold only receivers for which Q holds. -/
def AllQ (Q : I → Recv T → Prop) (m : Reg I (Recv T)) : Prop := ∀ a < m.next, ∀ e ∈ m.arrs a, ∀ r ∈ e.2, Q e.1 r

omit [LinearOrder I] in
theorem mem_receivers {m : Reg I (Recv T)} {e : I × List (Recv T)} (h : e ∈ m.receivers) : e ∈ m.arrs m.cur := List.mem_of_mem_take h

omit [LinearOrder I] in
theorem shift_ok {Q : I → Recv T → Prop} {m : Reg I (Recv T)} (a : Nat) (ha : a < m.next) (es : List (I × List (Recv T))) (hes : ∀ e ∈ es, ∀ r ∈ e.2, Q e.1 r) :
    ∀ i, ∀ w ∈ shift a i es, WOk Q m w := by
  induction es with
  | nil => intro i w hw; simp [shift] at hw
  | cons e es ih =>
    intro i w hw
    simp only [shift, List.mem_cons] at hw
    rcases hw with rfl | hw
    · exact ⟨ha, hes e (by simp)⟩
    · exact ih (fun e he => hes e (by simp [he])) _ w hw

theorem mem_remove {e : List (Recv T)} {v : Recv T} {all : Bool} {r : Recv T} (h : r ∈ sliceRemoveUncomparable Recv.ptr e v [all]) : r ∈ e := by
  cases all with
  | true =>
    have : sliceRemoveUncomparable Recv.ptr e v [true] = e.filter (fun t => !(t.ptr == v.ptr)) := by
      simp [sliceRemoveUncomparable, sliceIndex, removeAll_eq]
    rw [this] at h
    exact (List.mem_filter.mp h).1
  | false =>
    have : sliceRemoveUncomparable Recv.ptr e v [false] = e.eraseP (fun t => t.ptr == v.ptr) := by
      simp [sliceRemoveUncomparable, sliceIndex, removeFirst_eq]
    rw [this] at h
    exact List.mem_of_mem_eraseP h

/-- The writes are in order if Q does not depend on the id, or the id searched for is at the index found. -/
theorem planAt_ok {Q : I → Recv T → Prop} {m : Reg I (Recv T)} (hm : m.Ok) (hq : AllQ Q m) (op : MOp I (Recv T)) (hop : ∀ id r, op = .add id r → Q id r) (at_ : Option Nat) (b : Bool)
    (hsame : ∀ i e, at_ = some i → b = true → m.receivers[i]? = some e → ∀ r, Q e.1 r → Q (key op) r) (ws : List (Write I T))
    (h : planAt m op at_ b = some ws) : ∀ w ∈ ws, WOk Q m w := by
  have hall : ∀ e ∈ m.receivers, ∀ r ∈ e.2, Q e.1 r := fun e he => hq _ hm.1 e (mem_receivers he)
  cases op with
  | add id r =>
    have hid := hop id r rfl
    cases at_ with
    | none =>
      simp only [planAt, Option.some.injEq] at h
      subst h
      intro w hw
      simp only [List.mem_singleton] at hw
      subst hw
      intro e he x hx
      simp only [List.mem_singleton] at he
      subst he
      simp only [List.mem_singleton] at hx
      subst hx
      exact hid
    | some i =>
      cases b with
      | true =>
        cases he : m.receivers[i]? with
        | none => simp [planAt, he] at h
        | some e =>
          simp only [planAt, he, Option.some.injEq] at h
          subst h
          intro w hw
          simp only [List.mem_singleton] at hw
          subst hw
          refine ⟨hm.1, ?_⟩
          intro x hx
          simp only [List.mem_append, List.mem_singleton] at hx
          rcases hx with hx | rfl
          · exact hsame i e rfl rfl he x (hall e (List.mem_of_getElem? he) x hx)
          · exact hid
      | false =>
        simp only [planAt] at h
        split at h
        · simp only [Option.some.injEq] at h
          subst h
          intro w hw
          simp only [List.mem_singleton] at hw
          subst hw
          intro e he x hx
          simp only [List.mem_append, List.mem_singleton] at he
          rcases he with (he | rfl) | he
          · exact hall e (List.mem_of_mem_take he) x hx
          · simp only [List.mem_singleton] at hx
            subst hx
            exact hid
          · exact hall e (List.mem_of_mem_drop he) x hx
        · cases h
  | removeKey id =>
    cases at_ with
    | none => simp only [planAt, Option.some.injEq] at h; subst h; simp
    | some i =>
      cases b with
      | true =>
        simp only [planAt] at h
        split at h
        · simp only [Option.some.injEq] at h
          subst h
          intro w hw
          simp only [List.mem_append, List.mem_singleton] at hw
          rcases hw with hw | rfl
          · exact shift_ok _ hm.1 _ (fun e he => hall e (List.mem_of_mem_drop he)) _ w hw
          · exact ⟨hm.1, by have := hm.2; omega⟩
        · cases h
      | false => simp only [planAt, Option.some.injEq] at h; subst h; simp
  | removeValue id v all =>
    cases at_ with
    | none => simp only [planAt, Option.some.injEq] at h; subst h; simp
    | some i =>
      cases b with
      | true =>
        cases he : m.receivers[i]? with
        | none => simp [planAt, he] at h
        | some e =>
          simp only [planAt, he, Option.some.injEq] at h
          subst h
          intro w hw
          simp only [List.mem_singleton] at hw
          subst hw
          refine ⟨hm.1, ?_⟩
          intro x hx
          exact hsame i e rfl rfl he x (hall e (List.mem_of_getElem? he) x (mem_remove hx))
      | false => simp only [planAt, Option.some.injEq] at h; subst h; simp

/-- The id searched for is at the index found, if the registry has not changed. -/
theorem same_of_search {Q : I → Recv T → Prop} {m : Reg I (Recv T)} {k : I} {at_ : Option Nat} {b : Bool} (h : search m.receivers k = some (at_, b)) :
    ∀ i e, at_ = some i → b = true → m.receivers[i]? = some e → ∀ r, Q e.1 r → Q k r := by
  rintro i e rfl rfl he r hr
  obtain ⟨e', he', hk⟩ := search_match _ _ _ h
  rw [he] at he'
  cases he'
  rw [← hk]
  exact hr

theorem plan_ok {Q : I → Recv T → Prop} {m : Reg I (Recv T)} (hm : m.Ok) (hq : AllQ Q m) (op : MOp I (Recv T)) (hop : ∀ id r, op = .add id r → Q id r) (ws : List (Write I T))
    (h : plan m op = some ws) : ∀ w ∈ ws, WOk Q m w := by
  unfold plan at h
  cases hs : search m.receivers (key op) with
  | none => rw [hs] at h; simp at h
  | some x =>
    rw [hs, Option.bind_some] at h
    exact planAt_ok hm hq op hop x.1 x.2 (same_of_search hs) ws h

/-- A write that is in order keeps the lengths of the arrays. -/
theorem perform_shape {Q : I → Recv T → Prop} {m : Reg I (Recv T)} (hm : m.Ok) {w : Write I T} (hw : WOk Q m w) :
    (w.perform m).Ok ∧ m.next ≤ (w.perform m).next ∧ ∀ a < m.next, ((w.perform m).arrs a).length = (m.arrs a).length := by
  cases w with
  | elem arr i e =>
    have key : ∀ a, ((Write.elem arr i e).perform m).arrs a = if a = arr then (m.arrs arr).set i e else m.arrs a := by
      intro a
      simp only [Write.perform, Function.update_apply]
    have key2 : ∀ a, (((Write.elem arr i e).perform m).arrs a).length = (m.arrs a).length := by
      intro a
      rw [key]
      split
      · rename_i h; subst h; simp
      · rfl
    refine ⟨⟨hm.1, ?_⟩, Nat.le_refl _, fun a _ => key2 a⟩
    show m.len ≤ (((Write.elem arr i e).perform m).arrs m.cur).length
    rw [key2]
    exact hm.2
  | fresh l =>
    refine ⟨⟨by simp [Write.perform, Reg.alloc], by simp [Write.perform, Reg.alloc]⟩, by simp [Write.perform, Reg.alloc], ?_⟩
    intro a ha
    simp only [Write.perform, Reg.alloc, Function.update_of_ne (show a ≠ m.next by omega)]
  | header cur len => exact ⟨⟨hw.1, hw.2⟩, Nat.le_refl _, fun _ _ => rfl⟩

theorem perform_allQ {Q : I → Recv T → Prop} {m : Reg I (Recv T)} (hq : AllQ Q m) {w : Write I T} (hw : WOk Q m w) : AllQ Q (w.perform m) := by
  cases w with
  | elem arr i e =>
    intro a ha x hx
    simp only [Write.perform, Function.update_apply] at hx
    split at hx
    · rename_i h; subst h
      rcases List.mem_or_eq_of_mem_set hx with hx | rfl
      · exact hq _ hw.1 x hx
      · exact hw.2
    · exact hq a ha x hx
  | fresh l =>
    intro a ha x hx
    simp only [Write.perform, Reg.alloc, Function.update_apply] at hx
    split at hx
    · exact hw x hx
    · rename_i h
      simp only [Write.perform, Reg.alloc] at ha
      exact hq a (by omega) x hx
  | header cur len => exact hq

theorem WOk.mono {Q : I → Recv T → Prop} {m m' : Reg I (Recv T)} (h1 : m.next ≤ m'.next) (h2 : ∀ a < m.next, (m'.arrs a).length = (m.arrs a).length) {w : Write I T} (hw : WOk Q m w) :
    WOk Q m' w := by
  cases w with
  | elem arr i e => exact ⟨Nat.lt_of_lt_of_le hw.1 h1, hw.2⟩
  | fresh l => exact hw
  | header cur len => exact ⟨Nat.lt_of_lt_of_le hw.1 h1, by rw [h2 _ hw.1]; exact hw.2⟩

/-- What holds of a goroutine that changes the registry. -/
structure MutOk (Q : I → Recv T → Prop) (m : Reg I (Recv T)) (g : MutSt I T × List (MOp I (Recv T))) : Prop where
  todo : ∀ op ∈ g.2, ∀ id r, op = .add id r → Q id r
  searched : ∀ op at_ b, g.1 = .searched op at_ b → ∀ id r, op = .add id r → Q id r
  writing : ∀ op ws, g.1 = .writing op ws → ∀ w ∈ ws, WOk Q m w

/-- What holds in every schedule. -/
structure AInv (Q : I → Recv T → Prop) (p : St I T) : Prop where
  ok : p.reg.Ok
  all : AllQ Q p.reg
  muts : ∀ g ∈ p.muts, MutOk Q p.reg g

/-- No goroutine has panicked, and what a call under way has found in its search still holds. -/
def Current (p : St I T) : Prop := ∀ g ∈ p.muts, g.1 ≠ .panicked ∧ ∀ op at_ b, g.1 = .searched op at_ b → search p.reg.receivers (key op) = some (at_, b)

theorem ainv_step {Q : I → Recv T → Prop} {p : St I T} (h : AInv Q p) (hc : (∀ id id' r, Q id r → Q id' r) ∨ Current p) (c : Choice) :
    AInv Q (p.step c) ∧ Pres (fun _ e => ∀ r ∈ e.2, Q e.1 r) p.reg (p.step c).reg := by
  cases c with
  | snd k =>
    have : (p.step (.snd k)).reg = p.reg ∧ (p.step (.snd k)).muts = p.muts := by simp only [St.step]; split <;> exact ⟨rfl, rfl⟩
    refine ⟨⟨by rw [this.1]; exact h.ok, by rw [this.1]; exact h.all, by rw [this.1, this.2]; exact h.muts⟩, by rw [this.1]; exact Pres.refl _ _⟩
  | chg k =>
    cases hk : p.muts[k]? with
    | none => simp only [St.step, hk]; exact ⟨h, Pres.refl _ _⟩
    | some g =>
      have hmem := List.mem_of_getElem? hk
      have hg := h.muts g hmem
      simp only [St.step, hk]
      have same : ∀ g', (mutStep p.reg g) = (p.reg, g') → MutOk Q p.reg g' →
          AInv Q { p with reg := (mutStep p.reg g).1, muts := p.muts.set k (mutStep p.reg g).2 } ∧ Pres (fun _ e => ∀ r ∈ e.2, Q e.1 r) p.reg (mutStep p.reg g).1 := by
        intro g' hg' hok
        rw [hg']
        refine ⟨⟨h.ok, h.all, ?_⟩, Pres.refl _ _⟩
        intro x hx
        rcases List.mem_or_eq_of_mem_set hx with hx | rfl
        · exact h.muts x hx
        · exact hok
      obtain ⟨st, todo⟩ := g
      have htodo := hg.todo
      simp only at htodo
      cases st with
      | idle =>
        cases todo with
        | nil => exact same _ rfl ⟨hg.todo, by simp, by simp⟩
        | cons op todo =>
          cases hs : search p.reg.receivers (key op) with
          | none => exact same (.panicked, todo) (by simp only [mutStep, hs]) ⟨fun o ho => htodo o (by simp at ho; simp [ho]), by simp, by simp⟩
          | some x =>
            refine same (.searched op x.1 x.2, todo) (by simp only [mutStep, hs]) ⟨fun o ho => htodo o (by simp at ho; simp [ho]), ?_, by simp⟩
            intro op' at_ b e
            simp only [MutSt.searched.injEq] at e
            obtain ⟨rfl, _, _⟩ := e
            exact htodo op (by simp)
      | searched op at_ b =>
        have hop := hg.searched op at_ b rfl
        cases hp : planAt p.reg op at_ b with
        | none => exact same (.panicked, todo) (by simp only [mutStep, hp]) ⟨htodo, by simp, by simp⟩
        | some ws =>
          refine same (.writing op ws, todo) (by simp only [mutStep, hp]) ⟨htodo, by simp, ?_⟩
          intro op' ws' e
          simp only [MutSt.writing.injEq] at e
          obtain ⟨rfl, rfl⟩ := e
          refine planAt_ok h.ok h.all op hop at_ b ?_ _ hp
          rcases hc with hc | hc
          · intro i e _ _ _ r hr
            exact hc _ _ _ hr
          · exact same_of_search ((hc _ hmem).2 op at_ b rfl)
      | panicked => exact same (.panicked, todo) rfl ⟨htodo, by simp, by simp⟩
      | writing op ws =>
        cases ws with
        | nil => exact same (.idle, todo) rfl ⟨htodo, by simp, by simp⟩
        | cons w ws =>
          have hw := hg.writing op (w :: ws) rfl
          have hw0 := hw w (by simp)
          obtain ⟨s1, s2, s3⟩ := perform_shape h.ok hw0
          have hq' := perform_allQ h.all hw0
          simp only [mutStep]
          refine ⟨⟨s1, hq', ?_⟩, s2, fun a ha => ⟨s3 a ha, ?_⟩⟩
          · intro x hx
            rcases List.mem_or_eq_of_mem_set hx with hx | rfl
            · obtain ⟨b1, b2, b3⟩ := h.muts x hx
              exact ⟨b1, b2, fun op ws e w hw => (b3 op ws e w hw).mono s2 s3⟩
            · refine ⟨htodo, by simp, ?_⟩
              intro op' ws' e
              simp only [MutSt.writing.injEq] at e
              obtain ⟨rfl, rfl⟩ := e
              exact fun w' hw' => (hw w' (by simp [hw'])).mono s2 s3
          · intro j x x' _ hx' _ _
            exact hq' a (Nat.lt_of_lt_of_le ha s2) x' (List.mem_of_getElem? hx')

theorem ainv_run {Q : I → Recv T → Prop} (hQ : ∀ id id' r, Q id r → Q id' r) (sched : List Choice) :
    ∀ {p : St I T}, AInv Q p → AInv Q (p.run sched) ∧ Along (fun _ e => ∀ r ∈ e.2, Q e.1 r) p sched := by
  induction sched with
  | nil => intro p h; exact ⟨h, trivial⟩
  | cons c sched ih =>
    intro p h
    obtain ⟨h1, h2⟩ := ainv_step h (.inl hQ) c
    obtain ⟨i1, i2⟩ := ih h1
    exact ⟨i1, h.ok, fun e he => h.all _ h.ok.1 e (mem_receivers he), h2, i2⟩

/-! ### Calls that change the registry: one at a time -/

theorem current_step {p : St I T} (h : Current p) (c : Choice) (ho : ∀ k, c = .chg k → k < p.muts.length → ∀ j g, p.muts[j]? = some g → j ≠ k → g.1 = .idle) : Current (p.step c) := by
  cases c with
  | snd k =>
    have : (p.step (.snd k)).reg = p.reg ∧ (p.step (.snd k)).muts = p.muts := by simp only [St.step]; split <;> exact ⟨rfl, rfl⟩
    unfold Current
    rw [this.1, this.2]
    exact h
  | chg k =>
    cases hk : p.muts[k]? with
    | none => simp only [St.step, hk]; exact h
    | some g =>
      have hlt := (List.getElem?_eq_some_iff.mp hk).1
      have hidle := ho k rfl hlt
      simp only [St.step, hk]
      have key0 : (mutStep p.reg g).2.1 ≠ .panicked ∧ ∀ op at_ b, (mutStep p.reg g).2.1 = .searched op at_ b → search (mutStep p.reg g).1.receivers (key op) = some (at_, b) := by
        obtain ⟨st, todo⟩ := g
        have hg := h _ (List.mem_of_getElem? hk)
        cases st with
        | idle =>
          cases todo with
          | nil => simp [mutStep]
          | cons op todo =>
            rcases search_total p.reg.receivers (key op) with hs | ⟨i, b, hs, _⟩
            · simp only [mutStep, hs]
              refine ⟨by simp, ?_⟩
              intro op' at_ b e
              simp only [MutSt.searched.injEq] at e
              obtain ⟨rfl, rfl, rfl⟩ := e
              exact hs
            · simp only [mutStep, hs]
              refine ⟨by simp, ?_⟩
              intro op' at_ b e
              simp only [MutSt.searched.injEq] at e
              obtain ⟨rfl, rfl, rfl⟩ := e
              exact hs
        | searched op at_ b =>
          have hs := hg.2 op at_ b rfl
          obtain ⟨ws, hws⟩ := plan_total (m := p.reg) op
          rw [plan_of hs] at hws
          simp [mutStep, hws]
        | panicked => exact absurd rfl hg.1
        | writing op ws => cases ws <;> simp [mutStep]
      intro x hx
      obtain ⟨j, hj⟩ := List.mem_iff_getElem?.mp hx
      by_cases e : j = k
      · subst e
        rw [List.getElem?_set_self hlt] at hj
        cases hj
        exact key0
      · rw [List.getElem?_set_ne (fun e' => e e'.symm)] at hj
        have := hidle j x hj e
        rw [this]
        simp

theorem current_run {Q : I → Recv T → Prop} (sched : List Choice) :
    ∀ {p : St I T}, AInv Q p → Current p → OneAtATime p sched → AInv Q (p.run sched) ∧ Current (p.run sched) ∧ Along (fun _ e => ∀ r ∈ e.2, Q e.1 r) p sched := by
  induction sched with
  | nil => intro p h hc _; exact ⟨h, hc, trivial⟩
  | cons c sched ih =>
    intro p h hc ho
    obtain ⟨h1, h2⟩ := ainv_step h (.inr hc) c
    obtain ⟨i1, i2, i3⟩ := ih h1 (current_step hc c ho.1) ho.2
    exact ⟨i1, i2, h.ok, fun e he => h.all _ h.ok.1 e (mem_receivers he), h2, i3⟩

omit [LinearOrder I] in
theorem foldl_shift (a : Nat) (es : List (I × List (Recv T))) : ∀ (i : Nat) (m : Reg I (Recv T)), i + es.length ≤ (m.arrs a).length →
    (shift a i es).foldl Write.perform m = { m with arrs := Function.update m.arrs a (writeAt (m.arrs a) i es) } := by
  induction es with
  | nil => intro i m hl; simp [shift, writeAt]
  | cons e es ih =>
    intro i m hl
    simp only [List.length_cons] at hl
    simp only [shift, List.foldl_cons]
    rw [ih]
    · simp only [Write.perform, Function.update_self, Function.update_idem]
      congr 2
      obtain ⟨A, x, B, hAB, hA⟩ : ∃ A x B, m.arrs a = A ++ x :: B ∧ A.length = i :=
        ⟨(m.arrs a).take i, (m.arrs a)[i]'(by omega), (m.arrs a).drop (i + 1), by rw [← List.drop_eq_getElem_cons, List.take_append_drop], by simp; omega⟩
      rw [hAB]
      subst hA
      have e1 : A.length + 1 = (A ++ [e]).length := by simp
      have e2 : A ++ e :: B = (A ++ [e]) ++ B := by simp
      unfold writeAt
      rw [List.set_append_right _ _ (Nat.le_refl _), Nat.sub_self, List.set_cons_zero, List.take_left' rfl]
      have e3 : (A ++ e :: B).take (A.length + 1) = A ++ [e] := by rw [e2, List.take_left' (by simp)]
      have e4 : (A ++ e :: B).drop (A.length + 1 + es.length) = B.drop es.length := by
        rw [e2, ← List.drop_drop, List.drop_left' (by simp)]
      have e5 : (A ++ x :: B).drop (A.length + (e :: es).length) = B.drop es.length := by
        rw [← List.drop_drop, List.drop_left' rfl]; simp
      rw [e3, e4, e5]
      simp
    · simp only [Write.perform, Function.update_self, List.length_set]; omega

/-- The writes of a call, made one after the other, are what the call does if nobody interferes. -/
theorem plan_exact (m : Reg I (Recv T)) (hm : m.Ok) (op : MOp I (Recv T)) : (plan m op).map (fun ws => ws.foldl Write.perform m) = memOps m [op] := by
  cases op with
  | add id r =>
    simp only [memOps]
    rcases search_total m.receivers id with h | ⟨i, b, h, hi⟩
    · simp [plan, key, planAt, h, Reg.register, Write.perform]
    · cases b with
      | false => simp [plan, key, planAt, h, Reg.register, Write.perform, Nat.succ_le_of_lt hi]
      | true => simp [plan, key, planAt, h, Reg.register, Write.perform, hi, Reg.assign]
  | removeKey id =>
    simp only [memOps]
    rcases search_total m.receivers id with h | ⟨i, b, h, hi⟩
    · simp [plan, key, planAt, h, Reg.removeId]
    · cases b with
      | false => simp [plan, key, planAt, h, Reg.removeId]
      | true =>
        have hl := length_receivers hm
        have := hm.2
        simp only [plan, key, planAt, if_pos (Nat.succ_le_of_lt hi), h, Reg.removeId, Option.map_some, Option.bind_some, List.foldl_append, List.foldl_cons, List.foldl_nil]
        rw [foldl_shift _ _ _ _ (by simp only [List.length_drop]; omega)]
        rfl
  | removeValue id r all =>
    simp only [memOps]
    rcases search_total m.receivers id with h | ⟨i, b, h, hi⟩
    · simp [plan, key, planAt, h, Reg.remove]
    · cases b with
      | false => simp [plan, key, planAt, h, Reg.remove]
      | true => simp [plan, key, planAt, h, Reg.remove, Write.perform, hi, Reg.assign]

theorem memOps_append (m : Reg I (Recv T)) (a b : List (MOp I (Recv T))) : memOps m (a ++ b) = (memOps m a).bind fun m' => memOps m' b := by
  induction a generalizing m with
  | nil => rfl
  | cons op a ih => cases op <;> simp only [List.cons_append, memOps, ih, Option.bind_assoc]

/-- The registry is what the calls that have returned make of m0, one after the other; if a call is under way, it will be so when its writes are made. -/
def HInv (m0 : Reg I (Recv T)) (L : List (MOp I (Recv T))) (p : St I T) : Prop :=
  ((∀ (j : Nat) g, p.muts[j]? = some g → ∀ op ws, g.1 ≠ .writing op ws) ∧ memOps m0 L = some p.reg) ∨
  ∃ (k : Nat) (op : MOp I (Recv T)) (ws : List (Write I T)) (todo : List (MOp I (Recv T))), p.muts[k]? = some (.writing op ws, todo) ∧
    (∀ (j : Nat) g, p.muts[j]? = some g → j ≠ k → g.1 = .idle) ∧ memOps m0 (L ++ [op]) = some (ws.foldl Write.perform p.reg)

theorem hinv_step {Q : I → Recv T → Prop} {m0 : Reg I (Recv T)} {L : List (MOp I (Recv T))} {p : St I T} (h : HInv m0 L p) (ha : AInv Q p) (hc : Current p) (c : Choice)
    (ho : ∀ k, c = .chg k → k < p.muts.length → ∀ j g, p.muts[j]? = some g → j ≠ k → g.1 = .idle) : HInv m0 (L ++ returns p c) (p.step c) := by
  cases c with
  | snd k =>
    have : (p.step (.snd k)).reg = p.reg ∧ (p.step (.snd k)).muts = p.muts := by simp only [St.step]; split <;> exact ⟨rfl, rfl⟩
    have hr : L ++ returns p (.snd k) = L := by simp [returns]
    unfold HInv
    rw [this.1, this.2, hr]
    exact h
  | chg k =>
    cases hk : p.muts[k]? with
    | none => simpa [St.step, hk, returns] using h
    | some g =>
      have hlt := (List.getElem?_eq_some_iff.mp hk).1
      have hidle := ho k rfl hlt
      have hset : ∀ g', ∀ (j : Nat) x, (p.muts.set k g')[j]? = some x → j ≠ k → x.1 = .idle := by
        intro g' j x hx hj
        rw [List.getElem?_set_ne (fun e => hj e.symm)] at hx
        exact hidle j x hx hj
      have hall : ∀ g' : MutSt I T × List (MOp I (Recv T)), (∀ op ws, g'.1 ≠ .writing op ws) → ∀ (j : Nat) x, (p.muts.set k g')[j]? = some x → ∀ op ws, x.1 ≠ .writing op ws := by
        intro g' hg' j x hx
        by_cases e : j = k
        · subst e
          rw [List.getElem?_set_self hlt] at hx
          cases hx
          exact hg'
        · rw [hset g' j x hx e]; simp
      have hex : ∀ op ws todo, g = (.writing op ws, todo) → memOps m0 (L ++ [op]) = some (ws.foldl Write.perform p.reg) := by
        rintro op ws todo rfl
        rcases h with ⟨h1, _⟩ | ⟨k', op', ws', todo', h1, h2, h3⟩
        · exact absurd rfl (h1 k _ hk op ws)
        · by_cases e : k = k'
          · subst e
            rw [hk] at h1
            cases h1
            exact h3
          · cases h2 k _ hk e
      have hnow : (∀ op ws, g.1 ≠ .writing op ws) → memOps m0 L = some p.reg := by
        intro hg
        rcases h with ⟨_, h1⟩ | ⟨k', op', ws', todo', h1, h2, h3⟩
        · exact h1
        · by_cases e : k' = k
          · subst e
            rw [hk] at h1
            cases h1
            exact absurd rfl (hg op' ws')
          · have := hidle k' _ h1 e
            cases this
      simp only [St.step, hk]
      obtain ⟨st, todo⟩ := g
      cases st with
      | idle =>
        have hr : returns p (.chg k) = [] := by simp only [returns, hk]
        rw [hr, List.append_nil]
        have hnow' := hnow (by simp)
        cases todo with
        | nil => exact .inl ⟨hall _ (by simp [mutStep]), hnow'⟩
        | cons op todo =>
          have : (mutStep p.reg (.idle, op :: todo)).1 = p.reg ∧ ∀ o ws, (mutStep p.reg (.idle, op :: todo)).2.1 ≠ .writing o ws := by
            simp only [mutStep]
            split <;> simp
          exact .inl ⟨hall _ this.2, by show memOps m0 L = some (mutStep p.reg (.idle, op :: todo)).1; rw [this.1]; exact hnow'⟩
      | searched op at_ b =>
        have hr : returns p (.chg k) = [] := by simp only [returns, hk]
        rw [hr, List.append_nil]
        have hnow' := hnow (by simp)
        have hs := (hc _ (List.mem_of_getElem? hk)).2 op at_ b rfl
        obtain ⟨ws, hws⟩ := plan_total (m := p.reg) op
        have hpe := plan_exact p.reg ha.ok op
        rw [hws] at hpe
        rw [plan_of hs] at hws
        simp only [mutStep, hws]
        refine .inr ⟨k, op, ws, todo, List.getElem?_set_self hlt, hset _, ?_⟩
        rw [memOps_append, hnow', Option.bind_some, ← hpe]
        rfl
      | panicked => exact absurd rfl (hc _ (List.mem_of_getElem? hk)).1
      | writing op ws =>
        cases ws with
        | nil =>
          have hr : returns p (.chg k) = [op] := by simp only [returns, hk]
          rw [hr]
          exact .inl ⟨hall _ (by simp [mutStep]), hex op [] todo rfl⟩
        | cons w ws =>
          have hr : returns p (.chg k) = [] := by simp only [returns, hk]
          rw [hr, List.append_nil]
          exact .inr ⟨k, op, ws, todo, List.getElem?_set_self hlt, hset _, hex op (w :: ws) todo rfl⟩

theorem hinv_run {Q : I → Recv T → Prop} {m0 : Reg I (Recv T)} (sched : List Choice) :
    ∀ {L : List (MOp I (Recv T))} {p : St I T}, HInv m0 L p → AInv Q p → Current p → OneAtATime p sched → HInv m0 (L ++ returned p sched) (p.run sched) := by
  induction sched with
  | nil => intro L p h _ _ _; simpa [returned, St.run] using h
  | cons c sched ih =>
    intro L p h ha hc ho
    have := ih (hinv_step h ha hc c ho.1) (ainv_step ha (.inr hc) c).1 (current_step hc c ho.1) ho.2
    simpa [returned, St.run] using this

/-! ### Calls of Register and Remove, one at a time -/

/-- The receiver is in the registry under the id. -/
def Has (m : Reg I (Recv T)) (id : I) (r : Recv T) : Prop := ∃ rs, (id, rs) ∈ m.receivers ∧ r ∈ rs

/-- Not a call of RemoveId; a call of Remove only for receivers whose pointer text belongs to receivers in D. -/
def Allowed (D : Recv T → Bool) : MOp I (Recv T) → Prop
  | .add _ _ => True
  | .removeKey _ => False
  | .removeValue _ v _ => ∀ x, x.ptr = v.ptr → D x = true

theorem op_grown {D : Recv T → Bool} {m m' : Reg I (Recv T)} (hm : m.Ok) {op : MOp I (Recv T)} (ha : Allowed D op) (h : memOps m [op] = some m') : MemGrown D m m' := by
  cases op with
  | add id r => exact register_grown D m m' hm id r (by simpa [memOps] using h)
  | removeKey id => exact absurd ha (by simp [Allowed])
  | removeValue id r all => exact remove_grown D Recv.ptr m m' hm id r ha all (by simpa [memOps] using h)

omit [LinearOrder I] in
theorem receivers_assign (m : Reg I (Recv T)) (i : Nat) (e : I × List (Recv T)) : (m.assign i e).receivers = m.receivers.set i e := by
  simp only [Reg.assign, Reg.receivers, Function.update_self]
  rw [List.take_set]

omit [LinearOrder I] in
theorem receivers_alloc (m : Reg I (Recv T)) (l : List (I × List (Recv T))) : (m.alloc l).receivers = l := by simp [Reg.alloc, Reg.receivers]

omit [LinearOrder I] in
/-- An element that is set to one with the same id, and with the receiver if it had it. -/
theorem has_set {l : List (I × List (Recv T))} {i : Nat} {e e' : I × List (Recv T)} (he : l[i]? = some e) (hid : e'.1 = e.1) {id : I} {r : Recv T} (hr : r ∈ e.2 → e.1 = id → r ∈ e'.2)
    (h : ∃ rs, (id, rs) ∈ l ∧ r ∈ rs) : ∃ rs, (id, rs) ∈ l.set i e' ∧ r ∈ rs := by
  obtain ⟨rs, h1, h2⟩ := h
  obtain ⟨j, hj, hj'⟩ := List.mem_iff_getElem.mp h1
  by_cases hij : i = j
  · subst hij
    rw [List.getElem?_eq_getElem hj, hj'] at he
    cases he
    refine ⟨e'.2, ?_, hr h2 rfl⟩
    have : e' = (id, e'.2) := by rw [← show e'.1 = id from hid]
    rw [← this]
    exact List.mem_iff_getElem.mpr ⟨i, by simpa using hj, by simp⟩
  · exact ⟨rs, List.mem_iff_getElem.mpr ⟨j, by simpa using hj, by rw [List.getElem_set_ne hij]; exact hj'⟩, h2⟩

theorem op_has {D : Recv T → Bool} {m m' : Reg I (Recv T)} {op : MOp I (Recv T)} (ha : Allowed D op) (h : memOps m [op] = some m') {id : I} {r : Recv T} (hD : D r = false)
    (hh : Has m id r) : Has m' id r := by
  cases op with
  | add k v =>
    have h : m.register k v = some m' := by simpa [memOps] using h
    unfold Reg.register at h
    rcases search_total m.receivers k with hs | ⟨i, b, hs, hi⟩
    · have : m.receivers = [] := by
        unfold search at hs
        split at hs
        · rename_i h0; exact List.length_eq_zero_iff.mp h0
        · cases hl : searchLoop m.receivers k 0 (m.receivers.length - 1) <;> simp [hl] at hs
      obtain ⟨rs, h1, _⟩ := hh
      rw [this] at h1
      simp at h1
    · cases b with
      | true =>
        obtain ⟨e, he, hk⟩ := search_match _ _ _ hs
        simp only [hs, he, Option.some.injEq] at h
        subst h
        unfold Has
        rw [receivers_assign]
        exact has_set he hk.symm (fun h _ => by simp [h]) hh
      | false =>
        simp only [hs, Option.some.injEq] at h
        subst h
        unfold Has
        rw [receivers_alloc]
        obtain ⟨rs, h1, h2⟩ := hh
        refine ⟨rs, ?_, h2⟩
        rw [← List.take_append_drop (i + 1) m.receivers] at h1
        rcases List.mem_append.mp h1 with h1 | h1 <;> simp [h1]
  | removeKey k => exact absurd ha (by simp [Allowed])
  | removeValue k v all =>
    have h : m.remove Recv.ptr k v all = some m' := by simpa [memOps] using h
    unfold Reg.remove at h
    rcases search_total m.receivers k with hs | ⟨i, b, hs, hi⟩
    · simp only [hs, Option.some.injEq] at h
      subst h; exact hh
    · cases b with
      | false =>
        simp only [hs, Option.some.injEq] at h
        subst h; exact hh
      | true =>
        obtain ⟨e, he, hk⟩ := search_match _ _ _ hs
        simp only [hs, he, Option.some.injEq] at h
        subst h
        unfold Has
        rw [receivers_assign]
        refine has_set he hk.symm (fun hre _ => ?_) hh
        have hne : r.ptr ≠ v.ptr := fun e => by rw [ha r e] at hD; cases hD
        cases all with
        | true =>
          have : sliceRemoveUncomparable Recv.ptr e.2 v [true] = e.2.filter (fun t => !(t.ptr == v.ptr)) := by
            simp [sliceRemoveUncomparable, sliceIndex, removeAll_eq]
          rw [this]
          exact List.mem_filter.mpr ⟨hre, by simp [hne]⟩
        | false =>
          have : sliceRemoveUncomparable Recv.ptr e.2 v [false] = e.2.eraseP (fun t => t.ptr == v.ptr) := by
            simp [sliceRemoveUncomparable, sliceIndex, removeFirst_eq]
          rw [this]
          exact (List.mem_eraseP_of_neg (by simp [hne])).mpr hre

theorem add_has {m m' : Reg I (Recv T)} {id : I} {r : Recv T} (h : memOps m [.add id r] = some m') : Has m' id r := by
  have h : m.register id r = some m' := by simpa [memOps] using h
  unfold Reg.register at h
  rcases search_total m.receivers id with hs | ⟨i, b, hs, hi⟩
  · simp only [hs, Option.some.injEq] at h
    subst h
    unfold Has
    rw [receivers_alloc]
    exact ⟨[r], by simp, by simp⟩
  · cases b with
    | true =>
      obtain ⟨e, he, hk⟩ := search_match _ _ _ hs
      simp only [hs, he, Option.some.injEq] at h
      subst h
      unfold Has
      rw [receivers_assign]
      exact ⟨e.2 ++ [r], List.mem_iff_getElem.mpr ⟨i, by simpa using hi, by simp⟩, by simp⟩
    | false =>
      simp only [hs, Option.some.injEq] at h
      subst h
      unfold Has
      rw [receivers_alloc]
      exact ⟨[r], by simp, by simp⟩

/-- A call of Register or Remove makes at most one write. -/
theorem plan_single {D : Recv T → Bool} {m : Reg I (Recv T)} (hm : m.Ok) {op : MOp I (Recv T)} (ha : Allowed D op) {ws : List (Write I T)} (h : plan m op = some ws) :
    (ws = [] ∧ ∀ id r, op ≠ .add id r) ∨ ∃ w, ws = [w] ∧ memOps m [op] = some (w.perform m) := by
  have hpe := plan_exact m hm op
  rw [h] at hpe
  have hl : ws.length ≤ 1 ∧ (ws = [] → ∀ id r, op ≠ .add id r) := by
    cases op with
    | add id r =>
      rcases search_total m.receivers id with hs | ⟨i, b, hs, hi⟩
      · simp only [plan, key, planAt, hs, Option.bind_some, Option.some.injEq] at h; subst h; simp
      · cases b with
        | true => simp only [plan, key, planAt, hs, Option.bind_some, List.getElem?_eq_getElem hi, Option.some.injEq] at h; subst h; simp
        | false => simp only [plan, key, planAt, hs, Option.bind_some, if_pos (Nat.succ_le_of_lt hi), Option.some.injEq] at h; subst h; simp
    | removeKey id => exact absurd ha (by simp [Allowed])
    | removeValue id r all =>
      rcases search_total m.receivers id with hs | ⟨i, b, hs, hi⟩
      · simp only [plan, key, planAt, hs, Option.bind_some, Option.some.injEq] at h; subst h; simp
      · cases b with
        | true => simp only [plan, key, planAt, hs, Option.bind_some, List.getElem?_eq_getElem hi, Option.some.injEq] at h; subst h; simp
        | false => simp only [plan, key, planAt, hs, Option.bind_some, Option.some.injEq] at h; subst h; simp
  match ws, hl.1, hl.2, hpe with
  | [], _, h2, _ => exact .inl ⟨rfl, h2 rfl⟩
  | [w], _, _, h3 => exact .inr ⟨w, rfl, h3.symm⟩
  | _ :: _ :: _, h1, _, _ => simp at h1

/-- A call under way, as long as no other call makes a step. -/
structure GInv (D : Recv T → Bool) (L : List (MOp I (Recv T))) (p : St I T) : Prop where
  todo : ∀ g ∈ p.muts, ∀ op ∈ g.2, Allowed D op
  searched : ∀ g ∈ p.muts, ∀ op at_ b, g.1 = .searched op at_ b → Allowed D op
  now : ∀ g ∈ p.muts, ∀ op ws, g.1 = .writing op ws → Allowed D op ∧
    ((ws = [] ∧ ∀ id r, op = .add id r → D r = false → Has p.reg id r) ∨ ∃ w, ws = [w] ∧ memOps p.reg [op] = some (w.perform p.reg))
  has : ∀ id r, MOp.add id r ∈ L → D r = false → Has p.reg id r

/-- The relation of entries of `Grown`. -/
def More (D : Recv T → Bool) (x y : I × List (Recv T)) : Prop := y.1 = x.1 ∧ (x.2.filter (fun r => !D r)) <+: (y.2.filter (fun r => !D r))

theorem grown_pres {D : Recv T → Bool} {m m' : Reg I (Recv T)} (h : MemGrown D m m') : Pres (More D) m m' := by
  refine ⟨h.2.1, fun a ha => ⟨(h.2.2 a ha).length_eq.symm, ?_⟩⟩
  intro j x x' hx hx' e he
  obtain ⟨y, hy, h1, h2⟩ := forall2_getElem? (h.2.2 a ha) j x hx
  rw [hx'] at hy
  cases hy
  exact ⟨h1.trans he.1, he.2.trans h2⟩

theorem ginv_step {Q : I → Recv T → Prop} {D : Recv T → Bool} {L : List (MOp I (Recv T))} {p : St I T} (h : GInv D L p) (ha : AInv Q p) (hc : Current p) (c : Choice)
    (ho : ∀ k, c = .chg k → k < p.muts.length → ∀ j g, p.muts[j]? = some g → j ≠ k → g.1 = .idle) :
    GInv D (L ++ returns p c) (p.step c) ∧ Pres (More D) p.reg (p.step c).reg := by
  cases c with
  | snd k =>
    have : (p.step (.snd k)).reg = p.reg ∧ (p.step (.snd k)).muts = p.muts := by simp only [St.step]; split <;> exact ⟨rfl, rfl⟩
    refine ⟨?_, by rw [this.1]; exact Pres.refl _ _⟩
    refine ⟨by rw [this.2]; exact h.todo, by rw [this.2]; exact h.searched, by rw [this.1, this.2]; exact h.now, ?_⟩
    rw [this.1]
    simpa [returns] using h.has
  | chg k =>
    cases hk : p.muts[k]? with
    | none =>
      simp only [St.step, hk, returns, List.append_nil]
      exact ⟨h, Pres.refl _ _⟩
    | some g =>
      have hlt := (List.getElem?_eq_some_iff.mp hk).1
      have hidle := ho k rfl hlt
      have hmem := List.mem_of_getElem? hk
      have hset : ∀ g', ∀ x ∈ p.muts.set k g', x = g' ∨ (x.1 = .idle ∧ x ∈ p.muts) := by
        intro g' x hx
        obtain ⟨j, hj⟩ := List.mem_iff_getElem?.mp hx
        by_cases e : j = k
        · subst e
          rw [List.getElem?_set_self hlt] at hj
          exact .inl (Option.some.inj hj).symm
        · rw [List.getElem?_set_ne (fun e' => e e'.symm)] at hj
          exact .inr ⟨hidle j x hj e, List.mem_of_getElem? hj⟩
      have build : ∀ (L' : List (MOp I (Recv T))) (m' : Reg I (Recv T)) (g' : MutSt I T × List (MOp I (Recv T))), (∀ op ∈ g'.2, Allowed D op) → (∀ op at_ b, g'.1 = .searched op at_ b → Allowed D op) →
          (∀ op ws, g'.1 = .writing op ws → Allowed D op ∧
            ((ws = [] ∧ ∀ id r, op = .add id r → D r = false → Has m' id r) ∨ ∃ w, ws = [w] ∧ memOps m' [op] = some (w.perform m'))) →
          (∀ id r, MOp.add id r ∈ L' → D r = false → Has m' id r) → GInv D L' { p with reg := m', muts := p.muts.set k g' } := by
        intro L' m' g' h1 h0 h2 h3
        refine ⟨?_, ?_, ?_, h3⟩
        · intro x hx
          rcases hset g' x hx with rfl | ⟨_, hx⟩
          · exact h1
          · exact h.todo x hx
        · intro x hx op at_ b e
          rcases hset g' x hx with rfl | ⟨hi, _⟩
          · exact h0 op at_ b e
          · rw [hi] at e; cases e
        · intro x hx op ws e
          rcases hset g' x hx with rfl | ⟨hi, _⟩
          · exact h2 op ws e
          · rw [hi] at e; cases e
      simp only [St.step, hk]
      obtain ⟨st, todo⟩ := g
      have htodo := h.todo _ hmem
      simp only at htodo
      cases st with
      | idle =>
        have hr : returns p (.chg k) = [] := by simp only [returns, hk]
        rw [hr, List.append_nil]
        cases todo with
        | nil => exact ⟨build L _ _ (by simp [mutStep]) (fun _ _ _ e => by simp [mutStep] at e) (fun _ _ e => by simp [mutStep] at e) h.has, Pres.refl _ _⟩
        | cons op todo =>
          have hal := htodo op (by simp)
          rcases search_total p.reg.receivers (key op) with hs | ⟨i, b, hs, _⟩ <;>
          · simp only [mutStep, hs]
            refine ⟨build L _ _ (fun o ho => htodo o (by simp at ho; simp [ho])) ?_ (fun _ _ e => by simp at e) h.has, Pres.refl _ _⟩
            intro op' at_ b' e
            simp only [MutSt.searched.injEq] at e
            obtain ⟨rfl, _, _⟩ := e
            exact hal
      | searched op at_ b =>
        have hr : returns p (.chg k) = [] := by simp only [returns, hk]
        rw [hr, List.append_nil]
        have hs := (hc _ hmem).2 op at_ b rfl
        have hal := h.searched _ hmem op at_ b rfl
        obtain ⟨ws, hws⟩ := plan_total (m := p.reg) op
        have hws' := hws
        rw [plan_of hs] at hws'
        simp only [mutStep, hws']
        refine ⟨build L _ _ htodo (fun _ _ _ e => by simp at e) ?_ h.has, Pres.refl _ _⟩
        intro op' ws' e
        simp only [MutSt.writing.injEq] at e
        obtain ⟨rfl, rfl⟩ := e
        refine ⟨hal, ?_⟩
        rcases plan_single ha.ok hal hws with ⟨h1, h2⟩ | h1
        · exact .inl ⟨h1, fun id r e => absurd e (h2 id r)⟩
        · exact .inr h1
      | panicked => exact absurd rfl (hc _ hmem).1
      | writing op ws =>
        obtain ⟨hal, hnow⟩ := h.now _ hmem op ws rfl
        rcases hnow with ⟨rfl, hadd⟩ | ⟨w, rfl, hw⟩
        · have hr : returns p (.chg k) = [op] := by simp only [returns, hk]
          rw [hr]
          simp only [mutStep]
          refine ⟨build _ _ _ htodo (fun _ _ _ e => by simp at e) (fun _ _ e => by simp at e) ?_, Pres.refl _ _⟩
          intro id r hmem' hD
          simp only [List.mem_append, List.mem_singleton] at hmem'
          rcases hmem' with h' | h'
          · exact h.has id r h' hD
          · exact hadd id r h'.symm hD
        · have hr : returns p (.chg k) = [] := by simp only [returns, hk]
          rw [hr, List.append_nil]
          simp only [mutStep]
          refine ⟨build L _ _ htodo (fun _ _ _ e => by simp at e) ?_ (fun id r hmem' hD => op_has hal hw hD (h.has id r hmem' hD)), grown_pres (op_grown ha.ok hal hw)⟩
          intro op' ws' e
          simp only [MutSt.writing.injEq] at e
          obtain ⟨rfl, rfl⟩ := e
          refine ⟨hal, .inl ⟨rfl, ?_⟩⟩
          rintro id r rfl _
          exact add_has hw

theorem ginv_run {Q : I → Recv T → Prop} {D : Recv T → Bool} (sched : List Choice) :
    ∀ {L : List (MOp I (Recv T))} {p : St I T}, GInv D L p → AInv Q p → Current p → OneAtATime p sched → GInv D (L ++ returned p sched) (p.run sched) ∧ Along (More D) p sched := by
  induction sched with
  | nil => intro L p h _ _ _; exact ⟨by simpa [returned, St.run] using h, trivial⟩
  | cons c sched ih =>
    intro L p h ha hc ho
    obtain ⟨h1, h2⟩ := ginv_step h ha hc c ho.1
    obtain ⟨i1, i2⟩ := ih h1 (ainv_step ha (.inr hc) c).1 (current_step hc c ho.1) ho.2
    exact ⟨by simpa [returned, St.run] using i1, ha.ok, fun e _ => ⟨rfl, List.prefix_refl _⟩, h2, i2⟩

theorem OneAtATime.split (s1 s2 : List Choice) : ∀ {p : St I T}, OneAtATime p (s1 ++ s2) → OneAtATime p s1 ∧ OneAtATime (p.run s1) s2 := by
  induction s1 with
  | nil => intro p h; exact ⟨trivial, h⟩
  | cons c s1 ih => intro p h; exact ⟨⟨h.1, (ih h.2).1⟩, (ih h.2).2⟩

end Micro.Event.Conc
