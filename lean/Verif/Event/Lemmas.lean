import Verif.Event.Spec
import Verif.Funcs.Lemmas
import Verif.Funcs.SliceLemmas
set_option linter.unusedSimpArgs false
/-
Lemmas about the event registry in memory.
-/
namespace Micro.Event
open Micro Micro.Funcs

variable {I R T : Type}

theorem searchLoop_total [LinearOrder I] {V : Type} (mp : List (I × V)) (key : I) : ∀ (n l r : Nat), r - l ≤ n → l ≤ r → r < mp.length →
    ∃ i b, searchLoop mp key l r = some (i, b) ∧ i < mp.length := by
  intro n
  induction n with
  | zero =>
    intro l r h1 h2 h3
    have : l = r := by omega
    subst this
    exact ⟨l, decide (key = (mp[l]'h3).1), by rw [searchLoop]; simp [h3], h3⟩
  | succ n ih =>
    intro l r h1 h2 h3
    by_cases h : l < r
    · obtain ⟨b1, b2⟩ := mid_bounds h
      rw [searchLoop, dif_pos h, List.getElem?_eq_getElem (by omega : mid l r < mp.length)]
      simp only
      split
      · exact ih l (mid l r - 1) (by omega) (by omega) (by omega)
      · exact ih (mid l r) r (by omega) (by omega) (by omega)
    · have : l = r := by omega
      subst this
      exact ⟨l, decide (key = (mp[l]'h3).1), by rw [searchLoop]; simp [h3], h3⟩

/-- The search never fails, on any slice. -/
theorem search_total [LinearOrder I] {V : Type} (mp : List (I × V)) (key : I) :
    search mp key = some (none, false) ∨ ∃ i b, search mp key = some (some i, b) ∧ i < mp.length := by
  unfold search
  split
  · exact .inl rfl
  · rename_i h
    obtain ⟨i, b, e, hi⟩ := searchLoop_total mp key mp.length 0 (mp.length - 1) (by omega) (by omega) (by omega)
    exact .inr ⟨i, b, by simp [e], hi⟩

theorem searchLoop_match [LinearOrder I] {V : Type} (mp : List (I × V)) (key : I) : ∀ (n l r : Nat), r - l ≤ n → ∀ i, searchLoop mp key l r = some (i, true) →
    ∃ e, mp[i]? = some e ∧ e.1 = key := by
  intro n
  induction n with
  | zero =>
    intro l r h1 i h
    rw [searchLoop] at h
    rw [dif_neg (by omega)] at h
    split at h
    · split at h
      · cases h
      · rename_i e he
        simp only [Option.some.injEq, Prod.mk.injEq, decide_eq_true_eq] at h
        obtain ⟨rfl, h⟩ := h
        exact ⟨e, he, h.symm⟩
    · cases h
  | succ n ih =>
    intro l r h1 i h
    by_cases hlr : l < r
    · obtain ⟨b1, b2⟩ := mid_bounds hlr
      rw [searchLoop, dif_pos hlr] at h
      split at h
      · cases h
      · split at h
        · exact ih _ _ (by omega) i h
        · exact ih _ _ (by omega) i h
    · rw [searchLoop, dif_neg hlr] at h
      split at h
      · split at h
        · cases h
        · rename_i e he
          simp only [Option.some.injEq, Prod.mk.injEq, decide_eq_true_eq] at h
          obtain ⟨rfl, h⟩ := h
          exact ⟨e, he, h.symm⟩
      · cases h

/-- A match is at the index. -/
theorem search_match [LinearOrder I] {V : Type} (mp : List (I × V)) (key : I) (i : Nat) (h : search mp key = some (some i, true)) :
    ∃ e, mp[i]? = some e ∧ e.1 = key := by
  unfold search at h
  split at h
  · cases h
  · cases hs : searchLoop mp key 0 (mp.length - 1) with
    | none => rw [hs] at h; cases h
    | some p =>
      obtain ⟨a, b⟩ := p
      rw [hs] at h
      simp only [Option.map_some, Option.some.injEq, Prod.mk.injEq] at h
      obtain ⟨rfl, rfl⟩ := h
      exact searchLoop_match mp key _ _ _ (Nat.le_refl _) _ hs

theorem Grown.refl (D : R → Bool) (a : List (I × List R)) : Grown D a a := by
  induction a with
  | nil => exact .nil
  | cons x a ih => exact .cons ⟨rfl, List.prefix_refl _⟩ ih

theorem Grown.trans {D : R → Bool} {a b c : List (I × List R)} (h1 : Grown D a b) (h2 : Grown D b c) : Grown D a c := by
  induction h1 generalizing c with
  | nil => cases h2; exact .nil
  | cons h _ ih =>
    cases h2 with
    | cons h' h2' => exact .cons ⟨h'.1.trans h.1, h.2.trans h'.2⟩ (ih h2')

theorem Grown.set {D : R → Bool} (a : List (I × List R)) (i : Nat) (e e' : I × List R) (he : a[i]? = some e) (h1 : e'.1 = e.1)
    (h2 : e.2.filter (fun r => !D r) <+: e'.2.filter (fun r => !D r)) : Grown D a (a.set i e') := by
  induction a generalizing i with
  | nil => simp at he
  | cons x a ih =>
    cases i with
    | zero =>
      simp only [List.getElem?_cons_zero, Option.some.injEq] at he
      subst he
      exact .cons ⟨h1, h2⟩ (Grown.refl D a)
    | succ i => exact .cons ⟨rfl, List.prefix_refl _⟩ (ih i (by simpa using he))

/-- All arrays of the memory have changed only so. -/
def MemGrown (D : R → Bool) (m m' : Reg I R) : Prop := m'.Ok ∧ m.next ≤ m'.next ∧ ∀ a < m.next, Grown D (m.arrs a) (m'.arrs a)

theorem MemGrown.refl {D : R → Bool} {m : Reg I R} (h : m.Ok) : MemGrown D m m := ⟨h, Nat.le_refl _, fun _ _ => Grown.refl D _⟩

theorem MemGrown.trans {D : R → Bool} {a b c : Reg I R} (h1 : MemGrown D a b) (h2 : MemGrown D b c) : MemGrown D a c :=
  ⟨h2.1, Nat.le_trans h1.2.1 h2.2.1, fun x hx => (h1.2.2 x hx).trans (h2.2.2 x (Nat.lt_of_lt_of_le hx h1.2.1))⟩

theorem alloc_grown (D : R → Bool) (m : Reg I R) (l : List (I × List R)) : MemGrown D m (m.alloc l) := by
  refine ⟨⟨by simp [Reg.alloc], by simp [Reg.alloc]⟩, by simp [Reg.alloc], fun a ha => ?_⟩
  simp only [Reg.alloc, Function.update_of_ne (show a ≠ m.next by omega)]
  exact Grown.refl D _

theorem assign_grown (D : R → Bool) (m : Reg I R) (hm : m.Ok) (i : Nat) (e e' : I × List R) (he : m.receivers[i]? = some e) (h1 : e'.1 = e.1)
    (h2 : e.2.filter (fun r => !D r) <+: e'.2.filter (fun r => !D r)) : MemGrown D m (m.assign i e') := by
  have he' : (m.arrs m.cur)[i]? = some e := by
    unfold Reg.receivers at he
    rw [List.getElem?_take] at he
    split at he
    · exact he
    · cases he
  refine ⟨⟨hm.1, by simpa [Reg.assign] using hm.2⟩, Nat.le_refl _, fun a ha => ?_⟩
  by_cases c : a = m.cur
  · subst c
    simp only [Reg.assign, Function.update_self]
    exact Grown.set _ i e e' he' h1 h2
  · simp only [Reg.assign, Function.update_of_ne c]
    exact Grown.refl D _

section
variable [LinearOrder I]

theorem register_grown (D : R → Bool) (m m' : Reg I R) (hm : m.Ok) (id : I) (r : R) (h : m.register id r = some m') : MemGrown D m m' := by
  unfold Reg.register at h
  split at h
  · cases h
  · cases h; exact alloc_grown D m _
  · rename_i index hs
    split at h
    · cases h
    · rename_i e he
      cases h
      obtain ⟨e', he', hk⟩ := search_match _ _ _ hs
      rw [he] at he'
      cases he'
      exact assign_grown D m hm index e _ he hk.symm (by simp)
  · cases h; exact alloc_grown D m _

theorem remove_grown (D : R → Bool) (ptr : R → Nat) (m m' : Reg I R) (hm : m.Ok) (id : I) (r : R) (hr : ∀ x, ptr x = ptr r → D x = true) (all : Bool)
    (h : m.remove ptr id r all = some m') : MemGrown D m m' := by
  unfold Reg.remove at h
  split at h
  · cases h
  · rename_i index hs
    split at h
    · cases h
    · rename_i e he
      cases h
      obtain ⟨e', he', hk⟩ := search_match _ _ _ hs
      rw [he] at he'
      cases he'
      refine assign_grown D m hm index e _ he hk.symm ?_
      have key : (sliceRemoveUncomparable ptr e.2 r [all]).filter (fun r => !D r) = e.2.filter (fun r => !D r) := by
        cases all with
        | true =>
          have : sliceRemoveUncomparable ptr e.2 r [true] = e.2.filter (fun t => !(ptr t == ptr r)) := by
            simp [sliceRemoveUncomparable, sliceIndex, removeAll_eq]
          rw [this, List.filter_filter]
          apply List.filter_congr
          intro x _
          by_cases hx : ptr x = ptr r
          · simp [hr x hx]
          · simp [hx]
        | false =>
          have : sliceRemoveUncomparable ptr e.2 r [false] = e.2.eraseP (fun t => ptr t == ptr r) := by
            simp [sliceRemoveUncomparable, sliceIndex, removeFirst_eq]
          rw [this]
          clear he
          generalize e.2 = l
          induction l with
          | nil => rfl
          | cons x l ih =>
            by_cases hx : ptr x = ptr r
            · simp [List.eraseP_cons, hx, hr x hx]
            · simp [List.eraseP_cons, hx, List.filter_cons, ih]
      simp only [key]
      exact List.prefix_refl _
  · cases h; exact MemGrown.refl hm

end

section
variable [LinearOrder I] (ptr : R → Nat)

theorem exec_grown (D : R → Bool) (sendF : Reg I R → T → Option (Reg I R × T))
    (hF : ∀ m v m' w, m.Ok → sendF m v = some (m', w) → MemGrown D m m') (p : Prog I R T) (hp : NoRemoveId ptr D p) :
    ∀ m m' w, m.Ok → exec ptr sendF p m = some (m', w) → MemGrown D m m' := by
  induction hp with
  | ret val => intro m m' w hm h; simp only [exec, Option.some.injEq, Prod.mk.injEq] at h; obtain ⟨rfl, rfl⟩ := h; exact MemGrown.refl hm
  | register id r k _ ih =>
    intro m m' w hm h
    simp only [exec, Option.bind_eq_some_iff] at h
    obtain ⟨m1, h1, h2⟩ := h
    have g := register_grown D m m1 hm id r h1
    exact g.trans (ih m1 m' w g.1 h2)
  | remove id r all k hr _ ih =>
    intro m m' w hm h
    simp only [exec, Option.bind_eq_some_iff] at h
    obtain ⟨m1, h1, h2⟩ := h
    have g := remove_grown D ptr m m1 hm id r hr all h1
    exact g.trans (ih m1 m' w g.1 h2)
  | send val k _ ih =>
    intro m m' w hm h
    simp only [exec, Option.bind_eq_some_iff] at h
    obtain ⟨⟨m1, v⟩, h1, h2⟩ := h
    have g := hF m val m1 v hm h1
    exact g.trans (ih v m1 m' w g.1 h2)

theorem sendInner_called (call : R → T → Reg I R → Option (Reg I R × T)) (rs : List R) :
    ∀ val m m' w called, sendInner call rs val m = some (m', w, called) → called = rs := by
  induction rs with
  | nil => intro val m m' w called h; simp only [sendInner, Option.some.injEq, Prod.mk.injEq] at h; exact h.2.2.symm
  | cons r rs ih =>
    intro val m m' w called h
    simp only [sendInner, Option.bind_eq_some_iff, Option.map_eq_some_iff] at h
    obtain ⟨⟨m1, v⟩, h1, ⟨m2, w2, log2⟩, h2, h3⟩ := h
    simp only [Prod.mk.injEq] at h3
    obtain ⟨-, -, rfl⟩ := h3
    rw [ih _ _ _ _ _ h2]

theorem sendInner_grown (D : R → Bool) (call : R → T → Reg I R → Option (Reg I R × T))
    (hc : ∀ r v m m' w, m.Ok → call r v m = some (m', w) → MemGrown D m m') (rs : List R) :
    ∀ val m m' w called, m.Ok → sendInner call rs val m = some (m', w, called) → MemGrown D m m' := by
  induction rs with
  | nil => intro val m m' w called hm h; simp only [sendInner, Option.some.injEq, Prod.mk.injEq] at h; obtain ⟨rfl, rfl, rfl⟩ := h; exact MemGrown.refl hm
  | cons r rs ih =>
    intro val m m' w called hm h
    simp only [sendInner, Option.bind_eq_some_iff, Option.map_eq_some_iff] at h
    obtain ⟨⟨m1, v⟩, h1, ⟨m2, w2, log2⟩, h2, h3⟩ := h
    simp only [Prod.mk.injEq] at h3
    obtain ⟨rfl, rfl, rfl⟩ := h3
    have g := hc r val m m1 v hm h1
    exact g.trans (ih v m1 m2 w2 log2 g.1 h2)

theorem forall2_getElem? {α β : Type} {P : α → β → Prop} {a : List α} {b : List β} (h : List.Forall₂ P a b) (i : Nat) (x : α) (hx : a[i]? = some x) :
    ∃ y, b[i]? = some y ∧ P x y := by
  induction h generalizing i with
  | nil => simp at hx
  | cons hd _ ih =>
    cases i with
    | zero => simp only [List.getElem?_cons_zero, Option.some.injEq] at hx; subst hx; exact ⟨_, rfl, hd⟩
    | succ i => exact ih i (by simpa using hx)

theorem sendOuter_grown (D : R → Bool) (call : R → T → Reg I R → Option (Reg I R × T))
    (hc : ∀ r v m m' w, m.Ok → call r v m = some (m', w) → MemGrown D m m') (arr : Nat) :
    ∀ n i val m m' w log, m.Ok → arr < m.next → sendOuter call arr n i val m = some (m', w, log) →
      MemGrown D m m' ∧ ∀ n0 l0, l0 = ((m.arrs arr).drop i).take n → n0 = n → l0.length = n → Grown D l0 log := by
  intro n
  induction n with
  | zero =>
    intro i val m m' w log hm _ h
    simp only [sendOuter, Option.some.injEq, Prod.mk.injEq] at h
    obtain ⟨rfl, rfl, rfl⟩ := h
    refine ⟨MemGrown.refl hm, fun _ l0 h0 _ _ => ?_⟩
    subst h0
    simp only [List.take_zero]
    exact .nil
  | succ n ih =>
    intro i val m m' w log hm harr h
    simp only [sendOuter] at h
    split at h
    · cases h
    · rename_i e he
      split at h
      · cases h
      · rename_i m1 v called hi
        have hcl := sendInner_called call e.2 val m m1 v called hi
        subst hcl
        simp only [Option.map_eq_some_iff] at h
        obtain ⟨⟨m2, w2, log2⟩, h1, h2⟩ := h
        simp only [Prod.mk.injEq] at h2
        obtain ⟨rfl, rfl, rfl⟩ := h2
        have g := sendInner_grown D call hc e.2 val m m1 v e.2 hm hi
        obtain ⟨g2, hl⟩ := ih (i + 1) v m1 m2 w2 log2 g.1 (Nat.lt_of_lt_of_le harr g.2.1) h1
        refine ⟨g.trans g2, fun _ l0 h0 _ hlen => ?_⟩
        have hg : Grown D (m.arrs arr) (m1.arrs arr) := g.2.2 arr harr
        have hil : i < (m.arrs arr).length := (List.getElem?_eq_some_iff.1 he).1
        have hd : (m.arrs arr).drop i = e :: (m.arrs arr).drop (i + 1) := by
          rw [List.drop_eq_getElem_cons hil]
          rw [List.getElem?_eq_getElem hil] at he
          cases he; rfl
        rw [hd, List.take_succ_cons] at h0
        subst h0
        refine .cons ⟨rfl, List.prefix_refl _⟩ ?_
        have hdrop : Grown D (((m.arrs arr).drop (i + 1)).take n) (((m1.arrs arr).drop (i + 1)).take n) :=
          List.forall₂_take n (List.forall₂_drop (i + 1) hg)
        refine hdrop.trans (hl n _ rfl rfl ?_)
        rw [← hdrop.length_eq]
        simpa using hlen

theorem sendReg_grown (D : R → Bool) (proc : R → T → Prog I R T) (hp : ∀ r v, NoRemoveId ptr D (proc r v)) :
    ∀ d m val m' w log, m.Ok → sendReg ptr proc d m val = some (m', w, log) → MemGrown D m m' ∧ Grown D m.receivers log := by
  intro d
  induction d with
  | zero => intro m val m' w log _ h; cases h
  | succ d ih =>
    intro m val m' w log hm h
    simp only [sendReg] at h
    obtain ⟨g1, g2⟩ := sendOuter_grown D _ (fun r v m m' w hm h => exec_grown ptr D _ (by
      intro m v m' w hm h
      simp only [Option.map_eq_some_iff] at h
      obtain ⟨⟨m1, x, l⟩, h1, h2⟩ := h
      simp only [Prod.mk.injEq] at h2
      obtain ⟨rfl, rfl⟩ := h2
      exact (ih m v m1 x l hm h1).1) _ (hp r v) m m' w hm h) m.cur m.len 0 val m m' w log hm hm.1 h
    refine ⟨g1, g2 m.len m.receivers (by simp [Reg.receivers]) rfl ?_⟩
    have := hm.2
    simp [Reg.receivers]; omega

theorem exec_quiet (sendF : Reg I R → T → Option (Reg I R × T)) (hF : ∀ m v m' w, sendF m v = some (m', w) → m' = m) (p : Prog I R T) (hp : Quiet p) :
    ∀ m m' w, exec ptr sendF p m = some (m', w) → m' = m := by
  induction hp with
  | ret val => intro m m' w h; simp only [exec, Option.some.injEq, Prod.mk.injEq] at h; exact h.1.symm
  | send val k _ ih =>
    intro m m' w h
    simp only [exec, Option.bind_eq_some_iff] at h
    obtain ⟨⟨m1, v⟩, h1, h2⟩ := h
    have := hF m val m1 v h1
    subst this
    exact ih v m1 m' w h2

theorem sendInner_quiet (call : R → T → Reg I R → Option (Reg I R × T)) (hc : ∀ r v m m' w, call r v m = some (m', w) → m' = m) (rs : List R) :
    ∀ val m m' w called, sendInner call rs val m = some (m', w, called) → m' = m := by
  induction rs with
  | nil => intro val m m' w called h; simp only [sendInner, Option.some.injEq, Prod.mk.injEq] at h; exact h.1.symm
  | cons r rs ih =>
    intro val m m' w called h
    simp only [sendInner, Option.bind_eq_some_iff, Option.map_eq_some_iff] at h
    obtain ⟨⟨m1, v⟩, h1, ⟨m2, w2, log2⟩, h2, h3⟩ := h
    simp only [Prod.mk.injEq] at h3
    obtain ⟨rfl, rfl, rfl⟩ := h3
    have := hc r val m m1 v h1
    subst this
    exact ih v m1 m2 w2 log2 h2

theorem sendOuter_quiet (call : R → T → Reg I R → Option (Reg I R × T)) (hc : ∀ r v m m' w, call r v m = some (m', w) → m' = m) (arr : Nat) :
    ∀ n i val m m' w log, sendOuter call arr n i val m = some (m', w, log) → m' = m ∧ log = ((m.arrs arr).drop i).take n := by
  intro n
  induction n with
  | zero =>
    intro i val m m' w log h
    simp only [sendOuter, Option.some.injEq, Prod.mk.injEq] at h
    obtain ⟨rfl, rfl, rfl⟩ := h
    simp
  | succ n ih =>
    intro i val m m' w log h
    simp only [sendOuter] at h
    split at h
    · cases h
    · rename_i e he
      split at h
      · cases h
      · rename_i m1 v called hi
        have hcl := sendInner_called call e.2 val m m1 v called hi
        subst hcl
        simp only [Option.map_eq_some_iff] at h
        obtain ⟨⟨m2, w2, log2⟩, h1, h2⟩ := h
        simp only [Prod.mk.injEq] at h2
        obtain ⟨rfl, rfl, rfl⟩ := h2
        have := sendInner_quiet call hc e.2 val m m1 v e.2 hi
        subst this
        obtain ⟨g1, g2⟩ := ih (i + 1) v m1 m2 w2 log2 h1
        refine ⟨g1, ?_⟩
        have hil : i < (m1.arrs arr).length := (List.getElem?_eq_some_iff.1 he).1
        rw [List.drop_eq_getElem_cons hil, List.take_succ_cons, g2]
        rw [List.getElem?_eq_getElem hil] at he
        cases he; rfl

theorem sendReg_quiet (proc : R → T → Prog I R T) (hp : ∀ r v, Quiet (proc r v)) :
    ∀ d m val m' w log, sendReg ptr proc d m val = some (m', w, log) → m' = m ∧ log = m.receivers := by
  intro d
  induction d with
  | zero => intro m val m' w log h; cases h
  | succ d ih =>
    intro m val m' w log h
    simp only [sendReg] at h
    have := sendOuter_quiet _ (fun r v m m' w h => exec_quiet ptr _ (by
      intro m v m' w h
      simp only [Option.map_eq_some_iff] at h
      obtain ⟨⟨m1, x, l⟩, h1, h2⟩ := h
      simp only [Prod.mk.injEq] at h2
      obtain ⟨rfl, rfl⟩ := h2
      exact (ih m v m1 x l h1).1) _ (hp r v) m m' w h) m.cur m.len 0 val m m' w log h
    simpa [Reg.receivers] using this

/-- All arrays keep their length. -/
def SameShape (m m' : Reg I R) : Prop := m'.Ok ∧ m.next ≤ m'.next ∧ ∀ a < m.next, (m'.arrs a).length = (m.arrs a).length

theorem SameShape.refl {m : Reg I R} (h : m.Ok) : SameShape m m := ⟨h, Nat.le_refl _, fun _ _ => rfl⟩

theorem SameShape.trans {a b c : Reg I R} (h1 : SameShape a b) (h2 : SameShape b c) : SameShape a c :=
  ⟨h2.1, Nat.le_trans h1.2.1 h2.2.1, fun x hx => (h2.2.2 x (Nat.lt_of_lt_of_le hx h1.2.1)).trans (h1.2.2 x hx)⟩

theorem MemGrown.shape {D : R → Bool} {m m' : Reg I R} (h : MemGrown D m m') : SameShape m m' :=
  ⟨h.1, h.2.1, fun a ha => (h.2.2 a ha).length_eq.symm⟩

theorem register_total (m : Reg I R) (hm : m.Ok) (id : I) (r : R) : ∃ m', m.register id r = some m' ∧ SameShape m m' := by
  have : ∃ m', m.register id r = some m' := by
    unfold Reg.register
    rcases search_total m.receivers id with h | ⟨i, b, h, hi⟩
    · rw [h]; exact ⟨_, rfl⟩
    · rw [h]
      cases b with
      | true => simp [List.getElem?_eq_getElem hi]
      | false => exact ⟨_, rfl⟩
  obtain ⟨m', h⟩ := this
  exact ⟨m', h, (register_grown (fun _ => false) m m' hm id r h).shape⟩

theorem remove_total (m : Reg I R) (hm : m.Ok) (id : I) (r : R) (all : Bool) : ∃ m', m.remove ptr id r all = some m' ∧ SameShape m m' := by
  have : ∃ m', m.remove ptr id r all = some m' := by
    unfold Reg.remove
    rcases search_total m.receivers id with h | ⟨i, b, h, hi⟩
    · rw [h]; exact ⟨_, rfl⟩
    · rw [h]
      cases b with
      | true => simp [List.getElem?_eq_getElem hi]
      | false => exact ⟨_, rfl⟩
  obtain ⟨m', h⟩ := this
  exact ⟨m', h, (remove_grown (fun _ => true) ptr m m' hm id r (fun _ _ => rfl) all h).shape⟩

theorem removeId_total (m : Reg I R) (hm : m.Ok) (id : I) : ∃ m', m.removeId id = some m' ∧ SameShape m m' := by
  unfold Reg.removeId
  rcases search_total m.receivers id with h | ⟨i, b, h, hi⟩
  · rw [h]; exact ⟨_, rfl, SameShape.refl hm⟩
  · rw [h]
    cases b with
    | false => exact ⟨_, rfl, SameShape.refl hm⟩
    | true =>
      have hl : m.receivers.length = m.len := by have := hm.2; simp [Reg.receivers]; omega
      have hb : i + (m.receivers.drop (i + 1)).length ≤ (m.arrs m.cur).length := by have := hm.2; simp [hl]; omega
      refine ⟨_, rfl, ⟨hm.1, ?_⟩, Nat.le_refl _, fun a ha => ?_⟩
      · simp only [Function.update_self, writeAt_length _ _ _ hb]
        have := hm.2; omega
      · by_cases c : a = m.cur
        · subst c; simp only [Function.update_self, writeAt_length _ _ _ hb]
        · simp only [Function.update_of_ne c]

theorem exec_total (sendF : Reg I R → T → Option (Reg I R × T)) (p : Prog I R T) (hp : NoSend p) :
    ∀ m, m.Ok → ∃ m' w, exec ptr sendF p m = some (m', w) ∧ SameShape m m' := by
  induction hp with
  | ret val => intro m hm; exact ⟨m, val, rfl, SameShape.refl hm⟩
  | register id r k _ ih =>
    intro m hm
    obtain ⟨m1, h1, s1⟩ := register_total m hm id r
    obtain ⟨m2, w, h2, s2⟩ := ih m1 s1.1
    exact ⟨m2, w, by simp [exec, h1, h2], s1.trans s2⟩
  | removeId id k _ ih =>
    intro m hm
    obtain ⟨m1, h1, s1⟩ := removeId_total m hm id
    obtain ⟨m2, w, h2, s2⟩ := ih m1 s1.1
    exact ⟨m2, w, by simp [exec, h1, h2], s1.trans s2⟩
  | remove id r all k _ ih =>
    intro m hm
    obtain ⟨m1, h1, s1⟩ := remove_total ptr m hm id r all
    obtain ⟨m2, w, h2, s2⟩ := ih m1 s1.1
    exact ⟨m2, w, by simp [exec, h1, h2], s1.trans s2⟩

theorem sendInner_total (call : R → T → Reg I R → Option (Reg I R × T)) (hc : ∀ r v m, m.Ok → ∃ m' w, call r v m = some (m', w) ∧ SameShape m m') (rs : List R) :
    ∀ val m, m.Ok → ∃ m' w, sendInner call rs val m = some (m', w, rs) ∧ SameShape m m' := by
  induction rs with
  | nil => intro val m hm; exact ⟨m, val, rfl, SameShape.refl hm⟩
  | cons r rs ih =>
    intro val m hm
    obtain ⟨m1, v, h1, s1⟩ := hc r val m hm
    obtain ⟨m2, w, h2, s2⟩ := ih v m1 s1.1
    exact ⟨m2, w, by simp [sendInner, h1, h2], s1.trans s2⟩

theorem sendOuter_total (call : R → T → Reg I R → Option (Reg I R × T)) (hc : ∀ r v m, m.Ok → ∃ m' w, call r v m = some (m', w) ∧ SameShape m m') (arr : Nat) :
    ∀ n i val m, m.Ok → arr < m.next → i + n ≤ (m.arrs arr).length → ∃ m' w log, sendOuter call arr n i val m = some (m', w, log) ∧ SameShape m m' := by
  intro n
  induction n with
  | zero => intro i val m hm _ _; exact ⟨m, val, [], rfl, SameShape.refl hm⟩
  | succ n ih =>
    intro i val m hm ha hb
    obtain ⟨m1, v, h1, s1⟩ := sendInner_total call hc ((m.arrs arr)[i]'(by omega)).2 val m hm
    obtain ⟨m2, w, log, h2, s2⟩ := ih (i + 1) v m1 s1.1 (Nat.lt_of_lt_of_le ha s1.2.1) (by rw [s1.2.2 arr ha]; omega)
    exact ⟨m2, w, (((m.arrs arr)[i]'(by omega)).1, ((m.arrs arr)[i]'(by omega)).2) :: log, by simp [sendOuter, List.getElem?_eq_getElem (show i < (m.arrs arr).length by omega), h1, h2], s1.trans s2⟩

end
end Micro.Event
