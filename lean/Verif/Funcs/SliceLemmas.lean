import Verif.Funcs.SliceModel
import Verif.Funcs.Lemmas
import Mathlib.Tactic.Tauto
set_option linter.unusedSimpArgs false
/-
Lemmas about slices in memory.
-/
namespace Micro.Funcs
open Micro

variable {α : Type}

/-- The slice lies in memory. -/
structure SMem.Ok (m : SMem α) (s : Slc) : Prop where
  arr : s.arr < m.next
  len : s.len ≤ s.cap
  cap : s.off + s.cap ≤ (m.arrs s.arr).length

theorem getElem?_elems (m : SMem α) (s : Slc) (j : Nat) : (m.elems s)[j]? = if j < s.len then (m.arrs s.arr)[s.off + j]? else none := by
  unfold SMem.elems
  rw [List.getElem?_take]
  split <;> simp

theorem elems_length {m : SMem α} {s : Slc} (h : m.Ok s) : (m.elems s).length = s.len := by
  have := h.len; have := h.cap
  simp [SMem.elems]; omega

theorem getElem?_writeAt (l : List α) (i : Nat) (vs : List α) (h : i + vs.length ≤ l.length) (j : Nat) :
    (writeAt l i vs)[j]? = if j < i then l[j]? else if j < i + vs.length then vs[j - i]? else l[j]? := by
  unfold writeAt
  rw [List.getElem?_append, List.getElem?_append, List.length_append, List.length_take, Nat.min_eq_left (by omega)]
  by_cases h1 : j < i
  · rw [if_pos (by omega), if_pos h1, if_pos h1, List.getElem?_take, if_pos h1]
  · rw [if_neg h1, if_neg h1]
    by_cases h2 : j < i + vs.length
    · rw [if_pos h2, if_pos h2]
    · rw [if_neg h2, if_neg h2, List.getElem?_drop]; congr 1; omega

theorem writeAt_length (l : List α) (i : Nat) (vs : List α) (h : i + vs.length ≤ l.length) : (writeAt l i vs).length = l.length := by
  simp [writeAt]; omega

theorem ok_write {m : SMem α} {t : Slc} (ht : m.Ok t) (a i : Nat) (vs : List α) (h : i + vs.length ≤ (m.arrs a).length) : (m.write a i vs).Ok t := by
  refine ⟨ht.arr, ht.len, ?_⟩
  unfold SMem.write
  by_cases e : t.arr = a
  · subst e; simp only [Function.update_self, writeAt_length _ _ _ h]; exact ht.cap
  · simp only [Function.update_of_ne e]; exact ht.cap

theorem elems_write_other (m : SMem α) (t : Slc) (a i : Nat) (vs : List α) (h : t.arr ≠ a) : (m.write a i vs).elems t = m.elems t := by
  simp [SMem.elems, SMem.write, Function.update_of_ne h]

theorem elems_write_disjoint (m : SMem α) (t : Slc) (a i : Nat) (vs : List α) (h : i + vs.length ≤ (m.arrs a).length)
    (hd : t.arr ≠ a ∨ t.off + t.len ≤ i ∨ i + vs.length ≤ t.off) : (m.write a i vs).elems t = m.elems t := by
  by_cases e : t.arr = a
  · subst e
    apply List.ext_getElem?
    intro j
    rw [getElem?_elems, getElem?_elems]
    by_cases hj : j < t.len
    · rw [if_pos hj, if_pos hj]
      simp only [SMem.write, Function.update_self]
      rw [getElem?_writeAt _ _ _ h]
      rcases hd with hd | hd | hd
      · exact absurd rfl hd
      · rw [if_pos (by omega)]
      · rw [if_neg (by omega), if_neg (by omega)]
    · rw [if_neg hj, if_neg hj]
  · exact elems_write_other m t a i vs e

theorem elems_write_own (m : SMem α) (s : Slc) (hs : m.Ok s) (k : Nat) (vs : List α) (h : k + vs.length ≤ s.len) :
    (m.write s.arr (s.off + k) vs).elems s = writeAt (m.elems s) k vs := by
  have h1 := hs.len; have h2 := hs.cap
  have h3 := elems_length hs
  apply List.ext_getElem?
  intro j
  rw [getElem?_elems, getElem?_writeAt _ _ _ (by omega)]
  simp only [SMem.write, Function.update_self]
  rw [getElem?_writeAt _ _ _ (by omega), getElem?_elems]
  by_cases hj : j < s.len
  · rw [if_pos hj, if_pos hj]
    by_cases e1 : j < k
    · rw [if_pos (by omega), if_pos e1]
    · rw [if_neg (by omega), if_neg e1]
      by_cases e2 : j < k + vs.length
      · rw [if_pos (by omega), if_pos e2]; congr 1; omega
      · rw [if_neg (by omega), if_neg e2]
  · rw [if_neg hj, if_neg hj, if_neg (by omega), if_neg (by omega)]

theorem elems_append_inplace (m : SMem α) (s : Slc) (hs : m.Ok s) (vs : List α) (h : s.len + vs.length ≤ s.cap) :
    (m.write s.arr (s.off + s.len) vs).elems { s with len := s.len + vs.length } = m.elems s ++ vs := by
  have h1 := hs.len; have h2 := hs.cap
  have h3 := elems_length hs
  apply List.ext_getElem?
  intro j
  rw [getElem?_elems, List.getElem?_append, h3]
  simp only [SMem.write, Function.update_self]
  rw [getElem?_writeAt _ _ _ (by omega), getElem?_elems]
  by_cases e1 : j < s.len
  · rw [if_pos (by omega), if_pos (by omega), if_pos e1, if_pos e1]
  · rw [if_neg (by omega : ¬ s.off + j < s.off + s.len), if_neg e1]
    by_cases e2 : j < s.len + vs.length
    · rw [if_pos e2, if_pos (by omega)]; congr 1; omega
    · rw [if_neg e2]
      exact (List.getElem?_eq_none (by omega)).symm

theorem elems_alloc_other (m : SMem α) (t : Slc) (ht : m.Ok t) (l : List α) : (SMem.mk (Function.update m.arrs m.next l) (m.next + 1)).elems t = m.elems t := by
  have := ht.arr
  simp [SMem.elems, Function.update_of_ne (show t.arr ≠ m.next by omega)]

theorem ok_alloc {m : SMem α} {t : Slc} (ht : m.Ok t) (l : List α) : (SMem.mk (Function.update m.arrs m.next l) (m.next + 1)).Ok t := by
  have := ht.arr
  refine ⟨by simp; omega, ht.len, ?_⟩
  simp only [Function.update_of_ne (show t.arr ≠ m.next by omega)]
  exact ht.cap

/-- What append does. -/
theorem append_spec (grow : Nat → Nat) (zv : α) (m : SMem α) (s : Slc) (hs : m.Ok s) (vs : List α) :
    let m' := (m.append grow zv s vs).1
    let s' := (m.append grow zv s vs).2
    m'.Ok s' ∧ m'.elems s' = m.elems s ++ vs ∧ m.next ≤ m'.next ∧ (s'.arr = s.arr ∨ s'.arr = m.next) ∧
    ∀ t, m.Ok t → m'.Ok t ∧
      ((t.arr ≠ s.arr ∨ t.off + t.len ≤ s.off + s.len ∨ s.off + s.len + vs.length ≤ t.off) → m'.elems t = m.elems t) := by
  have h1 := hs.len; have h2 := hs.cap; have h4 := hs.arr
  have h3 := elems_length hs
  unfold SMem.append
  by_cases hc : s.len + vs.length ≤ s.cap
  · rw [if_pos hc]
    have hb : s.off + s.len + vs.length ≤ (m.arrs s.arr).length := by omega
    have hw := ok_write hs s.arr (s.off + s.len) vs hb
    refine ⟨⟨hw.arr, hc, hw.cap⟩, elems_append_inplace m s hs vs hc, Nat.le_refl _, .inl rfl, ?_⟩
    intro t ht
    exact ⟨ok_write ht _ _ _ hb, fun hd => elems_write_disjoint m t _ _ _ hb (by tauto)⟩
  · rw [if_neg hc]
    refine ⟨⟨by simp, by simp, by simp; omega⟩, ?_, by simp, .inr rfl, ?_⟩
    · generalize m.elems s ++ vs = all
      simp [SMem.elems]
    · intro t ht
      exact ⟨ok_alloc ht _, fun _ => elems_alloc_other m t ht _⟩

/-- What set does. -/
theorem set_spec (m m' : SMem α) (s : Slc) (hs : m.Ok s) (i : Nat) (v : α) (h : m.set s i v = some m') :
    i < s.len ∧ m'.elems s = (m.elems s).set i v ∧ m'.next = m.next ∧
    ∀ t, m.Ok t → m'.Ok t ∧ ((t.arr ≠ s.arr ∨ s.off + i < t.off ∨ t.off + t.len ≤ s.off + i) → m'.elems t = m.elems t) := by
  have h1 := hs.len; have h2 := hs.cap
  have h3 := elems_length hs
  unfold SMem.set at h
  split at h
  · rename_i hi
    cases h
    have hb : s.off + i + [v].length ≤ (m.arrs s.arr).length := by simp; omega
    refine ⟨hi, ?_, rfl, fun t ht => ⟨ok_write ht _ _ _ hb, fun hd => elems_write_disjoint m t _ _ _ hb ?_⟩⟩
    · rw [elems_write_own m s hs i [v] (by simp; omega)]
      apply List.ext_getElem?
      intro j
      rw [getElem?_writeAt _ _ _ (by simp; omega), List.getElem?_set, h3]
      simp only [List.length_singleton]
      by_cases e1 : j < i
      · rw [if_pos e1, if_neg (by omega)]
      · rw [if_neg e1]
        by_cases e2 : i = j
        · subst e2; simp [hi]
        · rw [if_neg (by omega), if_neg e2]
    · simp; omega
  · cases h

theorem set_isSome (m : SMem α) (s : Slc) (i : Nat) (v : α) (h : i < s.len) : ∃ m', m.set s i v = some m' := by
  unfold SMem.set; rw [if_pos h]; exact ⟨_, rfl⟩

/-- What make does. -/
theorem make_spec (zv : α) (m : SMem α) (len cap : Nat) (h : len ≤ cap) :
    let m' := (m.make zv len cap).1
    let s := (m.make zv len cap).2
    m'.Ok s ∧ m'.elems s = List.replicate len zv ∧ s.arr = m.next ∧ s.len = len ∧ s.cap = cap ∧ m'.next = m.next + 1 ∧
    ∀ t, m.Ok t → m'.Ok t ∧ m'.elems t = m.elems t := by
  refine ⟨⟨by simp [SMem.make], h, by simp [SMem.make]⟩, ?_, rfl, rfl, rfl, rfl, fun t ht => ⟨ok_alloc ht _, elems_alloc_other m t ht _⟩⟩
  simp [SMem.make, SMem.elems, h]

theorem ok_ne_next {m : SMem α} {t : Slc} (ht : m.Ok t) : t.arr ≠ m.next := by have := ht.arr; omega

theorem firstIndex_none (eq : α → Bool) (i : Nat) (l : List α) : firstIndex eq i l = none ↔ ∀ x ∈ l, eq x = false := by
  induction l generalizing i with
  | nil => simp [firstIndex]
  | cons t l ih =>
    simp only [firstIndex]
    by_cases h : eq t = true
    · simp [h]
    · simp [h, ih]

theorem firstIndex_some (eq : α → Bool) (i k : Nat) (l : List α) (h : firstIndex eq i l = some k) :
    i ≤ k ∧ k - i < l.length ∧ l.eraseP eq = l.take (k - i) ++ l.drop (k - i + 1) := by
  induction l generalizing i with
  | nil => simp [firstIndex] at h
  | cons t l ih =>
    simp only [firstIndex] at h
    by_cases ht : eq t = true
    · simp only [ht, if_true, Option.some.injEq] at h
      subst h
      simp [ht, List.eraseP_cons]
    · simp only [ht] at h
      obtain ⟨h1, h2, h3⟩ := ih _ h
      have e : k - i = k - (i + 1) + 1 := by omega
      refine ⟨by omega, by simp; omega, ?_⟩
      rw [e]
      simp [List.eraseP_cons, ht, h3]

/-- The loop over all occurrences. -/
theorem removeAllLoop_spec (grow : Nat → Nat) (zv : α) (eq : α → Bool) (old : SMem α) (l : List α) :
    ∀ (m : SMem α) (s : Slc), m.Ok s → old.next ≤ s.arr → old.next ≤ m.next → (∀ t, old.Ok t → m.Ok t ∧ m.elems t = old.elems t) →
    let m' := (removeAllLoop grow zv eq m s l).1
    let s' := (removeAllLoop grow zv eq m s l).2
    m'.Ok s' ∧ m'.elems s' = m.elems s ++ l.filter (fun x => !eq x) ∧ old.next ≤ s'.arr ∧ (∀ t, old.Ok t → m'.Ok t ∧ m'.elems t = old.elems t) := by
  induction l with
  | nil =>
    intro m s h1 h2 _ h3
    simp only [removeAllLoop]
    exact ⟨h1, by simp, h2, h3⟩
  | cons x l ih =>
    intro m s h1 h2 h2' h3
    simp only [removeAllLoop]
    by_cases hx : eq x = true
    · simp only [hx, if_true]
      have := ih m s h1 h2 h2' h3
      simpa [hx] using this
    · simp only [hx]
      obtain ⟨a1, a2, a3, a4, a5⟩ := append_spec grow zv m s h1 [x]
      have key := ih (m.append grow zv s [x]).1 (m.append grow zv s [x]).2 a1 (by rcases a4 with h | h <;> rw [h] <;> omega) (by omega) (by
        intro t ht
        obtain ⟨b1, b2⟩ := h3 t ht
        obtain ⟨c1, c2⟩ := a5 t b1
        refine ⟨c1, (c2 (.inl ?_)).trans b2⟩
        have := ht.arr; omega)
      simp only [a2] at key
      simpa [hx] using key

/-- The reversed part of the list after i rounds. -/
theorem reverseLoop_spec (m0 : SMem α) (s : Slc) (h0 : m0.Ok s) : ∀ (n i : Nat) (m : SMem α), m.Ok s → 2 * (i + n) ≤ s.len → 
    m.next = m0.next →
    (∀ j < s.len, (m.elems s)[j]? = if j < i ∨ s.len ≤ j + i then (m0.elems s)[s.len - 1 - j]? else (m0.elems s)[j]?) →
    (∀ t, m0.Ok t → m.Ok t ∧ ((t.arr ≠ s.arr ∨ t.off + t.len ≤ s.off ∨ s.off + s.len ≤ t.off) → m.elems t = m0.elems t)) →
    ∃ m', reverseLoop m s i n = some m' ∧ m'.Ok s ∧ m'.next = m0.next ∧
      (∀ j < s.len, (m'.elems s)[j]? = if j < i + n ∨ s.len ≤ j + (i + n) then (m0.elems s)[s.len - 1 - j]? else (m0.elems s)[j]?) ∧
      (∀ t, m0.Ok t → m'.Ok t ∧ ((t.arr ≠ s.arr ∨ t.off + t.len ≤ s.off ∨ s.off + s.len ≤ t.off) → m'.elems t = m0.elems t)) := by
  intro n
  induction n with
  | zero => intro i m h1 h2 hn h3 h4; exact ⟨m, rfl, h1, hn, by simpa using h3, h4⟩
  | succ n ih =>
    intro i m h1 h2 hn h3 h4
    have hl := elems_length h1
    have hl0 := elems_length h0
    have ei : i < s.len := by omega
    have ej : s.len - 1 - i < s.len := by omega
    have gi : (m.elems s)[i]? = some ((m.elems s)[i]'(by omega)) := List.getElem?_eq_getElem _
    have gj : (m.elems s)[s.len - 1 - i]? = some ((m.elems s)[s.len - 1 - i]'(by omega)) := List.getElem?_eq_getElem _
    generalize hx : (m.elems s)[i]'(by omega) = x at gi
    generalize hy : (m.elems s)[s.len - 1 - i]'(by omega) = y at gj
    obtain ⟨m1, e1⟩ := set_isSome m s i y ei
    obtain ⟨-, a2, a3, a4⟩ := set_spec m m1 s h1 i y e1
    obtain ⟨m2, e2⟩ := set_isSome m1 s (s.len - 1 - i) x ej
    obtain ⟨-, b2, b3, b4⟩ := set_spec m1 m2 s (a4 s h1).1 _ x e2
    have hrun : reverseLoop m s i (n + 1) = reverseLoop m2 s (i + 1) n := by
      simp only [reverseLoop, gi, gj, e1, e2]
    rw [hrun]
    have xi : (m0.elems s)[i]? = some x := by
      have := h3 i ei
      rw [if_neg (by omega), gi] at this
      exact this.symm
    have yj : (m0.elems s)[s.len - 1 - i]? = some y := by
      have := h3 (s.len - 1 - i) ej
      rw [if_neg (by omega), gj] at this
      exact this.symm
    have := ih (i + 1) m2 (b4 s (a4 s h1).1).1 (by omega) (by omega) (by
      intro j hj
      rw [b2, a2, List.getElem?_set, List.getElem?_set]
      simp only [List.length_set, hl]
      by_cases c1 : s.len - 1 - i = j
      · subst c1
        rw [if_pos rfl, if_pos ej, if_pos (.inr (by omega)), show s.len - 1 - (s.len - 1 - i) = i by omega, xi]
      · rw [if_neg c1]
        by_cases c2 : i = j
        · subst c2
          rw [if_pos rfl, if_pos ei, if_pos (.inl (by omega)), yj]
        · rw [if_neg c2, h3 j hj]
          by_cases c3 : j < i ∨ s.len ≤ j + i
          · rw [if_pos c3, if_pos (by omega)]
          · rw [if_neg c3, if_neg (by omega)]) (by
      intro t ht
      obtain ⟨d1, d2⟩ := h4 t ht
      obtain ⟨d3, d4⟩ := a4 t d1
      obtain ⟨d5, d6⟩ := b4 t d3
      refine ⟨d5, fun hd => ?_⟩
      rw [d6 (by omega), d4 (by omega), d2 hd])
    simpa [show i + 1 + n = i + (n + 1) by omega] using this

end Micro.Funcs
