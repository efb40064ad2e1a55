import Verif.Iter.MemModel
import Verif.Funcs.SliceLemmas
set_option linter.unusedSimpArgs false
/-
C129: iterators and writers of slices that share memory.
-/
namespace Micro.Iter
open Micro Micro.Funcs

variable {α : Type}

theorem nexts_from (slc : Slc) : ∀ (ms : List (SMem α)) (i k : Nat),
    (SliceIt.nexts ms ⟨slc, i⟩)[k]? = (ms[k]?).map (fun m => (m.elems slc)[min (i + k) slc.len]?)
  | [], i, k => by simp [SliceIt.nexts]
  | m :: ms, i, k => by
    have hnx : (SliceIt.mk slc i).next m = ((m.elems slc)[min i slc.len]?, ⟨slc, min (i + 1) (max i slc.len)⟩) := by
      unfold SliceIt.next
      by_cases h : i < slc.len
      · rw [if_pos h, getElem?_elems, Nat.min_eq_left (by omega), if_pos h]
        simp only [Prod.mk.injEq, SliceIt.mk.injEq, true_and]
        omega
      · rw [if_neg h, getElem?_elems, Nat.min_eq_right (by omega), if_neg (by omega)]
        simp only [Prod.mk.injEq, SliceIt.mk.injEq, true_and]
        omega
    simp only [SliceIt.nexts, hnx]
    cases k with
    | zero => simp
    | succ k =>
      rw [List.getElem?_cons_succ, List.getElem?_cons_succ, nexts_from slc ms]
      congr 1
      funext m'
      congr 1
      omega

/-- C129: the k-th Next of OfSlice(slc) returns the value the k-th element of the slice has at the time of that call, whatever happened to memory
in between, and EOI from the end of the slice on. -/
theorem c129_live (slc : Slc) (ms : List (SMem α)) (k : Nat) (hk : k < ms.length) :
    (SliceIt.nexts ms (sliceIt slc))[k]? = some ((ms[k].elems slc)[k]?) := by
  unfold sliceIt
  rw [nexts_from, List.getElem?_eq_getElem hk]
  simp only [Option.map_some, Nat.zero_add, Option.some.injEq]
  rw [getElem?_elems, getElem?_elems]
  by_cases h : k < slc.len
  · rw [Nat.min_eq_left (by omega)]
  · rw [Nat.min_eq_right (by omega), if_neg (by omega), if_neg h]

/-- A case: the second element is changed between the first and the second Next. -/
example : SliceIt.nexts [(⟨fun _ => [1, 2], 1⟩ : SMem Nat), ⟨fun _ => [1, 7], 1⟩, ⟨fun _ => [1, 7], 1⟩] (sliceIt ⟨0, 0, 2, 2⟩)
    = [some 1, some 7, none] := by decide

/-- C129: additions to the slice (through the same variable, or one that continues after the slice) are not seen by the iterator, and leave
what it has still to deliver as it is. -/
theorem c129_add (grow : Nat → Nat) (zv : α) (m : SMem α) (slc t : Slc) (hs : m.Ok slc) (ht : m.Ok t) (vs : List α)
    (h : slc.off + slc.len ≤ t.off + t.len) (it : SliceIt) (hit : it.slc = slc) :
    it.next (m.append grow zv t vs).1 = it.next m := by
  obtain ⟨-, -, -, -, a5⟩ := append_spec grow zv m t ht vs
  have he := (a5 slc hs).2 (Or.inr (Or.inl h))
  subst hit
  unfold SliceIt.next
  by_cases hi : it.idx < it.slc.len
  · rw [if_pos hi, if_pos hi]
    have := congrArg (fun l => l[it.idx]?) he
    simp only [getElem?_elems, if_pos hi] at this
    rw [this]
  · rw [if_neg hi, if_neg hi]

example := c129_add (fun _ => 0) 0 (⟨fun _ => [1, 2, 3, 4], 1⟩ : SMem Nat) ⟨0, 0, 2, 4⟩ ⟨0, 1, 2, 3⟩ ⟨by decide, by decide, by decide⟩ ⟨by decide, by decide, by decide⟩ [9]
  (by decide) (sliceIt ⟨0, 0, 2, 4⟩) rfl

/-- The writes of one step of the loop, in place. -/
theorem writes_inplace (grow : Nat → Nat) (zv : α) (slc : Slc) : ∀ (vs : List α) (m : SMem α) (dst : Slc) (k : Nat), m.Ok slc →
    dst.arr = slc.arr → dst.off = slc.off → dst.cap = slc.cap → dst.len + vs.length ≤ k → k ≤ slc.len →
    (sliceWrites grow zv vs m dst).2 = { dst with len := dst.len + vs.length } ∧
    (sliceWrites grow zv vs m dst).1.Ok slc ∧
    (sliceWrites grow zv vs m dst).1.elems { dst with len := dst.len + vs.length } = m.elems dst ++ vs ∧
    (∀ j, dst.len + vs.length ≤ j → ((sliceWrites grow zv vs m dst).1.elems slc)[j]? = (m.elems slc)[j]?)
  | [], m, dst, k, hm, _, _, _, _, _ => by simp [sliceWrites, hm]
  | v :: vs, m, dst, k, hm, h1, h2, h3, h4, h5 => by
    have hlen := hm.len
    have hcap := hm.cap
    have hd : m.Ok dst := ⟨by rw [h1]; exact hm.arr, by simp at h4; omega, by rw [h1, h2, h3]; exact hm.cap⟩
    simp only [List.length_cons] at h4
    have happ : m.append grow zv dst [v] = (m.write dst.arr (dst.off + dst.len) [v], { dst with len := dst.len + 1 }) := by
      unfold SMem.append
      rw [if_pos (by simp; omega)]
      rfl
    have hin := elems_append_inplace m dst hd [v] (by simp; omega)
    simp only [List.length_singleton] at hin
    have hle : dst.off + dst.len + [v].length ≤ (m.arrs dst.arr).length := by
      rw [h1, h2]; simp only [List.length_singleton]; omega
    have hm1 : (m.write dst.arr (dst.off + dst.len) [v]).Ok slc := ok_write hm _ _ _ hle
    obtain ⟨g1, g2, g3, g4⟩ := writes_inplace grow zv slc vs (m.write dst.arr (dst.off + dst.len) [v]) { dst with len := dst.len + 1 } k hm1
      h1 h2 h3 (by simp only; omega) h5
    have e : sliceWrites grow zv (v :: vs) m dst = sliceWrites grow zv vs (m.write dst.arr (dst.off + dst.len) [v]) { dst with len := dst.len + 1 } := by
      simp only [sliceWrites, sliceWrite, happ]
    rw [e]
    have hsum : dst.len + 1 + vs.length = dst.len + (v :: vs).length := by simp; omega
    simp only [hsum] at g1 g3 g4
    refine ⟨g1, g2, ?_, ?_⟩
    · rw [g3, hin]; simp
    · intro j hj
      rw [g4 j hj]
      simp only [List.length_cons] at hj
      rw [getElem?_elems, getElem?_elems]
      by_cases hjl : j < slc.len
      · rw [if_pos hjl, if_pos hjl]
        simp only [SMem.write, h1, Function.update_self]
        rw [getElem?_writeAt _ _ _ (by rw [← h1]; exact hle), if_neg (by omega), if_neg (by simp; omega)]
      · rw [if_neg hjl, if_neg hjl]

/-- The state of the loop after k values were read. -/
theorem pump_inplace (grow : Nat → Nat) (zv : α) (f : α → List α) (slc : Slc) (orig : List α) (hlen : orig.length = slc.len)
    (hf : ∀ k ≤ slc.len, ((orig.take k).flatMap f).length ≤ k) :
    ∀ (fuel k : Nat) (m : SMem α) (dst : Slc), slc.len < fuel + k → k ≤ slc.len → m.Ok slc →
      dst = ⟨slc.arr, slc.off, ((orig.take k).flatMap f).length, slc.cap⟩ →
      m.elems dst = (orig.take k).flatMap f → (∀ j, k ≤ j → (m.elems slc)[j]? = orig[j]?) →
      (∀ j, dst.len ≤ j → (m.elems slc)[j]? = orig[j]?) →
      (pump grow zv f fuel m ⟨slc, k⟩ dst).2 = ⟨slc.arr, slc.off, (orig.flatMap f).length, slc.cap⟩ ∧
      (pump grow zv f fuel m ⟨slc, k⟩ dst).1.Ok slc ∧
      (pump grow zv f fuel m ⟨slc, k⟩ dst).1.elems (pump grow zv f fuel m ⟨slc, k⟩ dst).2 = orig.flatMap f ∧
      (∀ j, (orig.flatMap f).length ≤ j → ((pump grow zv f fuel m ⟨slc, k⟩ dst).1.elems slc)[j]? = orig[j]?)
  | 0, k, m, dst, h0, h1, _, _, _, _, _ => by omega
  | fuel + 1, k, m, dst, h0, h1, hm, hd, he, hr, hr' => by
    rcases Nat.lt_or_ge k slc.len with hk | hk
    · have hko : k < orig.length := by omega
      have hnx : (SliceIt.mk slc k).next m = (some orig[k], ⟨slc, k + 1⟩) := by
        unfold SliceIt.next
        rw [if_pos hk]
        have := hr k (Nat.le_refl _)
        rw [getElem?_elems, if_pos hk, List.getElem?_eq_getElem hko] at this
        rw [this]
      have hstep : (orig.take (k + 1)).flatMap f = (orig.take k).flatMap f ++ f orig[k] := by
        rw [List.take_add_one, List.getElem?_eq_getElem hko, List.flatMap_append]; simp
      have hle := hf (k + 1) hk
      rw [hstep, List.length_append] at hle
      obtain ⟨g1, g2, g3, g4⟩ := writes_inplace grow zv slc (f orig[k]) m dst (k + 1) hm (by rw [hd]) (by rw [hd]) (by rw [hd])
        (by rw [hd]; exact hle) hk
      have hd' : ({ dst with len := dst.len + (f orig[k]).length } : Slc) = ⟨slc.arr, slc.off, ((orig.take (k + 1)).flatMap f).length, slc.cap⟩ := by
        rw [hd, hstep, List.length_append]
      have hdl : dst.len = ((orig.take k).flatMap f).length := by rw [hd]
      have := pump_inplace grow zv f slc orig hlen hf fuel (k + 1) (sliceWrites grow zv (f orig[k]) m dst).1
        (sliceWrites grow zv (f orig[k]) m dst).2 (by omega) hk g2 (by rw [g1, hd']) (by rw [g1, g3, he, hstep])
        (fun j hj => by rw [g4 j (by omega), hr j (by omega)])
        (fun j hj => by
          rw [g1] at hj
          simp only at hj
          rw [g4 j hj, hr' j (by omega)])
      simp only [pump, hnx]
      exact this
    · have hkl : k = slc.len := by omega
      have htake : orig.take k = orig := List.take_of_length_le (by omega)
      have hnx : (SliceIt.mk slc k).next m = (none, ⟨slc, k⟩) := by
        unfold SliceIt.next; rw [if_neg (by simp only; omega)]
      simp only [pump, hnx]
      rw [htake] at hd he
      refine ⟨hd, hm, he, fun j hj => hr' j (by rw [hd]; exact hj)⟩

/-- C129, in place: values are read from OfSlice(s) and what f makes of each is written with a writer of the variable d = s[:0]. If at no time more
values have been written than read (so always if f gives at most one value, as Map and Filter do), d holds in the end what f makes of all
the elements s had at first, in order; it is still in the array of s, whose elements after these are as they were. -/
theorem c129_inplace (grow : Nat → Nat) (zv : α) (f : α → List α) (m : SMem α) (s : Slc) (hs : m.Ok s)
    (hf : ∀ k ≤ s.len, (((m.elems s).take k).flatMap f).length ≤ k) (fuel : Nat) (hfuel : s.len < fuel) :
    let r := pump grow zv f fuel m (sliceIt s) (s.sub 0 0)
    r.1.elems r.2 = (m.elems s).flatMap f ∧
    r.1.elems s = (m.elems s).flatMap f ++ (m.elems s).drop ((m.elems s).flatMap f).length := by
  intro r
  have hl := elems_length hs
  obtain ⟨g1, g2, g3, g4⟩ := pump_inplace grow zv f s (m.elems s) hl hf fuel 0 m (s.sub 0 0) (by omega) (Nat.zero_le _) hs
    (by simp [Slc.sub]) (by simp [SMem.elems, Slc.sub]) (fun _ _ => rfl) (fun _ _ => rfl)
  refine ⟨g3, ?_⟩
  have hle := hf s.len (Nat.le_refl _)
  rw [List.take_of_length_le (by omega)] at hle
  apply List.ext_getElem?
  intro j
  rw [List.getElem?_append]
  by_cases hj : j < ((m.elems s).flatMap f).length
  · rw [if_pos hj, ← g3, g1]
    show (r.1.elems s)[j]? = (r.1.elems _)[j]?
    rw [getElem?_elems, getElem?_elems, if_pos (by omega), if_pos hj]
  · rw [if_neg hj, List.getElem?_drop]
    have := g4 j (by omega)
    rw [show ((m.elems s).flatMap f).length + (j - ((m.elems s).flatMap f).length) = j by omega]
    exact this

/-- A function that gives at most one value. -/
example : ∀ k ≤ 4, ((([1, 2, 3, 4] : List Nat).take k).flatMap (fun v => if v % 2 = 0 then [v * 10] else [])).length ≤ k := by decide

/-- Maps and filters qualify. -/
theorem flatMap_le (f : α → List α) (h : ∀ v, (f v).length ≤ 1) (l : List α) : (l.flatMap f).length ≤ l.length := by
  induction l with
  | nil => simp
  | cons x l ih => have := h x; simp only [List.flatMap_cons, List.length_append, List.length_cons]; omega

/-- C129, in place, for a filter: what s.stream.Filter(p) written to s[:0] gives. -/
theorem c129_filter (grow : Nat → Nat) (zv : α) (p : α → Bool) (m : SMem α) (s : Slc) (hs : m.Ok s) (fuel : Nat) (hfuel : s.len < fuel) :
    let r := pump grow zv (fun v => if p v then [v] else []) fuel m (sliceIt s) (s.sub 0 0)
    r.1.elems r.2 = (m.elems s).filter p := by
  have := (c129_inplace grow zv (fun v => if p v then [v] else []) m s hs (fun k hk => by
    have := flatMap_le (fun v => if p v then [v] else []) (fun v => by split <;> simp) ((m.elems s).take k)
    simp only [List.length_take] at this
    omega) fuel hfuel).1
  have e : (m.elems s).flatMap (fun v => if p v then [v] else []) = (m.elems s).filter p := by
    induction m.elems s with
    | nil => rfl
    | cons x l ih => rw [List.flatMap_cons, ih]; by_cases hx : p x <;> simp [hx]
  rw [e] at this
  exact this

example := c129_filter (fun _ => 0) 0 (fun n => n % 2 = 0) (⟨fun _ => [1, 2, 3, 4], 1⟩ : SMem Nat) ⟨0, 0, 4, 4⟩ ⟨by decide, by decide, by decide⟩ 5 (by decide)

/-- With more values written than read it is false: duplicating each element of [1, 2, 3] in place overwrites elements before they are
read. -/
theorem c129_ahead_refuted :
    let m : SMem Nat := ⟨fun _ => [1, 2, 3], 1⟩
    let r := pump (fun _ => 0) 0 (fun v => [v, v]) 4 m (sliceIt ⟨0, 0, 3, 3⟩) ((⟨0, 0, 3, 3⟩ : Slc).sub 0 0)
    r.1.elems r.2 ≠ [1, 2, 3].flatMap (fun v => [v, v]) := by
  decide

/-- A case: the even elements of [1, 2, 4, 5, 6], in place. -/
example : (pump (fun _ => 0) 0 (fun v => if v % 2 = 0 then [v] else []) 6 (⟨fun _ => [1, 2, 4, 5, 6], 1⟩ : SMem Nat) (sliceIt ⟨0, 0, 5, 5⟩)
    ((⟨0, 0, 5, 5⟩ : Slc).sub 0 0)).1.arrs 0 = [2, 4, 6, 5, 6] := by decide

end Micro.Iter
