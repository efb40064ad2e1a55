import Verif.Funcs.SliceLemmas
set_option linter.unusedSimpArgs false
/-
Theorems C105: slices share backing arrays; which functions of package funcs hand out independent slices and which change their argument.
-/
namespace Micro.Funcs
open Micro

variable {α : Type}

/-! ### Specification: variables that hold independent lists -/

/-- What a program may do with a slice variable. -/
inductive VOp (α : Type) where
  | set (i : Nat) (v : α)
  | add (v : α)
  | reverse
  | sort

/-- The effect of an operation on a list; `none` is an index panic. -/
def VOp.onList (sort : List α → List α) (l : List α) : VOp α → Option (List α)
  | .set i v => if i < l.length then some (l.set i v) else none
  | .add v => some (l ++ [v])
  | .reverse => some l.reverse
  | .sort => some (sort l)

/-- A history of operations on two variables (true: the first), each of which holds a list of its own. -/
def runLists (sort : List α → List α) : List (Bool × VOp α) → List α → List α → Option (List α × List α)
  | [], a, b => some (a, b)
  | (true, op) :: ops, a, b => (op.onList sort a).bind fun a' => runLists sort ops a' b
  | (false, op) :: ops, a, b => (op.onList sort b).bind fun b' => runLists sort ops a b'

section
variable (grow : Nat → Nat) (zv : α) (sort : List α → List α)

/-- The effect of an operation of the library (or of Go) on a slice variable. -/
def VOp.onSlice (m : SMem α) (s : Slc) : VOp α → Option (SMem α × Slc)
  | .set i v => (m.set s i v).map (·, s)
  | .add v => some (sliceAdd grow zv m s v)
  | .reverse => sliceReverse m s
  | .sort => some (sliceSort sort m s)

/-- The same history on two slice variables. -/
def runSlices : List (Bool × VOp α) → SMem α → Slc → Slc → Option (SMem α × Slc × Slc)
  | [], m, a, b => some (m, a, b)
  | (true, op) :: ops, m, a, b => (op.onSlice grow zv sort m a).bind fun r => runSlices ops r.1 r.2 b
  | (false, op) :: ops, m, a, b => (op.onSlice grow zv sort m b).bind fun r => runSlices ops r.1 a r.2

/-- The slices are independent: every history of operations on them, in any interleaving, does what it does on lists of their own. -/
def Independent (m : SMem α) (a b : Slc) : Prop :=
  ∀ ops, (runSlices grow zv sort ops m a b).map (fun r => (r.1.elems r.2.1, r.1.elems r.2.2)) = runLists sort ops (m.elems a) (m.elems b)

variable {sort}

theorem sliceReverse_spec (m : SMem α) (s : Slc) (hs : m.Ok s) :
    ∃ m', sliceReverse m s = some (m', s) ∧ m'.Ok s ∧ m'.next = m.next ∧ m'.elems s = (m.elems s).reverse ∧
      ∀ t, m.Ok t → m'.Ok t ∧ ((t.arr ≠ s.arr ∨ t.off + t.len ≤ s.off ∨ s.off + s.len ≤ t.off) → m'.elems t = m.elems t) := by
  obtain ⟨m', h1, h2, h3, h4, h5⟩ := reverseLoop_spec m s hs (s.len / 2) 0 m hs (by omega) rfl (by
    intro j hj; rw [if_neg (by omega)]) (fun t ht => ⟨ht, fun _ => rfl⟩)
  refine ⟨m', by simp [sliceReverse, h1], h2, h3, ?_, h5⟩
  have hl := elems_length hs
  have hl' := elems_length h2
  apply List.ext_getElem?
  intro j
  by_cases hj : j < s.len
  · rw [h4 j hj, List.getElem?_reverse (by omega), hl]
    by_cases c : j < 0 + s.len / 2 ∨ s.len ≤ j + (0 + s.len / 2)
    · rw [if_pos c]
    · rw [if_neg c]; congr 1; omega
  · rw [List.getElem?_eq_none (by omega), List.getElem?_eq_none (by simp; omega)]

theorem sliceSort_spec (hsort : ∀ l, (sort l).Perm l) (m : SMem α) (s : Slc) (hs : m.Ok s) :
    (sliceSort sort m s).2 = s ∧ (sliceSort sort m s).1.Ok s ∧ (sliceSort sort m s).1.next = m.next ∧
      (sliceSort sort m s).1.elems s = sort (m.elems s) ∧
      ∀ t, m.Ok t → (sliceSort sort m s).1.Ok t ∧
        ((t.arr ≠ s.arr ∨ t.off + t.len ≤ s.off ∨ s.off + s.len ≤ t.off) → (sliceSort sort m s).1.elems t = m.elems t) := by
  have hl := elems_length hs
  have hp := (hsort (m.elems s)).length_eq
  have h1 := hs.len; have h2 := hs.cap
  have hb : s.off + (sort (m.elems s)).length ≤ (m.arrs s.arr).length := by omega
  refine ⟨rfl, ok_write hs _ _ _ hb, rfl, ?_, fun t ht => ⟨ok_write ht _ _ _ hb, fun hd => elems_write_disjoint m t _ _ _ hb (by rw [hp, hl]; tauto)⟩⟩
  have := elems_write_own m s hs 0 (sort (m.elems s)) (by omega)
  simp only [Nat.add_zero] at this
  simp only [sliceSort]
  rw [this]
  unfold writeAt
  simp [hp]

/-- One operation. -/
theorem onSlice_spec (hsort : ∀ l, (sort l).Perm l) (m : SMem α) (s t : Slc) (hs : m.Ok s) (ht : m.Ok t) (hne : s.arr ≠ t.arr) (op : VOp α) :
    match op.onSlice grow zv sort m s, op.onList sort (m.elems s) with
    | none, none => True
    | some (m', s'), some l => m'.Ok s' ∧ m'.Ok t ∧ s'.arr ≠ t.arr ∧ m'.elems s' = l ∧ m'.elems t = m.elems t
    | _, _ => False := by
  have hl := elems_length hs
  cases op with
  | set i v =>
    simp only [VOp.onSlice, VOp.onList, hl]
    by_cases hi : i < s.len
    · obtain ⟨m1, e1⟩ := set_isSome m s i v hi
      obtain ⟨-, a2, a3, a4⟩ := set_spec m m1 s hs i v e1
      simp only [e1, Option.map_some, if_pos hi]
      exact ⟨(a4 s hs).1, (a4 t ht).1, hne, a2, (a4 t ht).2 (.inl (Ne.symm hne))⟩
    · have : m.set s i v = none := by unfold SMem.set; rw [if_neg hi]
      simp only [this, Option.map_none, if_neg hi]
  | add v =>
    obtain ⟨a1, a2, a3, a4, a5⟩ := append_spec grow zv m s hs [v]
    simp only [VOp.onSlice, VOp.onList]
    refine ⟨a1, (a5 t ht).1, ?_, a2, (a5 t ht).2 (.inl (Ne.symm hne))⟩
    have := ht.arr
    rcases a4 with h | h
    · unfold sliceAdd; rw [h]; exact hne
    · unfold sliceAdd; rw [h]; omega
  | reverse =>
    obtain ⟨m', h1, h2, h3, h4, h5⟩ := sliceReverse_spec m s hs
    simp only [VOp.onSlice, VOp.onList, h1]
    exact ⟨h2, (h5 t ht).1, hne, h4, (h5 t ht).2 (.inl (Ne.symm hne))⟩
  | sort =>
    obtain ⟨h0, h1, h2, h3, h4⟩ := sliceSort_spec hsort m s hs
    simp only [VOp.onSlice, VOp.onList]
    exact ⟨h1, (h4 t ht).1, hne, h3, (h4 t ht).2 (.inl (Ne.symm hne))⟩

theorem independent_of_ne (hsort : ∀ l, (sort l).Perm l) (m : SMem α) (a b : Slc) (ha : m.Ok a) (hb : m.Ok b) (hne : a.arr ≠ b.arr) :
    Independent grow zv sort m a b := by
  intro ops
  induction ops generalizing m a b with
  | nil => rfl
  | cons o ops ih =>
    obtain ⟨w, op⟩ := o
    cases w with
    | true =>
      have key := onSlice_spec grow zv hsort m a b ha hb hne op
      simp only [runSlices, runLists]
      split at key
      · rename_i e1 e2; simp [e1, e2]
      · rename_i m' s' l e1 e2
        obtain ⟨k1, k2, k3, k4, k5⟩ := key
        simp only [e1, e2, Option.bind_some]
        rw [ih m' s' b k1 k2 k3, k4, k5]
      · exact key.elim
    | false =>
      have key := onSlice_spec grow zv hsort m b a hb ha (Ne.symm hne) op
      simp only [runSlices, runLists]
      split at key
      · rename_i e1 e2; simp [e1, e2]
      · rename_i m' s' l e1 e2
        obtain ⟨k1, k2, k3, k4, k5⟩ := key
        simp only [e1, e2, Option.bind_some]
        rw [ih m' a s' k2 k1 (Ne.symm k3), k4, k5]
      · exact key.elim

/-! ### C105 -/

/-- C105. SliceCopy returns the elements of its argument and changes no slice of the program; the copy is independent of every slice there was. -/
theorem c105_copy (hsort : ∀ l, (sort l).Perm l) (m : SMem α) (s : Slc) (hs : m.Ok s) :
    let m' := (sliceCopy zv m s).1
    let r := (sliceCopy zv m s).2
    m'.elems r = m.elems s ∧ ∀ t, m.Ok t → m'.elems t = m.elems t ∧ Independent grow zv sort m' t r := by
  have hl := elems_length hs
  obtain ⟨a1, a2, a3, a4, a5, a6, a7⟩ := make_spec zv m s.len s.len (Nat.le_refl _)
  have hself := a7 s hs
  generalize hq : m.make zv s.len s.len = q at a1 a2 a3 a4 a5 a6 a7 hself
  obtain ⟨m1, r⟩ := q
  simp only at a1 a2 a3 a4 a5 a6 a7 hself
  have hlen : ((m1.elems s).take r.len).length = s.len := by rw [hself.2, a4, ← hl]; simp
  have hcap := a1.cap
  have hlc := a1.len
  have hb : r.off + ((m1.elems s).take r.len).length ≤ (m1.arrs r.arr).length := by rw [hlen]; omega
  have hok := ok_write a1 r.arr r.off _ hb
  have e : sliceCopy zv m s = (m1.copy r s, r) := by simp only [sliceCopy, hq]
  rw [e]
  refine ⟨?_, ?_⟩
  · have := elems_write_own m1 r a1 0 ((m1.elems s).take r.len) (by omega)
    simp only [Nat.add_zero] at this
    unfold SMem.copy
    simp only
    rw [this]
    unfold writeAt
    rw [hlen, a2, hself.2, a4]
    simp [← hl]
  · intro t ht
    obtain ⟨t1, t2⟩ := a7 t ht
    have hne : t.arr ≠ r.arr := by rw [a3]; exact ok_ne_next ht
    exact ⟨(elems_write_other m1 t _ _ _ hne).trans t2, independent_of_ne grow zv hsort _ t r (ok_write t1 _ _ _ hb) hok hne⟩

/-- C105. SliceOf of a list of values returns a slice of these values and changes no slice of the program; the result is independent of every slice
there was, so two calls give independent slices. -/
theorem c105_of (hsort : ∀ l, (sort l).Perm l) (m : SMem α) (vals : List α) :
    let m' := (sliceOf zv m vals).1
    let r := (sliceOf zv m vals).2
    m'.elems r = vals ∧ m'.Ok r ∧ ∀ t, m.Ok t → m'.elems t = m.elems t ∧ Independent grow zv sort m' t r := by
  obtain ⟨a1, a2, a3, a4, a5, a6, a7⟩ := make_spec zv m vals.length vals.length (Nat.le_refl _)
  generalize hq : m.make zv vals.length vals.length = q at a1 a2 a3 a4 a5 a6 a7
  obtain ⟨m1, r⟩ := q
  simp only at a1 a2 a3 a4 a5 a6 a7
  have hcap := a1.cap
  have hlc := a1.len
  have hb : r.off + vals.length ≤ (m1.arrs r.arr).length := by omega
  have hok := ok_write a1 r.arr r.off _ hb
  have e : sliceOf zv m vals = (m1.write r.arr r.off vals, r) := by simp only [sliceOf, hq]
  rw [e]
  refine ⟨?_, hok, ?_⟩
  · have := elems_write_own m1 r a1 0 vals (by omega)
    simp only [Nat.add_zero] at this
    simp only
    rw [this]
    unfold writeAt
    rw [a2]
    simp
  · intro t ht
    obtain ⟨t1, t2⟩ := a7 t ht
    have hne : t.arr ≠ r.arr := by rw [a3]; exact ok_ne_next ht
    exact ⟨(elems_write_other m1 t _ _ _ hne).trans t2, independent_of_ne grow zv hsort _ t r (ok_write t1 _ _ _ hb) hok hne⟩

/-- C105. SliceOf of the elements of a slice is that slice: whatever is assigned to an element of the one is assigned to the other. -/
theorem c105_of_spread (m : SMem α) (s : Slc) (i : Nat) (v : α) (m' : SMem α) (h : (sliceOfSpread m s).1.set (sliceOfSpread m s).2 i v = some m')
    (hs : m.Ok s) : m'.elems s = (m.elems s).set i v ∧ (sliceOfSpread m s).1.elems (sliceOfSpread m s).2 = m.elems s := by
  refine ⟨?_, rfl⟩
  unfold SMem.set at h
  by_cases hi : i < (sliceOfSpread m s).2.len
  · rw [if_pos hi] at h
    cases h
    have hi' : i < s.len := hi
    have := elems_write_own m s hs i [v] (by simp only [List.length_singleton]; omega)
    refine this.trans ?_
    have hl := elems_length hs
    unfold writeAt
    rw [List.set_eq_take_append_cons_drop, if_pos (by omega)]
    simp
  · rw [if_neg hi] at h; cases h

/-- C105. SliceAdd appends one value to the variable. No other slice sees a change, unless the position after the end of the variable's slice is
one of its own elements. -/
theorem c105_add (m : SMem α) (s : Slc) (hs : m.Ok s) (v : α) :
    let m' := (sliceAdd grow zv m s v).1
    let s' := (sliceAdd grow zv m s v).2
    m'.elems s' = m.elems s ++ [v] ∧
    ∀ t, m.Ok t → ¬ (t.arr = s.arr ∧ t.off ≤ s.off + s.len ∧ s.off + s.len < t.off + t.len) → m'.elems t = m.elems t := by
  obtain ⟨a1, a2, a3, a4, a5⟩ := append_spec grow zv m s hs [v]
  refine ⟨a2, fun t ht h => (a5 t ht).2 ?_⟩
  simp only [List.length_singleton]
  by_cases e : t.arr = s.arr
  · right; omega
  · exact .inl e

/-- C105. SliceRemove changes no slice of the program. The result has the elements without the first occurrence (or without all occurrences), and
if something was removed, or all occurrences were asked for, it is independent of every slice there was. -/
theorem c105_remove (hsort : ∀ l, (sort l).Perm l) (eq : α → Bool) (m : SMem α) (s : Slc) (hs : m.Ok s) (all : Bool) :
    let m' := (sliceRemoveMem grow zv eq m s all).1
    let r := (sliceRemoveMem grow zv eq m s all).2
    m'.elems r = (if all then (m.elems s).filter (fun x => !eq x) else (m.elems s).eraseP eq) ∧
    (∀ t, m.Ok t → m'.elems t = m.elems t) ∧
    ((all = true ∨ ∃ x ∈ m.elems s, eq x = true) → ∀ t, m.Ok t → Independent grow zv sort m' t r) := by
  have hl := elems_length hs
  cases all with
  | true =>
    obtain ⟨a1, a2, a3, a4, a5, a6, a7⟩ := make_spec zv m 0 0 (Nat.le_refl _)
    obtain ⟨b1, b2, b3, b4⟩ := removeAllLoop_spec grow zv eq m (m.elems s) (m.make zv 0 0).1 (m.make zv 0 0).2 a1 (by omega) (by omega) a7
    have e : sliceRemoveMem grow zv eq m s true = removeAllLoop grow zv eq (m.make zv 0 0).1 (m.make zv 0 0).2 (m.elems s) := by
      simp [sliceRemoveMem]
    rw [e]
    refine ⟨by rw [b2, a2]; simp, fun t ht => (b4 t ht).2, fun _ t ht => independent_of_ne grow zv hsort _ _ _ (b4 t ht).1 b1 ?_⟩
    have := ht.arr; omega
  | false =>
    cases hf : firstIndex eq 0 (m.elems s) with
    | none =>
      have e : sliceRemoveMem grow zv eq m s false = (m, s) := by simp [sliceRemoveMem, hf]
      rw [e]
      have hn := (firstIndex_none eq 0 _).1 hf
      refine ⟨?_, fun _ _ => rfl, ?_⟩
      · simp only [Bool.false_eq_true, if_false]
        exact (List.eraseP_of_forall_not (by intro a ha; rw [hn a ha]; simp)).symm
      · rintro (h | ⟨x, hx, hx'⟩)
        · cases h
        · rw [hn x hx] at hx'; cases hx'
    | some i =>
      obtain ⟨-, hi, he⟩ := firstIndex_some eq 0 i _ hf
      simp only [Nat.sub_zero] at hi he
      obtain ⟨a1, a2, a3, a4, a5, a6, a7⟩ := make_spec zv m 0 (s.len - 1) (by omega)
      generalize hq : m.make zv 0 (s.len - 1) = q at a1 a2 a3 a4 a5 a6 a7
      obtain ⟨m1, r⟩ := q
      simp only at a1 a2 a3 a4 a5 a6 a7
      have h1 := hs.len; have h2 := hs.cap; have h3 := hs.arr
      have sub1 : m.Ok (s.sub 0 i) := ⟨h3, by simp [Slc.sub]; omega, by simp [Slc.sub]; omega⟩
      have sub2 : m.Ok (s.sub (i + 1) s.len) := ⟨h3, by simp [Slc.sub]; omega, by simp [Slc.sub]; omega⟩
      have el1 : m.elems (s.sub 0 i) = (m.elems s).take i := by
        simp only [SMem.elems, Slc.sub, Nat.add_zero, Nat.sub_zero, List.take_take]
        rw [Nat.min_eq_left (by omega)]
      have el2 : m.elems (s.sub (i + 1) s.len) = (m.elems s).drop (i + 1) := by
        simp only [SMem.elems, Slc.sub]
        rw [List.drop_take, List.drop_drop]
      obtain ⟨b1, b2, b3, b4, b5⟩ := append_spec grow zv m1 r a1 (m1.elems (s.sub 0 i))
      generalize hq2 : m1.append grow zv r (m1.elems (s.sub 0 i)) = q2 at b1 b2 b3 b4 b5
      obtain ⟨m2, r2⟩ := q2
      simp only at b1 b2 b3 b4 b5
      have old2 : ∀ t, m.Ok t → m2.Ok t ∧ m2.elems t = m.elems t := by
        intro t ht
        obtain ⟨c1, c2⟩ := a7 t ht
        obtain ⟨d1, d2⟩ := b5 t c1
        exact ⟨d1, (d2 (.inl (by rw [a3]; exact ok_ne_next ht))).trans c2⟩
      have hr2 : m.next ≤ r2.arr := by rcases b4 with h | h <;> rw [h] <;> omega
      obtain ⟨c1, c2, c3, c4, c5⟩ := append_spec grow zv m2 r2 b1 (m2.elems (s.sub (i + 1) s.len))
      have e : sliceRemoveMem grow zv eq m s false = m2.append grow zv r2 (m2.elems (s.sub (i + 1) s.len)) := by
        simp [sliceRemoveMem, hf, hq, hq2]
      rw [e]
      generalize hq3 : m2.append grow zv r2 (m2.elems (s.sub (i + 1) s.len)) = q3 at c1 c2 c3 c4 c5
      obtain ⟨m3, r3⟩ := q3
      simp only at c1 c2 c3 c4 c5 ⊢
      have old3 : ∀ t, m.Ok t → m3.Ok t ∧ m3.elems t = m.elems t := by
        intro t ht
        obtain ⟨d1, d2⟩ := old2 t ht
        obtain ⟨f1, f2⟩ := c5 t d1
        have := ht.arr
        exact ⟨f1, (f2 (.inl (by omega))).trans d2⟩
      refine ⟨?_, fun t ht => (old3 t ht).2, fun _ t ht => independent_of_ne grow zv hsort _ _ _ (old3 t ht).1 c1 ?_⟩
      · rw [c2, b2, a2, (a7 _ sub1).2, (old2 _ sub2).2, el1, el2]
        simp [he]
      · have := ht.arr
        have : m1.next ≤ m2.next := b3
        rcases c4 with h | h <;> rw [h] <;> omega

/-- C105. SliceReverse never panics, reverses its argument in place and returns it. Slices with no element in common are not changed. -/
theorem c105_reverse (m : SMem α) (s : Slc) (hs : m.Ok s) :
    ∃ m', sliceReverse m s = some (m', s) ∧ m'.elems s = (m.elems s).reverse ∧
      ∀ t, m.Ok t → (t.arr ≠ s.arr ∨ t.off + t.len ≤ s.off ∨ s.off + s.len ≤ t.off) → m'.elems t = m.elems t := by
  obtain ⟨m', h1, -, -, h4, h5⟩ := sliceReverse_spec m s hs
  exact ⟨m', h1, h4, fun t ht => (h5 t ht).2⟩

/-- C105. The sort functions rearrange their argument in place and return it. Slices with no element in common are not changed. -/
theorem c105_sort (hsort : ∀ l, (sort l).Perm l) (m : SMem α) (s : Slc) (hs : m.Ok s) :
    (sliceSort sort m s).2 = s ∧ (sliceSort sort m s).1.elems s = sort (m.elems s) ∧
      ∀ t, m.Ok t → (t.arr ≠ s.arr ∨ t.off + t.len ≤ s.off ∨ s.off + s.len ≤ t.off) → (sliceSort sort m s).1.elems t = m.elems t := by
  obtain ⟨h0, -, -, h3, h4⟩ := sliceSort_spec hsort m s hs
  exact ⟨h0, h3, fun t ht => (h4 t ht).2⟩

end

/-- An array [1, 2, 3] with a slice of it all and one of the last two elements. -/
def exMem : SMem Nat := ⟨fun a => if a = 0 then [1, 2, 3] else [], 1⟩
def exSlc : Slc := ⟨0, 0, 3, 3⟩
def exTail : Slc := ⟨0, 1, 2, 2⟩

/-- Non-vacuity: the slices lie in memory; sorting with the identity is a permutation. -/
example : exMem.Ok exSlc ∧ exMem.Ok exTail ∧ exMem.elems exSlc = [1, 2, 3] ∧ (∀ l : List Nat, (id l).Perm l) :=
  ⟨⟨by decide, by decide, by decide⟩, ⟨by decide, by decide, by decide⟩, by decide, fun _ => List.Perm.refl _⟩

/-- SliceOf(4, 5) beside the array, and SliceOf of the whole slice, whose element 1 is then assigned. -/
example : (sliceOf 0 exMem [4, 5]).1.elems (sliceOf 0 exMem [4, 5]).2 = [4, 5] ∧ (sliceOf 0 exMem [4, 5]).1.elems exSlc = [1, 2, 3] ∧
    ((sliceOfSpread exMem exSlc).1.set (sliceOfSpread exMem exSlc).2 1 9).map (·.elems exSlc) = some [1, 9, 3] := by decide

/-- Two slices of one array are not independent. -/
example : ¬ Independent (fun _ => 0) 0 id exMem exSlc exTail := by
  intro h
  have := h [(true, .set 1 9)]
  revert this; decide

/-- C105 refuted for a value that is not there: SliceRemove then returns the argument itself, not a new slice, and assigning to an element of the
result changes the original. -/
theorem c105_remove_refuted : ∃ (m : SMem Nat) (s : Slc), m.Ok s ∧ ∃ m' r, sliceRemoveMem (fun _ => 0) 0 (· == 7) m s false = (m', r) ∧
    ∃ m'', m'.set r 0 9 = some m'' ∧ m''.elems s ≠ m.elems s :=
  ⟨exMem, exSlc, ⟨by decide, by decide, by decide⟩, exMem, exSlc, by rfl, _, rfl, by decide⟩

end Micro.Funcs
