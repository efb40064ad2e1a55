import Verif.Funcs.Lemmas
import Mathlib.Order.Lattice
import Mathlib.Data.Int.Order.Basic
set_option linter.unusedSimpArgs false
/-
Theorems C44 to C51: package funcs and package event.
-/
namespace Micro.Funcs

variable {α K V : Type}

/-! ### C44: ordered tuple slices -/

/-- C44. OrderedTuple2Search never fails on a strictly sorted slice and tells exactly whether the key is
there. -/
theorem c44_search [LinearOrder K] (mp : List (K × V)) (hs : SortedKeys mp) (key : K) :
    ∃ i b, search mp key = some (i, b) ∧ (b = true ↔ ∃ v, (key, v) ∈ mp) ∧
      (∀ n, i = some n → ∃ hn : n < mp.length, (b = true → mp[n].1 = key)) := by
  rcases search_spec mp hs key with ⟨rfl, hse⟩ | ⟨A, vs, B, rfl, hse⟩ | ⟨A, B, rfl, hA, hse, h1, h2⟩ | ⟨hne, hse, hall⟩
  · exact ⟨none, false, hse, by simp, by simp⟩
  · refine ⟨_, _, hse, ?_, ?_⟩
    · exact ⟨fun _ => ⟨vs, by simp⟩, fun _ => rfl⟩
    · rintro n h; simp at h; subst h
      exact ⟨by simp, fun _ => by simp⟩
  · refine ⟨_, _, hse, ?_, ?_⟩
    · refine ⟨by simp, ?_⟩
      rintro ⟨v, hv⟩
      simp only [List.mem_append] at hv
      rcases hv with h | h
      · exact absurd (h1 _ h) (lt_irrefl _)
      · exact absurd (h2 _ h) (lt_irrefl _)
    · rintro n h; simp at h; subst h
      have : A.length ≠ 0 := by simpa using hA
      exact ⟨by simp; omega, by simp⟩
  · refine ⟨_, _, hse, ?_, ?_⟩
    · refine ⟨by simp, ?_⟩
      rintro ⟨v, hv⟩
      exact absurd (hall _ hv) (lt_irrefl _)
    · rintro n h; simp at h; subst h
      have : mp.length ≠ 0 := by simpa using hne
      exact ⟨by omega, by simp⟩

example := c44_search [((1 : Int), 'a'), (5, 'b'), (9, 'c')] (by unfold SortedKeys; decide) 5

theorem sliceRemove_eq [DecidableEq V] (l : List V) (v : V) (all : Bool) :
    sliceRemove l v [all] = if all then l.filter (fun x => !decide (x = v)) else l.eraseP (fun x => decide (x = v)) := by
  cases all
  · simp [sliceRemove, sliceIndex, removeFirst_eq]
  · simp [sliceRemove, sliceIndex, removeAll_eq]

/-- C44 (restricted). Starting from the nil slice, after any history of Add, RemoveKey and RemoveValue in
which no Add uses a key below all keys present at that time, no call has panicked and the slice is
strictly sorted and represents the multimap of the history. Missing: additions below the smallest key,
for which the claim is false (`c44_history_refuted`). -/
theorem c44_history_partial [LinearOrder K] [DecidableEq V] (ops : List (MOp K V))
    (h : NeverBelow (fun a b => decide (a = b)) (MM.empty : MM K V) ops) :
    ∃ mp, runOps [] ops = some mp ∧ Represents mp (MM.empty.applyAll (fun a b => decide (a = b)) ops) := by
  have main : ∀ (ops : List (MOp K V)) (mp : List (K × List V)) (M : MM K V), Represents mp M →
      NeverBelow (fun a b => decide (a = b)) M ops →
      ∃ mp', runOps mp ops = some mp' ∧ Represents mp' (M.applyAll (fun a b => decide (a = b)) ops) := by
    intro ops
    induction ops with
    | nil => intro mp M hr _; exact ⟨mp, rfl, hr⟩
    | cons op ops ih =>
      intro mp M hr hn
      have step : ∃ mp', runOp mp op = some mp' ∧ Represents mp' (M.apply (fun a b => decide (a = b)) op) := by
        cases op with
        | add k v => exact orderedAdd_represents mp M hr k v _ hn.1
        | removeKey k => exact orderedRemoveKey_represents mp M hr k _
        | removeValue k v all =>
          obtain ⟨mp', h1, h2⟩ := orderedRemoveWith_represents (fun slc => sliceRemove slc v [all]) mp M hr k
          refine ⟨mp', h1, ?_⟩
          simp only [sliceRemove_eq] at h2
          exact h2
      obtain ⟨mp', h1, h2⟩ := step
      obtain ⟨mp'', h3, h4⟩ := ih mp' _ h2 hn.2
      exact ⟨mp'', by simp only [runOps, h1, Option.bind_some, h3], h4⟩
  exact main ops [] MM.empty ⟨List.Pairwise.nil, by simp [MM.empty]⟩ h

/-- C44 fails: adding the keys 5, 3, 5 gives a slice which is not sorted and has the key 5 twice. -/
theorem c44_history_refuted :
    runOps ([] : List (Int × List Nat)) [.add 5 1, .add 3 2, .add 5 3] = some [(5, [1]), (3, [2]), (5, [3])] ∧
    ¬ SortedKeys [((5 : Int), [1]), (3, [2]), (5, [3])] := by
  constructor
  · simp [runOps, runOp, orderedAdd, search_one, search_two, show ∀ k, search ([] : List (Int × List Nat)) k = some (none, false) from fun _ => rfl]
  · intro h
    have := (List.pairwise_cons.mp h).1 (3, [2]) (by simp)
    simp at this

/-- The hypothesis of `c44_history_partial` is met by a history with additions in the middle and at the
end, and removals. -/
example : NeverBelow (fun a b => decide (a = b)) (MM.empty : MM Int Nat)
    [.add 1 10, .add 5 50, .add 3 30, .add 3 31, .removeValue 3 30 false, .removeKey 5, .add 7 70] := by
  refine ⟨Or.inl (fun _ => rfl), Or.inr ⟨1, by decide, ?_⟩, Or.inr ⟨1, by decide, ?_⟩, Or.inr ⟨1, by decide, ?_⟩,
    trivial, trivial, Or.inr ⟨1, by decide, ?_⟩, trivial⟩ <;>
  simp [MM.apply, MM.empty]

/-! ### C45: event registry -/

theorem sliceRemoveUncomparable_eq (ptr : V → Nat) (l : List V) (v : V) (all : Bool) :
    sliceRemoveUncomparable ptr l v [all] =
      if all then l.filter (fun x => !(ptr x == ptr v)) else l.eraseP (fun x => ptr x == ptr v) := by
  cases all
  · simp [sliceRemoveUncomparable, sliceIndex, removeFirst_eq]
  · simp [sliceRemoveUncomparable, sliceIndex, removeAll_eq]

/-- C45 (restricted). After any history of Register, RemoveId and Remove in which no registration uses an
id below all ids present, Send applies the receivers in strictly increasing id order, and within an id
in registration order, each once per registration; the registrations present are those of the
specification, in which Remove takes out receivers with the same pointer text as its argument.
Missing: ids below the smallest (`c45_order_refuted`), and receivers which are different closures of one
function literal, which have the same pointer text (`c45_remove_refuted`). -/
theorem c45_send_partial {I T : Type} [LinearOrder I] (ops : List (MOp I (Recv T)))
    (h : NeverBelow (fun a b => a.ptr == b.ptr) (MM.empty : MM I (Recv T)) ops) :
    ∃ r ids, regOps [] ops = some r ∧ List.Pairwise (· < ·) ids ∧
      (∀ i, i ∈ ids ↔ (MM.empty.applyAll (fun a b => a.ptr == b.ptr) ops) i ≠ none) ∧
      ∀ val, send r val =
        (ids.flatMap (fun i => ((MM.empty.applyAll (fun a b => a.ptr == b.ptr) ops) i).getD [])).foldl
          (fun v rcvr => rcvr.process v) val := by
  have main : ∀ (ops : List (MOp I (Recv T))) (mp : Registry I T) (M : MM I (Recv T)), Represents mp M →
      NeverBelow (fun a b => a.ptr == b.ptr) M ops →
      ∃ mp', regOps mp ops = some mp' ∧ Represents mp' (M.applyAll (fun a b => a.ptr == b.ptr) ops) := by
    intro ops
    induction ops with
    | nil => intro mp M hr _; exact ⟨mp, rfl, hr⟩
    | cons op ops ih =>
      intro mp M hr hn
      have step : ∃ mp', regOp mp op = some mp' ∧ Represents mp' (M.apply (fun a b => a.ptr == b.ptr) op) := by
        cases op with
        | add k v => exact orderedAdd_represents mp M hr k v _ hn.1
        | removeKey k => exact orderedRemoveKey_represents mp M hr k _
        | removeValue k v all =>
          obtain ⟨mp', h1, h2⟩ := orderedRemoveWith_represents
            (fun slc => sliceRemoveUncomparable Recv.ptr slc v [all]) mp M hr k
          refine ⟨mp', h1, ?_⟩
          simp only [sliceRemoveUncomparable_eq] at h2
          exact h2
      obtain ⟨mp', h1, h2⟩ := step
      obtain ⟨mp'', h3, h4⟩ := ih mp' _ h2 hn.2
      exact ⟨mp'', by simp only [regOps, h1, Option.bind_some, h3], h4⟩
  obtain ⟨r, hr, hs, hm⟩ := main ops [] MM.empty ⟨List.Pairwise.nil, by simp [MM.empty]⟩ h
  refine ⟨r, r.map (·.1), hr, ?_, ?_, ?_⟩
  · rw [List.pairwise_map]; exact hs
  · intro i
    constructor
    · intro hi
      obtain ⟨e, he, rfl⟩ := List.mem_map.mp hi
      rw [(hm e.1 e.2).mp he]; simp
    · intro hi
      cases hv : MM.applyAll (fun a b => a.ptr == b.ptr) MM.empty ops i with
      | none => exact absurd hv hi
      | some vs => exact List.mem_map.mpr ⟨(i, vs), (hm i vs).mpr hv, rfl⟩
  · intro val
    rw [send_eq, List.flatMap_map]
    congr 1
    have : ∀ l : Registry I T, (∀ e ∈ l, e ∈ r) → l.flatMap (fun e => e.2) =
        l.flatMap (fun e => (MM.applyAll (fun a b => a.ptr == b.ptr) MM.empty ops e.1).getD []) := by
      intro l
      induction l with
      | nil => intro _; rfl
      | cons e l ih =>
        intro hl
        rw [List.flatMap_cons, List.flatMap_cons, ih (fun x hx => hl x (by simp [hx])), (hm e.1 e.2).mp (hl e (by simp))]
        rfl
    exact this r (fun _ h => h)

/-- C45. Without receivers Send returns its argument. -/
theorem c45_no_receivers {I T : Type} (val : T) : send ([] : Registry I T) val = val := rfl

/-- C45. Two receivers which have different pointers are told apart: if all pointers are different, Remove
takes out exactly (the first or all registrations of) the receiver named. -/
theorem c45_remove_exact {T : Type} (l : List (Recv T)) (v : Recv T) (hv : v ∈ l)
    (hinj : ∀ a ∈ l, ∀ b ∈ l, a.ptr = b.ptr → a = b) :
    (∀ x, x ∈ sliceRemoveUncomparable Recv.ptr l v [true] ↔ x ∈ l ∧ x ≠ v) ∧
    (∃ pre post, l = pre ++ v :: post ∧ v ∉ pre ∧ sliceRemoveUncomparable Recv.ptr l v [false] = pre ++ post) := by
  rw [sliceRemoveUncomparable_eq, sliceRemoveUncomparable_eq]
  constructor
  · intro x
    simp only [if_true, List.mem_filter, Bool.not_eq_true', beq_eq_false_iff_ne, ne_eq]
    constructor
    · rintro ⟨h1, h2⟩; exact ⟨h1, fun h => h2 (by rw [h])⟩
    · rintro ⟨h1, h2⟩; exact ⟨h1, fun h => h2 (hinj x h1 v hv h)⟩
  · obtain ⟨pre, post, h1, h2⟩ := List.append_of_mem hv |> fun _ => List.eq_append_cons_of_mem hv
    refine ⟨pre, post, h1, h2, ?_⟩
    simp only [Bool.false_eq_true, if_false]
    have hne : ∀ a ∈ pre, ¬ (a.ptr == v.ptr) = true := by
      intro a ha hp
      have hp : a.ptr = v.ptr := by simpa using hp
      have := hinj a (by rw [h1]; simp [ha]) v hv hp
      subst this; exact h2 ha
    rw [h1, List.eraseP_append_right _ hne]
    simp

example := c45_remove_exact [(⟨1, (· + 1)⟩ : Recv Nat), ⟨2, (· * 2)⟩] ⟨2, (· * 2)⟩ (by simp) (by
  intro a ha b hb h
  simp only [List.mem_cons, List.not_mem_nil, or_false] at ha hb
  rcases ha with rfl | rfl <;> rcases hb with rfl | rfl <;> first | rfl | (exact absurd h (by decide)))

/-- C45 fails for the order: with receivers registered for 5 and then 3, the one for 5 is called first. -/
theorem c45_order_refuted :
    (regOps ([] : Registry Int (List Nat)) [.add 5 ⟨1, (· ++ [5])⟩, .add 3 ⟨2, (· ++ [3])⟩]).map (fun r => send r [])
      = some [5, 3] := by
  simp [regOps, regOp, register, orderedAdd, search_one, send, sendTo,
    show ∀ k, search ([] : Registry Int (List Nat)) k = some (none, false) from fun _ => rfl]

/-- C45 fails for Remove: of two closures of one function literal the second is named, the first is taken
out (as `+ 10` is left and `+ 1` is gone). -/
theorem c45_remove_refuted :
    (regOps ([] : Registry Int Nat) [.add 1 ⟨7, (· + 1)⟩, .add 1 ⟨7, (· * 10)⟩, .removeValue 1 ⟨7, (· * 10)⟩ false]).map
      (fun r => send r 1) = some 10 := by
  simp [regOps, regOp, register, remove, orderedRemoveUncomparable, orderedRemoveWith, sliceRemoveUncomparable_eq,
    orderedAdd, search_one, send, sendTo, show ∀ k, search ([] : Registry Int Nat) k = some (none, false) from fun _ => rfl]

example : NeverBelow (fun a b => a.ptr == b.ptr) (MM.empty : MM Int (Recv Nat))
    [.add 1 ⟨1, (· + 1)⟩, .add 4 ⟨2, (· * 2)⟩, .add 2 ⟨1, (· + 1)⟩, .removeValue 4 ⟨2, (· * 2)⟩ true] := by
  refine ⟨Or.inl (fun _ => rfl), Or.inr ⟨1, by decide, ?_⟩, Or.inr ⟨1, by decide, ?_⟩, trivial, trivial⟩ <;>
  simp [MM.apply, MM.empty]

/-! ### C46: slices -/

/-- C46. SliceRemove takes out the first occurrence (`List.erase`), or with `all` every occurrence, and
keeps the order of the rest. -/
theorem c46_remove [DecidableEq α] (l : List α) (v : α) :
    sliceRemove l v [] = l.erase v ∧ sliceRemove l v [false] = l.erase v ∧
    sliceRemove l v [true] = l.filter (fun x => decide (x ≠ v)) := by
  have e : l.eraseP (fun x => decide (x = v)) = l.erase v := by
    rw [List.erase_eq_eraseP']
    congr 1
  refine ⟨?_, ?_, ?_⟩
  · rw [← e]; simp [sliceRemove, sliceIndex, removeFirst_eq]
  · rw [sliceRemove_eq, ← e]; simp
  · rw [sliceRemove_eq]; simp

/-- C46. SliceIndex never panics; a non-negative index within the slice gives that element, a negative one
counts from the end; otherwise the default, otherwise the zero value. -/
theorem c46_index (slc : Option (List α)) (index : Int) (d : List α) (zv : α) :
    ∃ r, sliceIndex slc index d zv = some r ∧
      (∀ i : Nat, ∀ h : i < (slc.getD []).length, index = i → r = (slc.getD [])[i]) ∧
      (∀ i : Nat, ∀ h : i < (slc.getD []).length, index = -(i : Int) - 1 → r = (slc.getD [])[(slc.getD []).length - 1 - i]) ∧
      ((index ≥ (slc.getD []).length ∨ index < -((slc.getD []).length : Int)) → r = d.headD zv) := by
  have hrest : (match d with | d :: _ => some d | [] => some zv) = some (d.headD zv) := by cases d <;> rfl
  cases slc with
  | none =>
    refine ⟨d.headD zv, by simp only [sliceIndex]; exact hrest, ?_, ?_, ?_⟩ <;> simp
  | some l =>
    simp only [sliceIndex, Option.getD_some]
    by_cases h1 : 0 ≤ index ∧ (l.length : Int) > index
    · rw [if_pos h1]
      have hlt : index.toNat < l.length := by omega
      refine ⟨l[index.toNat], List.getElem?_eq_getElem hlt, ?_, ?_, ?_⟩
      · intro i h he; subst he; rfl
      · intro i h he; omega
      · intro h; omega
    · rw [if_neg h1]
      by_cases h2 : index < 0 ∧ (l.length : Int) + index ≥ 0
      · rw [if_pos h2]
        have hlt : ((l.length : Int) + index).toNat < l.length := by omega
        refine ⟨l[((l.length : Int) + index).toNat], List.getElem?_eq_getElem hlt, ?_, ?_, ?_⟩
        · intro i h he; omega
        · intro i h he
          have : ((l.length : Int) + index).toNat = l.length - 1 - i := by omega
          simp only [this]
        · intro h; omega
      · rw [if_neg h2]
        refine ⟨d.headD zv, hrest, ?_, ?_, fun _ => rfl⟩
        · intro i h he; omega
        · intro i h he; omega

example : sliceIndex (some [10, 20, 30]) (-1) [7] 0 = some 30 ∧ sliceIndex (some [10, 20, 30]) 3 [7] 0 = some 7 ∧
    sliceIndex (none : Option (List Nat)) 0 [] 0 = some 0 := by decide

/-! ### C47: filters -/

theorem andLoop_spec (t : α) (fs : List (α → Bool)) (r : Bool) (n : Nat) :
    (andLoop t r n fs).1 = (if fs = [] then r else fs.all (fun f => f t)) ∧
    (andLoop t r n fs).2 = n + ((fs.takeWhile (fun f => f t)).length + (if fs.all (fun f => f t) then 0 else 1)) := by
  induction fs generalizing r n with
  | nil => simp [andLoop]
  | cons f fs ih =>
    unfold andLoop
    by_cases h : f t
    · obtain ⟨h1, h2⟩ := ih (f t) (n + 1)
      simp only [h, Bool.not_true, Bool.false_eq_true, if_false] at h1 h2 ⊢
      refine ⟨?_, ?_⟩
      · rw [h1]; cases fs <;> simp [h]
      · rw [h2]; simp [h]; omega
    · simp [h]

theorem orLoop_spec (t : α) (fs : List (α → Bool)) (r : Bool) (n : Nat) :
    (orLoop t r n fs).1 = (if fs = [] then r else fs.any (fun f => f t)) ∧
    (orLoop t r n fs).2 = n + ((fs.takeWhile (fun f => !f t)).length + (if fs.any (fun f => f t) then 1 else 0)) := by
  induction fs generalizing r n with
  | nil => simp [orLoop]
  | cons f fs ih =>
    unfold orLoop
    by_cases h : f t
    · simp [h]
    · obtain ⟨h1, h2⟩ := ih (f t) (n + 1)
      simp only [h, Bool.false_eq_true, if_false] at h1 h2 ⊢
      refine ⟨?_, ?_⟩
      · rw [h1]; cases fs <;> simp [h]
      · rw [h2]; simp [h]; omega

/-- C47. And is the conjunction (true for no filters), and calls the filters in order up to and including
the first that is false. -/
theorem c47_and (fs : List (α → Bool)) (t : α) :
    ((and_ fs t).1 = true ↔ ∀ f ∈ fs, f t = true) ∧
    (∀ pre f post, fs = pre ++ f :: post → (∀ g ∈ pre, g t = true) → f t = false → (and_ fs t).2 = pre.length + 1) ∧
    ((∀ f ∈ fs, f t = true) → (and_ fs t).2 = fs.length) := by
  obtain ⟨h1, h2⟩ := andLoop_spec t fs true 0
  unfold and_
  refine ⟨?_, ?_, ?_⟩
  · rw [h1]; cases fs <;> simp
  · rintro pre f post rfl hpre hf
    rw [h2]
    have e : (pre ++ f :: post).takeWhile (fun f => f t) = pre := by
      rw [List.takeWhile_append_of_pos hpre]; simp [hf]
    have e2 : (pre ++ f :: post).all (fun f => f t) = false := by simp [hf]
    simp [e, e2]
  · intro h
    rw [h2]
    have e : fs.takeWhile (fun f => f t) = fs := by
      have := List.takeWhile_append_of_pos (p := fun f => f t) (l₁ := fs) (l₂ := []) h
      simpa using this
    have e2 : fs.all (fun f => f t) = true := by simpa using h
    simp [e, e2]

/-- C47. Or is the disjunction (true for no filters), and calls the filters in order up to and including
the first that is true. -/
theorem c47_or (fs : List (α → Bool)) (t : α) :
    ((or_ fs t).1 = true ↔ fs = [] ∨ ∃ f ∈ fs, f t = true) ∧
    (∀ pre f post, fs = pre ++ f :: post → (∀ g ∈ pre, g t = false) → f t = true → (or_ fs t).2 = pre.length + 1) ∧
    ((∀ f ∈ fs, f t = false) → (or_ fs t).2 = fs.length) := by
  obtain ⟨h1, h2⟩ := orLoop_spec t fs true 0
  unfold or_
  refine ⟨?_, ?_, ?_⟩
  · rw [h1]; cases fs <;> simp
  · rintro pre f post rfl hpre hf
    rw [h2]
    have e : (pre ++ f :: post).takeWhile (fun f => !f t) = pre := by
      rw [List.takeWhile_append_of_pos (by intro g hg; simp [hpre g hg])]; simp [hf]
    have e2 : (pre ++ f :: post).any (fun f => f t) = true := by simp [hf]
    simp [e, e2]
  · intro h
    rw [h2]
    have e : fs.takeWhile (fun f => !f t) = fs := by
      have := List.takeWhile_append_of_pos (p := fun f => !f t) (l₁ := fs) (l₂ := []) (by intro g hg; simp [h g hg])
      simpa using this
    have e2 : fs.any (fun f => f t) = false := by simpa using h
    simp [e, e2]

/-- C47. De Morgan for a non-empty list of filters. -/
theorem c47_deMorgan (fs : List (α → Bool)) (hne : fs ≠ []) (t : α) :
    (and_ (fs.map not_) t).1 = !(or_ fs t).1 ∧ (or_ (fs.map not_) t).1 = !(and_ fs t).1 := by
  have a := (andLoop_spec t fs true 0).1
  have b := (orLoop_spec t fs true 0).1
  have c := (andLoop_spec t (fs.map not_) true 0).1
  have d := (orLoop_spec t (fs.map not_) true 0).1
  simp only [hne, if_false, List.map_eq_nil_iff] at a b c d
  unfold and_ or_
  rw [a, b, c, d]
  constructor
  · clear a b c d hne
    induction fs with
    | nil => rfl
    | cons f fs ih => simp [not_] at ih ⊢; rw [ih]
  · clear a b c d hne
    induction fs with
    | nil => rfl
    | cons f fs ih => simp [not_] at ih ⊢; rw [ih]

example : and_ [fun n : Nat => n > 1, fun n => n > 5, fun n => n > 2] 3 = (false, 2) := by decide
example : or_ ([] : List (Nat → Bool)) 3 = (true, 0) := by decide

/-! ### C48: TryTo -/

/-- C48. Whatever tryFn and the closers do, the calls made are: tryFn, then every closer exactly once from
the last to the first, then at most one call of panicFn. -/
theorem c48_closers {P : Type} (tryFn : Outcome P) (closers : List (Outcome P)) :
    ∃ handler, tryTo tryFn closers =
        .tried :: ((List.range closers.length).reverse.map .closed ++ handler) ∧
      (handler = [] ∨ ∃ v, handler = [.handled v]) := by
  unfold tryTo
  simp only [pushDefers_eq, runDefers_eq, List.append_nil]
  have e : (((List.range' 0 closers.length).zip closers).reverse.map (fun x => Ev.closed (P := P) x.1))
      = (List.range closers.length).reverse.map .closed := by
    have : ((List.range' 0 closers.length).zip closers).map Prod.fst = List.range' 0 closers.length :=
      List.map_fst_zip (by simp)
    rw [List.range_eq_range', List.map_reverse, List.map_reverse]
    conv => rhs; rw [← this]
    rw [List.map_map]; rfl
  rw [e]
  split
  · rename_i v _
    exact ⟨[.handled v], by simp, Or.inr ⟨v, rfl⟩⟩
  · exact ⟨[], by simp, Or.inl rfl⟩

theorem zip_snd_reverse {P : Type} (closers : List (Outcome P)) :
    ((List.range' 0 closers.length).zip closers).reverse.map (·.2) = closers.reverse := by
  rw [List.map_reverse, List.map_snd_zip (by simp)]

/-- C48. panicFn is called with v exactly if v is the value of the latest panic. -/
theorem c48_handler_exact {P : Type} (tryFn : Outcome P) (closers : List (Outcome P)) :
    (∀ v, .handled v ∈ tryTo tryFn closers ↔
      -- v belongs to the latest panic: that of the first closer (in argument order) which panics, else tryFn's
      (∃ pre post, closers = pre ++ .panics (some v) :: post ∧ ∀ o ∈ pre, o = .returns) ∨
      (tryFn = .panics (some v) ∧ ∀ o ∈ closers, o = .returns)) := by
  intro v
  unfold tryTo
  simp only [pushDefers_eq, runDefers_eq, List.append_nil, zip_snd_reverse]
  have key : ∀ (cs : List (Outcome P)) (p : Option (Option P)),
      (latest p cs.reverse = some (some v) ↔
        (∃ pre post, cs = pre ++ .panics (some v) :: post ∧ ∀ o ∈ pre, o = .returns) ∨
        (p = some (some v) ∧ ∀ o ∈ cs, o = .returns)) := by
    have lat_append : ∀ (a b : List (Outcome P)) (p : Option (Option P)), latest p (a ++ b) = latest (latest p a) b := by
      intro a
      induction a with
      | nil => intro b p; rfl
      | cons o a ih => intro b p; cases o <;> simp [latest, ih]
    intro cs
    induction cs with
    | nil => intro p; simp [latest]
    | cons o cs ih =>
      intro p
      rw [List.reverse_cons, lat_append]
      cases o with
      | returns =>
        rw [show latest (latest p cs.reverse) [Outcome.returns] = latest p cs.reverse from rfl,
          ih p]
        constructor
        · rintro (⟨pre, post, h1, h2⟩ | ⟨h1, h2⟩)
          · left; refine ⟨.returns :: pre, post, by simp [h1], ?_⟩
            intro o ho; simp only [List.mem_cons] at ho
            rcases ho with rfl | ho
            · rfl
            · exact h2 o ho
          · right; refine ⟨h1, ?_⟩
            intro o ho; simp only [List.mem_cons] at ho
            rcases ho with rfl | ho
            · rfl
            · exact h2 o ho
        · rintro (⟨pre, post, h1, h2⟩ | ⟨h1, h2⟩)
          · cases pre with
            | nil => simp at h1
            | cons q pre =>
              simp at h1
              left; exact ⟨pre, post, h1.2, fun o ho => h2 o (by simp [ho])⟩
          · right; exact ⟨h1, fun o ho => h2 o (by simp [ho])⟩
      | panics w =>
        rw [show latest (latest p cs.reverse) [Outcome.panics w] = some w from rfl]
        constructor
        · intro h
          have : w = some v := Option.some.inj h
          subst this
          exact Or.inl ⟨[], cs, rfl, by simp⟩
        · rintro (⟨pre, post, h1, h2⟩ | ⟨h1, h2⟩)
          · cases pre with
            | nil => simp at h1; rw [h1.1]
            | cons q pre =>
              simp at h1
              have := h2 q (by simp)
              rw [← h1.1] at this; simp at this
          · have := h2 (.panics w) (by simp)
            simp at this
  have htry : tryFn.after none = some (some v) ↔ tryFn = .panics (some v) := by
    cases tryFn <;> simp [Outcome.after]
  have := key closers (tryFn.after none)
  rw [htry] at this
  rw [← this]
  split
  · rename_i w hw
    simp [hw, eq_comm]
  · rename_i hw
    constructor
    · intro h; simp at h
    · intro h; exact absurd h (hw v)

/-- The latest panic, if any: that of the first closer (in argument order) which panics, else tryFn's. -/
theorem latest_panic {P : Type} (tryFn : Outcome P) : ∀ closers : List (Outcome P), (∃ o ∈ tryFn :: closers, o ≠ .returns) →
    ∃ v, (∃ pre post, closers = pre ++ .panics v :: post ∧ ∀ o ∈ pre, o = .returns) ∨ (tryFn = .panics v ∧ ∀ o ∈ closers, o = .returns)
  | [], h => by
    obtain ⟨o, ho, hne⟩ := h
    simp only [List.mem_singleton] at ho
    subst ho
    cases o with
    | returns => exact absurd rfl hne
    | panics v => exact ⟨v, Or.inr ⟨rfl, by simp⟩⟩
  | .panics v :: cs, _ => ⟨v, Or.inl ⟨[], cs, rfl, by simp⟩⟩
  | .returns :: cs, h => by
    obtain ⟨o, ho, hne⟩ := h
    have h' : ∃ o ∈ tryFn :: cs, o ≠ .returns := by
      simp only [List.mem_cons] at ho
      rcases ho with e | e | e
      · exact ⟨o, by simp [e], hne⟩
      · exact absurd e hne
      · exact ⟨o, by simp [e], hne⟩
    obtain ⟨v, ⟨pre, post, e, hp⟩ | ⟨e, hp⟩⟩ := latest_panic tryFn cs h'
    · exact ⟨v, Or.inl ⟨.returns :: pre, post, by simp [e], by
        intro o ho; simp only [List.mem_cons] at ho
        rcases ho with e | e
        · exact e
        · exact hp o e⟩⟩
    · exact ⟨v, Or.inr ⟨e, by
        intro o ho; simp only [List.mem_cons] at ho
        rcases ho with e | e
        · exact e
        · exact hp o e⟩⟩

/-- The latest panic is unique. -/
theorem latest_unique {P : Type} (tryFn : Outcome P) : ∀ (closers : List (Outcome P)) (v w : Option P),
    ((∃ pre post, closers = pre ++ .panics v :: post ∧ ∀ o ∈ pre, o = .returns) ∨ (tryFn = .panics v ∧ ∀ o ∈ closers, o = .returns)) →
    ((∃ pre post, closers = pre ++ .panics w :: post ∧ ∀ o ∈ pre, o = .returns) ∨ (tryFn = .panics w ∧ ∀ o ∈ closers, o = .returns)) → v = w
  | [], v, w, h1, h2 => by
    rcases h1 with ⟨pre, post, e, _⟩ | ⟨e, _⟩
    · simp at e
    · rcases h2 with ⟨pre, post, e', _⟩ | ⟨e', _⟩
      · simp at e'
      · rw [e] at e'; cases e'; rfl
  | .panics u :: cs, v, w, h1, h2 => by
    have key : ∀ x, ((∃ pre post, Outcome.panics u :: cs = pre ++ .panics x :: post ∧ ∀ o ∈ pre, o = .returns) ∨
        (tryFn = .panics x ∧ ∀ o ∈ Outcome.panics u :: cs, o = .returns)) → x = u := by
      rintro x (⟨pre, post, e, hp⟩ | ⟨_, hp⟩)
      · cases pre with
        | nil => simp at e; exact e.1.symm
        | cons q pre =>
          simp at e
          have := hp q (by simp)
          rw [← e.1] at this; cases this
      · have := hp (.panics u) (by simp)
        cases this
    rw [key v h1, key w h2]
  | .returns :: cs, v, w, h1, h2 => by
    have key : ∀ x, ((∃ pre post, Outcome.returns :: cs = pre ++ .panics x :: post ∧ ∀ o ∈ pre, o = .returns) ∨
        (tryFn = .panics x ∧ ∀ o ∈ Outcome.returns :: cs, o = .returns)) →
        ((∃ pre post, cs = pre ++ .panics x :: post ∧ ∀ o ∈ pre, o = .returns) ∨ (tryFn = .panics x ∧ ∀ o ∈ cs, o = .returns)) := by
      rintro x (⟨pre, post, e, hp⟩ | ⟨e, hp⟩)
      · cases pre with
        | nil => simp at e
        | cons q pre => simp at e; exact Or.inl ⟨pre, post, e.2, fun o ho => hp o (by simp [ho])⟩
      · exact Or.inr ⟨e, fun o ho => hp o (by simp [ho])⟩
    exact latest_unique tryFn cs v w (key v h1) (key w h2)

/-- C48 (restricted to panics with a non-nil value). panicFn is called exactly if tryFn or some closer panics. Missing: `panic(nil)`
(`c48_handler_refuted`; `c48_missed_iff` says exactly when a panic is missed). -/
theorem c48_handler_partial {P : Type} (tryFn : Outcome P) (closers : List (Outcome P))
    (hnil : ∀ o ∈ tryFn :: closers, o ≠ .panics none) :
    (∃ v, .handled v ∈ tryTo tryFn closers) ↔ ∃ o ∈ tryFn :: closers, o ≠ .returns := by
  constructor
  · rintro ⟨v, hv⟩
    rcases (c48_handler_exact tryFn closers v).1 hv with ⟨pre, post, e, _⟩ | ⟨e, _⟩
    · exact ⟨.panics (some v), by simp [e], by simp⟩
    · exact ⟨tryFn, by simp, by simp [e]⟩
  · intro h
    obtain ⟨v, hv⟩ := latest_panic tryFn closers h
    cases v with
    | some v => exact ⟨v, (c48_handler_exact tryFn closers v).2 hv⟩
    | none =>
      rcases hv with ⟨pre, post, e, _⟩ | ⟨e, _⟩
      · exact absurd rfl (hnil (.panics none) (by simp [e]))
      · exact absurd e (hnil tryFn (by simp))

example := c48_handler_partial (P := Nat) .returns [.returns, .panics (some 3)] (by simp)

/-- C48. A panic happens and panicFn is not called exactly if the latest panic is panic(nil). -/
theorem c48_missed_iff {P : Type} (tryFn : Outcome P) (closers : List (Outcome P)) :
    ((∃ o ∈ tryFn :: closers, o ≠ .returns) ∧ ∀ v, .handled v ∉ tryTo tryFn closers) ↔
      (∃ pre post, closers = pre ++ .panics none :: post ∧ ∀ o ∈ pre, o = .returns) ∨
      (tryFn = .panics none ∧ ∀ o ∈ closers, o = .returns) := by
  constructor
  · rintro ⟨h, hno⟩
    obtain ⟨v, hv⟩ := latest_panic tryFn closers h
    cases v with
    | some v => exact absurd ((c48_handler_exact tryFn closers v).2 hv) (hno v)
    | none => exact hv
  · intro h
    refine ⟨?_, fun v hv => ?_⟩
    · rcases h with ⟨pre, post, e, _⟩ | ⟨e, _⟩
      · exact ⟨.panics none, by simp [e], by simp⟩
      · exact ⟨tryFn, by simp, by simp [e]⟩
    · have := latest_unique tryFn closers _ _ h ((c48_handler_exact tryFn closers v).1 hv)
      simp at this

/-- C48. If nothing panics panicFn is not called. -/
theorem c48_no_panic {P : Type} (tryFn : Outcome P) (closers : List (Outcome P))
    (h : ∀ o ∈ tryFn :: closers, o = .returns) (v : P) : .handled v ∉ tryTo tryFn closers := by
  rw [c48_handler_exact tryFn closers]
  rintro (⟨pre, post, h1, h2⟩ | ⟨h1, h2⟩)
  · have := h (.panics (some v)) (by rw [h1]; simp)
    simp at this
  · have := h tryFn (by simp)
    rw [h1] at this; simp at this

example := c48_no_panic (P := Nat) .returns [.returns, .returns] (by simp) 3

/-- C48 fails for `panic(nil)`: tryFn panics, the panic is recovered, and panicFn is not called. -/
theorem c48_handler_refuted :
    tryTo (.panics none : Outcome Nat) [] = [.tried] ∧
    tryTo (.panics (some 1) : Outcome Nat) [.panics none] = [.tried, .closed 0] := by
  constructor <;> rfl

example : tryTo (.panics (some 1) : Outcome Nat) [.returns, .panics (some 2), .returns]
    = [.tried, .closed 2, .closed 1, .closed 0, .handled 2] := rfl

/-! ### C49: SupplierCached -/

/-- C49 (restricted to a supplier that does not panic when first called). However often the cached
supplier is called, the supplier is invoked once (not at all for no calls) and all calls return the value
of that invocation. Missing: a supplier that panics is invoked again (`c49_once_refuted`). -/
theorem c49_once_partial {σ : Type} (supplier : σ → Option α × σ) (zv : α) (s s' : σ) (v : α)
    (h : supplier s = (some v, s')) (n : Nat) :
    (Cached.calls supplier n ⟨false, zv, s, 0⟩).1 = List.replicate n (some v) ∧
    (Cached.calls supplier n ⟨false, zv, s, 0⟩).2.invoked = min n 1 := by
  have later : ∀ n, (Cached.calls supplier n ⟨true, v, s', 1⟩) = (List.replicate n (some v), ⟨true, v, s', 1⟩) := by
    intro n
    induction n with
    | zero => rfl
    | succ n ih => simp [Cached.calls, Cached.call, ih, List.replicate_succ]
  cases n with
  | zero => simp [Cached.calls]
  | succ n => simp [Cached.calls, Cached.call, h, later, List.replicate_succ]

example := c49_once_partial (fun n : Nat => (some (n + 7), n + 1)) 0 3 4 10 rfl

/-- The supplier panics k times from state s on, and then returns v. -/
inductive PanicsFirst {σ : Type} (supplier : σ → Option α × σ) (v : α) : Nat → σ → Prop
  | now {s s'} : supplier s = (some v, s') → PanicsFirst supplier v 0 s
  | later {s s' k} : supplier s = (none, s') → PanicsFirst supplier v k s' → PanicsFirst supplier v (k + 1) s

/-- C49. What happens for every supplier that returns eventually: the calls panic as the supplier does until it returns a value, and all
later calls return that value; the supplier is invoked once more than it panics. -/
theorem c49_exact {σ : Type} (supplier : σ → Option α × σ) (zv : α) (v : α) (k : Nat) (s : σ) (h : PanicsFirst supplier v k s) (n : Nat) :
    (Cached.calls supplier n ⟨false, zv, s, 0⟩).1 = List.replicate (min n k) none ++ List.replicate (n - k) (some v) ∧
    (Cached.calls supplier n ⟨false, zv, s, 0⟩).2.invoked = min n (k + 1) := by
  have later : ∀ (s' : σ) (i n : Nat), (Cached.calls supplier n ⟨true, v, s', i⟩) = (List.replicate n (some v), ⟨true, v, s', i⟩) := by
    intro s' i n
    induction n with
    | zero => rfl
    | succ n ih => simp [Cached.calls, Cached.call, ih, List.replicate_succ]
  have main : ∀ (i n : Nat), (Cached.calls supplier n ⟨false, zv, s, i⟩).1 = List.replicate (min n k) none ++ List.replicate (n - k) (some v) ∧
      (Cached.calls supplier n ⟨false, zv, s, i⟩).2.invoked = i + min n (k + 1) := by
    induction h with
    | now h =>
      intro i n
      cases n with
      | zero => simp [Cached.calls]
      | succ n => simp [Cached.calls, Cached.call, h, later, List.replicate_succ]
    | @later s s' k h _ ih =>
      intro i n
      cases n with
      | zero => simp [Cached.calls]
      | succ n =>
        obtain ⟨h1, h2⟩ := ih (i + 1) n
        simp only [Cached.calls, Cached.call, h, Bool.not_false, if_true]
        rw [h1, h2]
        refine ⟨?_, by omega⟩
        rw [Nat.succ_min_succ, Nat.add_sub_add_right, List.replicate_succ, List.cons_append]
  have := main 0 n
  rwa [Nat.zero_add] at this

example := c49_exact (fun n : Nat => (if n < 2 then none else some 7, n + 1)) 0 7 2 0 (.later (s' := 1) rfl (.later (s' := 2) rfl (.now (s' := 3) rfl)))

/-- C49. The supplier is invoked more than once, by two calls, exactly if the first invocation panics. -/
theorem c49_once_iff {σ : Type} (supplier : σ → Option α × σ) (zv : α) (s : σ) :
    (∀ n, (Cached.calls supplier n ⟨false, zv, s, 0⟩).2.invoked ≤ 1) ↔ (supplier s).1 ≠ none := by
  constructor
  · intro h he
    have := h 2
    cases hs : supplier s with
    | mk r s' =>
      rw [hs] at he
      simp only at he
      subst he
      cases hs' : supplier s' with
      | mk r' s'' => cases r' <;> simp [Cached.calls, Cached.call, hs, hs'] at this
  · intro h n
    cases hs : supplier s with
    | mk r s' =>
      rw [hs] at h
      cases r with
      | none => exact absurd rfl h
      | some v => rw [(c49_once_partial supplier zv s s' v hs n).2]; omega

/-- Non-vacuity: a supplier that panics twice and then returns 7. -/
example : PanicsFirst (fun n : Nat => (if n < 2 then none else some 7, n + 1)) 7 2 0 :=
  .later (s' := 1) rfl (.later (s' := 2) rfl (.now (s' := 3) rfl))

/-- C49 fails for a supplier that panics the first time: it is invoked twice. -/
theorem c49_once_refuted :
    (Cached.calls (fun n : Nat => (if n = 0 then none else some n, n + 1)) 2 ⟨false, 0, 0, 0⟩).2.invoked = 2 := by
  rfl

/-! ### C50: names -/

/-- C50 fails: the empty string makes SnakeToCamelCase panic, though its documentation says the result is
empty. -/
theorem c50_empty_refuted : snakeToCamel [] = none := rfl

/-- C50. SnakeToCamelCase panics exactly for strings that are empty, begin or end with an underscore, or
contain two underscores in a row. -/
theorem c50_panics_iff (s : List Nat) : snakeToCamel s = none ↔
    s = [] ∨ (∃ t, s = 95 :: t) ∨ (∃ t, s = t ++ [95]) ∨ (∃ t u, s = t ++ 95 :: 95 :: u) := by
  unfold snakeToCamel
  rw [snakeLoop_none, splitUnderscore_empty_word]

/-- C50. CamelCaseToSnakeCase panics exactly for the empty string. -/
theorem c50_camel_panics_iff (s : List Nat) : camelToSnake s = none ↔ s = [] := by
  cases s <;> simp [camelToSnake]

theorem upper_of_upper {b : Nat} (h : 65 ≤ b ∧ b ≤ 90) : upperByte b = [b] := by
  unfold upperByte enc2
  rw [if_neg (by omega), if_neg (by omega), if_neg (by omega), if_neg (by omega), if_pos (by omega)]

/-- C50 (restricted to lower case words joined by single underscores). Converting to CamelCase
capitalises and concatenates the words, converting back gives the original; and conversely. Missing: the
empty string (`c50_empty_refuted`), and all other strings. -/
theorem c50_roundtrip_partial (ws : List (List Nat)) (hne : ws ≠ []) (h : ∀ w ∈ ws, LowerWord w) :
    snakeToCamel (joinWords ws) = some (ws.map capitalize).flatten ∧
    camelToSnake (ws.map capitalize).flatten = some (joinWords ws) := by
  constructor
  · unfold snakeToCamel
    rw [split_join ws hne (fun w hw => lower_no_underscore (h w hw)), snakeLoop_lower _ _ h]
    simp
  · have hc := camelWords_cap ws h
    have hj := camelJoin_cap ws h
    cases hf : (ws.map capitalize).flatten with
    | nil =>
      exfalso
      cases ws with
      | nil => exact hne rfl
      | cons w ws =>
        have := (h w (by simp)).1
        cases w with
        | nil => exact this rfl
        | cons b w => simp [capitalize] at hf
    | cons b bs =>
      have hb : 65 ≤ b ∧ b ≤ 90 := by
        cases ws with
        | nil => exact absurd rfl hne
        | cons w ws =>
          obtain ⟨h1, h2⟩ := h w (by simp)
          cases w with
          | nil => exact absurd rfl h1
          | cons c w =>
            simp [capitalize] at hf
            have := h2 c (by simp)
            simp only [isLower, Bool.and_eq_true, decide_eq_true_eq] at this
            omega
      simp only [camelToSnake, upper_of_upper hb, List.singleton_append]
      rw [← hf, hc, hj]

/-- "foo_bar" and "FooBar". -/
example : snakeToCamel [102, 111, 111, 95, 98, 97, 114] = some [70, 111, 111, 66, 97, 114] := by decide
/-- CamelCaseToSnakeCase drops digits: "Foo1Bar" becomes "foo_bar". -/
example : camelToSnake [70, 111, 111, 49, 66, 97, 114] = some [102, 111, 111, 95, 98, 97, 114] := by
  simp [camelToSnake, upperByte, enc2, camelWords, isUpper, isLower, List.takeWhile, List.dropWhile, camelJoin, lowerByte]

/-! ### C51: SliceFlatten -/

theorem leaves_one (v : List α) : leaves 1 (show Nest 1 α from v) = v := by
  simp only [leaves]
  induction v with
  | nil => rfl
  | cons x xs ih =>
    have : (List.map (leaves 0) (show List (Nest 0 α) from (x :: xs : List α))).flatten
        = x :: (List.map (leaves 0) (show List (Nest 0 α) from xs)).flatten := rfl
    exact this.trans (congrArg (List.cons x) ih)

/-- C51. Exactly when SliceFlatten returns: for nil always; for a slice of one dimension if its type is not a defined type; for more
dimensions if no element is a nil interface. -/
theorem c51_returns_iff (isNil : α → Bool) (named : Bool) (n : Nat) (v : Option (Nest (n + 1) α)) :
    (sliceFlatten isNil named n v).isSome = true ↔
      ∀ w, v = some w → (n = 0 ∧ named = false) ∨ (0 < n ∧ ∀ x ∈ leaves (n + 1) w, isNil x = false) := by
  cases v with
  | none => cases n <;> simp [sliceFlatten]
  | some v =>
    simp only [Option.some.injEq, forall_eq']
    cases n with
    | zero =>
      cases named
      · exact iff_of_true rfl (.inl ⟨rfl, rfl⟩)
      · simp [sliceFlatten]
    | succ n =>
      simp only [sliceFlatten, flattenInto_eq]
      by_cases h : ∀ x ∈ leaves (n + 1 + 1) v, isNil x = false
      · rw [if_pos h]; simp; exact h
      · rw [if_neg h]; simp; simpa using h

/-- C51. Whenever SliceFlatten of a slice of any number of dimensions returns, the result is the concatenation of its leaves in order;
of nil the empty slice. Missing: it does not always return (`c51_returns_iff`, `c51_refuted`). -/
theorem c51_flatten_partial (isNil : α → Bool) (named : Bool) (n : Nat) (v : Option (Nest (n + 1) α)) (r : List α)
    (h : sliceFlatten isNil named n v = some r) : (v = none → r = []) ∧ (∀ w, v = some w → r = leaves (n + 1) w) := by
  cases v with
  | none =>
    refine ⟨fun _ => ?_, by simp⟩
    cases n <;> exact (Option.some.inj h).symm
  | some v =>
    refine ⟨by simp, ?_⟩
    rintro w hw
    obtain rfl := Option.some.inj hw
    cases n with
    | zero =>
      simp only [sliceFlatten] at h
      split at h
      · cases h
      · exact (Option.some.inj h).symm.trans (leaves_one v).symm
    | succ n =>
      simp only [sliceFlatten, flattenInto_eq] at h
      split at h
      · simpa using (Option.some.inj h).symm
      · cases h

/-- C51 is violated: SliceFlatten[any]([][]any{{1}, {nil}}) panics (`none` is the nil interface), and so does
SliceFlatten[int](Ints{1, 2}) with `type Ints []int`. -/
theorem c51_refuted :
    sliceFlatten (α := Option Nat) Option.isNone false 1 (some ([[some 1], [none]] : List (List (Option Nat)))) = none ∧
    sliceFlatten (α := Nat) (fun _ => false) true 0 (some ([1, 2] : List Nat)) = none := ⟨rfl, rfl⟩

example : sliceFlatten (α := Nat) (fun _ => false) false 2 (some ([[[1, 2], []], [], [[3], [4, 5]]] : List (List (List Nat)))) = some [1, 2, 3, 4, 5] := by
  rfl

end Micro.Funcs
