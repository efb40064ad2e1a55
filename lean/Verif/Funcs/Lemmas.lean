import Verif.Funcs.Spec
import Mathlib.Order.Basic
set_option linter.unusedSimpArgs false
namespace Micro.Funcs

variable {α K V : Type}

/-! ### Slices -/

theorem removeFirst_eq (eq : α → Bool) (pre l : List α) : removeFirst eq pre l = pre ++ l.eraseP eq := by
  induction l generalizing pre with
  | nil => simp [removeFirst]
  | cons t rest ih =>
    unfold removeFirst
    by_cases h : eq t
    · simp [h]
    · rw [if_neg h, ih, List.eraseP_cons_of_neg h]; simp

theorem removeAll_eq (eq : α → Bool) (pre l : List α) :
    removeAll eq pre l = pre ++ l.filter (fun t => !eq t) := by
  induction l generalizing pre with
  | nil => simp [removeAll]
  | cons t rest ih =>
    unfold removeAll
    by_cases h : eq t
    · rw [if_pos h, ih]; simp [h]
    · rw [if_neg h, ih]; simp [h]

theorem flattenInto_eq (isNil : α → Bool) : (n : Nat) → (rslc : List α) → (v : Nest n α) →
    flattenInto isNil n rslc v = if ∀ x ∈ leaves n v, isNil x = false then some (rslc ++ leaves n v) else none
  | 0, rslc, v => by
    have key : ∀ a : α, (if isNil a then none else some (rslc ++ [a])) =
        if ∀ x ∈ [a], isNil x = false then some (rslc ++ [a]) else none := by
      intro a; cases h : isNil a <;> simp [h]
    exact key v
  | n + 1, rslc, v => by
    simp only [flattenInto, leaves]
    have : ∀ (l : List (Nest n α)) (acc : List α), l.foldlM (flattenInto isNil n) acc =
        if ∀ x ∈ (l.map (leaves n)).flatten, isNil x = false then some (acc ++ (l.map (leaves n)).flatten) else none := by
      intro l
      induction l with
      | nil => intro acc; simp
      | cons x xs ih =>
        intro acc
        rw [List.foldlM_cons, flattenInto_eq isNil n]
        rw [show (List.map (leaves n) (x :: xs)).flatten = leaves n x ++ (xs.map (leaves n)).flatten from rfl]
        by_cases h : ∀ y ∈ leaves n x, isNil y = false
        · rw [if_pos h]
          show List.foldlM (flattenInto isNil n) (acc ++ leaves n x) xs = _
          rw [ih]
          by_cases h2 : ∀ y ∈ (xs.map (leaves n)).flatten, isNil y = false
          · rw [if_pos h2, if_pos (List.forall_mem_append.mpr ⟨h, h2⟩), List.append_assoc]
          · rw [if_neg h2, if_neg (fun hh => h2 (List.forall_mem_append.mp hh).2)]
        · rw [if_neg h, if_neg (fun hh => h (List.forall_mem_append.mp hh).1)]
          rfl
    exact this v rslc

/-! ### Binary search -/

theorem mid_bounds {l r : Nat} (h : l < r) : l < mid l r ∧ mid l r ≤ r := by
  unfold mid; split <;> omega

theorem searchLoop_self [LinearOrder K] (mp : List (K × V)) (key : K) (l : Nat) :
    searchLoop mp key l l = match mp[l]? with | none => none | some e => some (l, decide (key = e.1)) := by
  rw [searchLoop]; simp only [Nat.lt_irrefl, dite_false, if_true]; cases mp[l]? <;> rfl

theorem search_one [LinearOrder K] (e : K × V) (key : K) : search [e] key = some (some 0, decide (key = e.1)) := by
  simp [search, searchLoop_self]

theorem search_two [LinearOrder K] (e f : K × V) (key : K) : search [e, f] key =
    if f.1 > key then some (some 0, decide (key = e.1)) else some (some 1, decide (key = f.1)) := by
  unfold search
  simp only [List.length_cons, List.length_nil]
  rw [if_neg (by omega), searchLoop]
  simp [mid, searchLoop_self]
  split <;> simp

theorem searchLoop_spec [LinearOrder K] (mp : List (K × V)) (hs : SortedKeys mp) (key : K) (n : Nat) :
    ∀ l r, r - l = n → l ≤ r → r < mp.length →
      (∀ j (hj : j < mp.length), r < j → key < mp[j].1) →
      (l = 0 ∨ ∃ hl : l < mp.length, mp[l].1 ≤ key) →
      ∃ i, ∃ hi : i < mp.length, searchLoop mp key l r = some (i, decide (key = mp[i].1)) ∧
        (∀ j (hj : j < mp.length), i < j → key < mp[j].1) ∧ (i = 0 ∨ mp[i].1 ≤ key) := by
  induction n using Nat.strongRecOn with
  | ind n ih =>
    intro l r hn hlr hr hright hleft
    by_cases h : l < r
    · obtain ⟨m1, m2⟩ := mid_bounds h
      have hm : mid l r < mp.length := by omega
      rw [searchLoop, dif_pos h, List.getElem?_eq_getElem hm]
      simp only
      split
      · rename_i hgt
        refine ih (mid l r - 1 - l) (by omega) l (mid l r - 1) rfl (by omega) (by omega) ?_ hleft
        intro j hj hjm
        by_cases hje : j = mid l r
        · subst hje; exact hgt
        · have := (List.pairwise_iff_getElem.mp hs) (mid l r) j hm hj (by omega)
          exact lt_trans hgt this
      · rename_i hgt
        refine ih (r - mid l r) (by omega) (mid l r) r rfl (by omega) hr hright (Or.inr ⟨hm, not_lt.mp hgt⟩)
    · have hlr' : l = r := by omega
      subst hlr'
      rw [searchLoop, dif_neg h, if_pos rfl, List.getElem?_eq_getElem hr]
      refine ⟨l, hr, rfl, hright, ?_⟩
      rcases hleft with h0 | ⟨_, h1⟩
      · exact Or.inl h0
      · exact Or.inr h1

/-- What the search returns on a strictly sorted slice: an exact match; or the last of the smaller
entries; or, if all entries are larger, index 0. -/
theorem search_spec [LinearOrder K] (mp : List (K × V)) (hs : SortedKeys mp) (key : K) :
    (mp = [] ∧ search mp key = some (none, false)) ∨
    (∃ A v B, mp = A ++ (key, v) :: B ∧ search mp key = some (some A.length, true)) ∨
    (∃ A B, mp = A ++ B ∧ A ≠ [] ∧ search mp key = some (some (A.length - 1), false) ∧
      (∀ a ∈ A, a.1 < key) ∧ (∀ b ∈ B, key < b.1)) ∨
    (mp ≠ [] ∧ search mp key = some (some 0, false) ∧ ∀ a ∈ mp, key < a.1) := by
  by_cases hm : mp = []
  · left; subst hm; exact ⟨rfl, rfl⟩
  · right
    have hlen : mp.length ≠ 0 := by simpa using hm
    obtain ⟨i, hi, h1, h2, h3⟩ := searchLoop_spec mp hs key (mp.length - 1 - 0) 0 (mp.length - 1) rfl (by omega)
      (by omega) (by intro j hj hj'; omega) (Or.inl rfl)
    have hsearch : search mp key = some (some i, decide (key = mp[i].1)) := by
      unfold search; rw [if_neg hlen, h1]; rfl
    by_cases hk : key = mp[i].1
    · left
      refine ⟨mp.take i, mp[i].2, mp.drop (i + 1), ?_, ?_⟩
      · have : (key, mp[i].2) = mp[i] := by rw [hk]
        rw [this, ← List.drop_eq_getElem_cons hi, List.take_append_drop]
      · rw [hsearch, decide_eq_true hk, List.length_take, Nat.min_eq_left (by omega)]
    · right
      rw [decide_eq_false hk] at hsearch
      by_cases hle : mp[i].1 ≤ key
      · left
        have hlt : mp[i].1 < key := lt_of_le_of_ne hle (Ne.symm hk)
        refine ⟨mp.take (i + 1), mp.drop (i + 1), (List.take_append_drop _ _).symm, ?_, ?_, ?_, ?_⟩
        · intro h; rw [List.take_eq_nil_iff] at h; simp [hm] at h
        · rw [hsearch, List.length_take, Nat.min_eq_left (by omega)]; simp
        · intro a ha
          obtain ⟨j, hj, rfl⟩ := List.mem_iff_getElem.mp ha
          rw [List.getElem_take]
          simp only [List.length_take] at hj
          by_cases hji : j = i
          · subst hji; exact hlt
          · exact lt_trans ((List.pairwise_iff_getElem.mp hs) j i (by omega) hi (by omega)) hlt
        · intro b hb
          obtain ⟨j, hj, rfl⟩ := List.mem_iff_getElem.mp hb
          rw [List.getElem_drop]
          exact h2 _ _ (by omega)
      · right
        have h0 : i = 0 := by rcases h3 with h | h
                              · exact h
                              · exact absurd h hle
        subst h0
        refine ⟨hm, hsearch, ?_⟩
        intro a ha
        obtain ⟨j, hj, rfl⟩ := List.mem_iff_getElem.mp ha
        by_cases hj0 : j = 0
        · subst hj0; exact not_le.mp hle
        · exact h2 j hj (by omega)

/-! ### Sorted slices as multimaps -/

theorem sorted_unique [LinearOrder K] {mp : List (K × V)} (hs : SortedKeys mp) {k : K} {v w : V}
    (h1 : (k, v) ∈ mp) (h2 : (k, w) ∈ mp) : v = w := by
  induction mp with
  | nil => simp at h1
  | cons x xs ih =>
    obtain ⟨hx, hxs⟩ := List.pairwise_cons.mp hs
    simp only [List.mem_cons] at h1 h2
    rcases h1 with rfl | h1 <;> rcases h2 with h2 | h2
    · exact (Prod.mk.inj h2).2.symm
    · exact absurd (hx _ h2) (lt_irrefl _)
    · subst h2; exact absurd (hx _ h1) (lt_irrefl _)
    · exact ih hxs h1 h2

theorem sorted_middle [LinearOrder K] {A B : List (K × V)} {k : K} {v : V} (hs : SortedKeys (A ++ (k, v) :: B)) :
    SortedKeys A ∧ SortedKeys B ∧ (∀ a ∈ A, a.1 < k) ∧ (∀ b ∈ B, k < b.1) ∧ (∀ a ∈ A, ∀ b ∈ B, a.1 < b.1) := by
  unfold SortedKeys at *
  rw [List.pairwise_append, List.pairwise_cons] at hs
  obtain ⟨h1, ⟨h2, h3⟩, h4⟩ := hs
  exact ⟨h1, h3, fun a ha => h4 a ha (k, v) (by simp), h2, fun a ha b hb => h4 a ha b (by simp [hb])⟩

theorem sorted_of_middle [LinearOrder K] {A B : List (K × V)} {k : K} {v : V} (h1 : SortedKeys A) (h2 : SortedKeys B)
    (h3 : ∀ a ∈ A, a.1 < k) (h4 : ∀ b ∈ B, k < b.1) (h5 : ∀ a ∈ A, ∀ b ∈ B, a.1 < b.1) :
    SortedKeys (A ++ (k, v) :: B) := by
  unfold SortedKeys at *
  rw [List.pairwise_append, List.pairwise_cons]
  refine ⟨h1, ⟨h4, h2⟩, ?_⟩
  intro a ha b hb
  simp only [List.mem_cons] at hb
  rcases hb with rfl | hb
  · exact h3 a ha
  · exact h5 a ha b hb

theorem set_middle (A B : List α) (x y : α) : (A ++ x :: B).set A.length y = A ++ y :: B := by
  induction A with
  | nil => rfl
  | cons a A ih => simp [ih]

theorem represents_middle [LinearOrder K] {A B : List (K × List V)} {k : K} {vs ws : List V} {M : MM K V}
    (h : Represents (A ++ (k, vs) :: B) M) :
    Represents (A ++ (k, ws) :: B) (fun q => if q = k then some ws else M q) ∧ M k = some vs := by
  obtain ⟨hs, hm⟩ := h
  obtain ⟨a1, a2, a3, a4, a5⟩ := sorted_middle hs
  refine ⟨⟨sorted_of_middle a1 a2 a3 a4 a5, ?_⟩, (hm k vs).mp (by simp)⟩
  intro q us
  by_cases hq : q = k
  · subst hq
    simp only [if_true, List.mem_append, List.mem_cons, Prod.mk.injEq, true_and]
    constructor
    · rintro (h | h | h)
      · exact absurd (a3 _ h) (lt_irrefl _)
      · rw [h]
      · exact absurd (a4 _ h) (lt_irrefl _)
    · intro h; right; left; exact (Option.some.inj h).symm
  · simp only [if_neg hq]
    rw [← hm]
    simp [hq]

theorem orderedAdd_represents [LinearOrder K] (mp : List (K × List V)) (M : MM K V) (h : Represents mp M) (k : K) (v : V)
    (same : V → V → Bool) (hk : NotBelow M (.add k v)) :
    ∃ mp', orderedAdd mp k v = some mp' ∧ Represents mp' (M.apply same (.add k v)) := by
  rcases search_spec mp h.1 k with ⟨rfl, hse⟩ | ⟨A, vs, B, rfl, hse⟩ | ⟨A, B, rfl, hA, hse, h1, h2⟩ | ⟨hne, hse, hall⟩
  · refine ⟨[(k, [v])], by simp only [orderedAdd, hse], ?_, ?_⟩
    · exact List.pairwise_singleton _ _
    · intro q us
      have hM : ∀ q, M q = none := by
        intro q
        cases hq : M q with
        | none => rfl
        | some ws => have := (h.2 q ws).mpr hq; simp at this
      simp only [MM.apply, hM, List.mem_singleton, Prod.mk.injEq, Option.getD_none, List.nil_append]
      by_cases hq : q = k
      · simp [hq, eq_comm]
      · simp [hq]
  · refine ⟨A ++ (k, vs ++ [v]) :: B, ?_, ?_⟩
    · simp only [orderedAdd, hse]
      rw [List.getElem?_append_right (Nat.le_refl _)]
      simp [set_middle]
    · obtain ⟨h1, h2⟩ := represents_middle (ws := vs ++ [v]) h
      simp only [MM.apply, h2, Option.getD_some]
      exact h1
  · obtain ⟨hs, hm⟩ := h
    refine ⟨A ++ (k, [v]) :: B, ?_, ?_, ?_⟩
    · simp only [orderedAdd, hse]
      have : A.length - 1 + 1 = A.length := by
        have : A.length ≠ 0 := by simpa using hA
        omega
      rw [this]; simp
    · unfold SortedKeys at hs
      rw [List.pairwise_append] at hs
      exact sorted_of_middle hs.1 hs.2.1 h1 h2 hs.2.2
    · have hMk : M k = none := by
        cases hq : M k with
        | none => rfl
        | some ws =>
          have := (hm k ws).mpr hq
          simp only [List.mem_append] at this
          rcases this with h | h
          · exact absurd (h1 _ h) (lt_irrefl _)
          · exact absurd (h2 _ h) (lt_irrefl _)
      intro q us
      simp only [MM.apply, hMk, Option.getD_none, List.nil_append]
      by_cases hq : q = k
      · subst hq
        simp only [if_true, List.mem_append, List.mem_cons, Prod.mk.injEq, true_and]
        constructor
        · rintro (h | h | h)
          · exact absurd (h1 _ h) (lt_irrefl _)
          · rw [h]
          · exact absurd (h2 _ h) (lt_irrefl _)
        · intro h; right; left; exact (Option.some.inj h).symm
      · simp only [if_neg hq]
        rw [← hm]
        simp [hq]
  · exfalso
    obtain ⟨hs, hm⟩ := h
    rcases hk with hk | ⟨q, hq, hqn⟩
    · cases mp with
      | nil => exact hne rfl
      | cons x xs => have := (hm x.1 x.2).mp (by simp); rw [hk] at this; simp at this
    · cases hMq : M q with
      | none => exact hqn hMq
      | some ws => exact absurd (lt_of_lt_of_le (hall _ ((hm q ws).mpr hMq)) hq) (lt_irrefl _)

theorem absent_of_not_match [LinearOrder K] {mp : List (K × List V)} {M : MM K V} (h : Represents mp M) {k : K}
    (hk : ∀ a ∈ mp, a.1 ≠ k) : M k = none := by
  cases hq : M k with
  | none => rfl
  | some ws => exact absurd rfl (hk _ ((h.2 k ws).mpr hq))

theorem orderedRemoveKey_represents [LinearOrder K] (mp : List (K × List V)) (M : MM K V) (h : Represents mp M) (k : K)
    (same : V → V → Bool) :
    ∃ mp', orderedRemoveKey mp k = some mp' ∧ Represents mp' (M.apply same (.removeKey k)) := by
  have keep : (∀ a ∈ mp, a.1 ≠ k) → Represents mp (M.apply same (.removeKey k)) := by
    intro hk
    have := absent_of_not_match h hk
    refine ⟨h.1, fun q us => ?_⟩
    rw [h.2]
    simp only [MM.apply]
    by_cases hq : q = k
    · subst hq; simp [this]
    · simp [hq]
  rcases search_spec mp h.1 k with ⟨rfl, hse⟩ | ⟨A, vs, B, rfl, hse⟩ | ⟨A, B, rfl, hA, hse, h1, h2⟩ | ⟨hne, hse, hall⟩
  · exact ⟨[], by simp only [orderedRemoveKey, hse], keep (by simp)⟩
  · refine ⟨A ++ B, ?_, ?_, ?_⟩
    · simp only [orderedRemoveKey, hse]
      simp
    · obtain ⟨a1, a2, a3, a4, a5⟩ := sorted_middle h.1
      unfold SortedKeys at *
      rw [List.pairwise_append]; exact ⟨a1, a2, a5⟩
    · obtain ⟨a1, a2, a3, a4, a5⟩ := sorted_middle h.1
      intro q us
      simp only [MM.apply]
      by_cases hq : q = k
      · subst hq
        simp only [if_true, List.mem_append]
        constructor
        · rintro (h | h)
          · exact absurd (a3 _ h) (lt_irrefl _)
          · exact absurd (a4 _ h) (lt_irrefl _)
        · intro h; simp at h
      · simp only [if_neg hq]
        rw [← h.2]; simp [hq]
  · refine ⟨A ++ B, by simp only [orderedRemoveKey, hse], keep ?_⟩
    intro a ha
    simp only [List.mem_append] at ha
    rcases ha with ha | ha
    · exact ne_of_lt (h1 a ha)
    · exact ne_of_gt (h2 a ha)
  · exact ⟨mp, by simp only [orderedRemoveKey, hse], keep (fun a ha => ne_of_gt (hall a ha))⟩

theorem orderedRemoveWith_represents [LinearOrder K] (f : List V → List V) (mp : List (K × List V)) (M : MM K V)
    (h : Represents mp M) (k : K) :
    ∃ mp', orderedRemoveWith f mp k = some mp' ∧
      Represents mp' (fun q => if q = k then (M k).map f else M q) := by
  have keep : (∀ a ∈ mp, a.1 ≠ k) → Represents mp (fun q => if q = k then (M k).map f else M q) := by
    intro hk
    have := absent_of_not_match h hk
    refine ⟨h.1, fun q us => ?_⟩
    rw [h.2]
    by_cases hq : q = k
    · subst hq; simp [this]
    · simp [hq]
  rcases search_spec mp h.1 k with ⟨rfl, hse⟩ | ⟨A, vs, B, rfl, hse⟩ | ⟨A, B, rfl, hA, hse, h1, h2⟩ | ⟨hne, hse, hall⟩
  · exact ⟨[], by simp only [orderedRemoveWith, hse], keep (by simp)⟩
  · refine ⟨A ++ (k, f vs) :: B, ?_, ?_⟩
    · simp only [orderedRemoveWith, hse]
      rw [List.getElem?_append_right (Nat.le_refl _)]
      simp [set_middle]
    · obtain ⟨h1, h2⟩ := represents_middle (ws := f vs) h
      simp only [h2, Option.map_some]
      exact h1
  · refine ⟨A ++ B, by simp only [orderedRemoveWith, hse], keep ?_⟩
    intro a ha
    simp only [List.mem_append] at ha
    rcases ha with ha | ha
    · exact ne_of_lt (h1 a ha)
    · exact ne_of_gt (h2 a ha)
  · exact ⟨mp, by simp only [orderedRemoveWith, hse], keep (fun a ha => ne_of_gt (hall a ha))⟩

/-! ### Sending -/

theorem sendTo_eq {T : Type} (rs : List (Recv T)) (val : T) : sendTo rs val = rs.foldl (fun v r => r.process v) val := by
  induction rs generalizing val with
  | nil => rfl
  | cons r rs ih => simp [sendTo, ih]

theorem send_eq {I T : Type} (r : Registry I T) (val : T) :
    send r val = (r.flatMap (·.2)).foldl (fun v r => r.process v) val := by
  induction r generalizing val with
  | nil => rfl
  | cons x xs ih => simp [send, ih, sendTo_eq]

/-! ### TryTo -/

theorem pushDefers_eq {P : Type} (stack : List (Nat × Outcome P)) (i : Nat) (cs : List (Outcome P)) :
    pushDefers stack i cs = ((List.range' i cs.length).zip cs).reverse ++ stack := by
  induction cs generalizing stack i with
  | nil => rfl
  | cons c cs ih => rw [pushDefers, ih]; simp [List.range'_succ]

theorem runDefers_eq {P : Type} (log : List (Ev P)) (p : Option (Option P)) (l : List (Nat × Outcome P)) :
    runDefers log p l = (log ++ l.map (fun x => .closed x.1), latest p (l.map (·.2))) := by
  induction l generalizing log p with
  | nil => simp [runDefers, latest]
  | cons x l ih =>
    obtain ⟨i, o⟩ := x
    rw [runDefers, ih]
    cases o <;> simp [latest, Outcome.after]

/-! ### Names -/

theorem split_eq (cur s : List Nat) (hcur : 95 ∉ cur) :
    joinWords (splitUnderscore cur s) = cur ++ s ∧ splitUnderscore cur s ≠ [] ∧
    ∀ w ∈ splitUnderscore cur s, 95 ∉ w := by
  induction s generalizing cur with
  | nil => simp [splitUnderscore, joinWords, hcur]
  | cons b bs ih =>
    unfold splitUnderscore
    split
    · rename_i h
      obtain ⟨i1, i2, i3⟩ := ih [] (by simp)
      refine ⟨?_, by simp, ?_⟩
      · cases hs : splitUnderscore [] bs with
        | nil => exact absurd hs i2
        | cons w ws =>
          rw [hs] at i1
          rw [joinWords, i1, h]; simp
          simp
      · intro w hw
        simp only [List.mem_cons] at hw
        rcases hw with rfl | hw
        · exact hcur
        · exact i3 w hw
    · rename_i h
      obtain ⟨i1, i2, i3⟩ := ih (cur ++ [b]) (by simp [hcur]; exact fun h' => h h'.symm)
      exact ⟨by rw [i1]; simp, i2, i3⟩

theorem split_word (cur w : List Nat) (hw : 95 ∉ w) (rest : List Nat) :
    splitUnderscore cur (w ++ 95 :: rest) = (cur ++ w) :: splitUnderscore [] rest ∧
    splitUnderscore cur w = [cur ++ w] := by
  induction w generalizing cur with
  | nil => simp [splitUnderscore]
  | cons b w ih =>
    have hb : b ≠ 95 := fun h => hw (by simp [h])
    have hw' : 95 ∉ w := fun h => hw (by simp [h])
    obtain ⟨h1, h2⟩ := ih (cur ++ [b]) hw'
    constructor
    · rw [List.cons_append, splitUnderscore, if_neg hb, h1]; simp
    · rw [splitUnderscore, if_neg hb, h2]; simp

theorem split_join (ws : List (List Nat)) (hne : ws ≠ []) (h : ∀ w ∈ ws, 95 ∉ w) :
    splitUnderscore [] (joinWords ws) = ws := by
  induction ws with
  | nil => exact absurd rfl hne
  | cons w ws ih =>
    cases ws with
    | nil => simpa [joinWords] using (split_word [] w (h w (by simp)) []).2
    | cons w' ws =>
      rw [joinWords, (split_word [] w (h w (by simp)) _).1, ih (by simp) (fun x hx => h x (by simp [hx]))]
      simp
      simp

theorem snakeLoop_none (sb : List Nat) (ws : List (List Nat)) : snakeLoop sb ws = none ↔ [] ∈ ws := by
  induction ws generalizing sb with
  | nil => simp [snakeLoop]
  | cons w ws ih =>
    cases w with
    | nil => simp [snakeLoop]
    | cons b w => simp [snakeLoop, ih]

theorem snakeLoop_lower (sb : List Nat) (ws : List (List Nat)) (h : ∀ w ∈ ws, LowerWord w) :
    snakeLoop sb ws = some (sb ++ (ws.map capitalize).flatten) := by
  induction ws generalizing sb with
  | nil => simp [snakeLoop]
  | cons w ws ih =>
    obtain ⟨hne, hl⟩ := h w (by simp)
    cases w with
    | nil => exact absurd rfl hne
    | cons b w =>
      have hb := hl b (by simp)
      simp only [isLower, Bool.and_eq_true, decide_eq_true_eq] at hb
      rw [snakeLoop, ih _ (fun x hx => h x (by simp [hx]))]
      simp [capitalize, upperByte, hb]

theorem lower_no_underscore {w : List Nat} (h : LowerWord w) : 95 ∉ w := by
  intro hm
  have := h.2 95 hm
  simp [isLower] at this

theorem camelWords_cap (ws : List (List Nat)) (h : ∀ w ∈ ws, LowerWord w) :
    camelWords (ws.map capitalize).flatten = ws.map capitalize := by
  induction ws with
  | nil => simp [camelWords]
  | cons w ws ih =>
    have hr := ih (fun x hx => h x (by simp [hx]))
    obtain ⟨hne, hl⟩ := h w (by simp)
    cases w with
    | nil => exact absurd rfl hne
    | cons b w =>
      have hb := hl b (by simp)
      simp only [isLower, Bool.and_eq_true, decide_eq_true_eq] at hb
      have hu : isUpper (b - 32) = true := by
        simp only [isUpper, Bool.and_eq_true, decide_eq_true_eq]; omega
      have hw : ∀ x ∈ w, isLower x = true := fun x hx => hl x (by simp [hx])
      have hrest : ∀ r, (ws.map capitalize).flatten = r → r.takeWhile isLower = [] ∧ r.dropWhile isLower = r := by
        rintro r rfl
        cases ws with
        | nil => simp
        | cons w' ws' =>
          obtain ⟨hne', hl'⟩ := h w' (by simp)
          cases w' with
          | nil => exact absurd rfl hne'
          | cons b' w' =>
            have hb' := hl' b' (by simp)
            simp only [isLower, Bool.and_eq_true, decide_eq_true_eq] at hb'
            have hnl : isLower (b' - 32) = false := by
              simp only [isLower, Bool.and_eq_false_iff, decide_eq_false_iff_not]; omega
            simp [capitalize, List.takeWhile_cons, List.dropWhile_cons, hnl]
      obtain ⟨t1, t2⟩ := hrest _ rfl
      simp only [List.map_cons, List.flatten_cons, capitalize, List.cons_append]
      rw [camelWords, if_pos hu, List.takeWhile_append_of_pos hw, List.dropWhile_append_of_pos hw, t1, t2, hr]
      simp

theorem camelJoin_cap (ws : List (List Nat)) (h : ∀ w ∈ ws, LowerWord w) :
    camelJoin (ws.map capitalize) = joinWords ws := by
  have one : ∀ w, LowerWord w →
      (match capitalize w with | [] => [] | w0 :: w => lowerByte w0 :: w) = w := by
    intro w hw
    cases w with
    | nil => exact absurd rfl hw.1
    | cons b w =>
      have hb := hw.2 b (by simp)
      simp only [isLower, Bool.and_eq_true, decide_eq_true_eq] at hb
      simp only [capitalize, lowerByte]
      rw [if_pos (by omega)]
      congr 1; omega
  induction ws with
  | nil => simp [camelJoin, joinWords]
  | cons w ws ih =>
    cases ws with
    | nil => simp only [List.map_cons, List.map_nil, camelJoin, joinWords]; exact one w (h w (by simp))
    | cons w' ws =>
      have := ih (fun x hx => h x (by simp [hx]))
      simp only [List.map_cons] at this ⊢
      have e : camelJoin (capitalize w :: capitalize w' :: ws.map capitalize) =
        (match capitalize w with | [] => [] | w0 :: w => lowerByte w0 :: w) ++
          95 :: camelJoin (capitalize w' :: ws.map capitalize) := rfl
      rw [e, one w (h w (by simp)), this]
      rfl

theorem splitUnderscore_empty_word (s : List Nat) :
    [] ∈ splitUnderscore [] s ↔
      s = [] ∨ (∃ t, s = 95 :: t) ∨ (∃ t, s = t ++ [95]) ∨ (∃ t u, s = t ++ 95 :: 95 :: u) := by
  obtain ⟨hj, hne, hw⟩ := split_eq [] s (by simp)
  rw [List.nil_append] at hj
  generalize splitUnderscore [] s = ws at hj hne hw
  subst hj
  induction ws with
  | nil => exact absurd rfl hne
  | cons w ws ih =>
    cases ws with
    | nil =>
      simp only [joinWords, List.mem_singleton]
      have h95 := hw w (by simp)
      constructor
      · intro h; exact Or.inl h.symm
      · rintro (h | ⟨t, h⟩ | ⟨t, h⟩ | ⟨t, u, h⟩)
        · exact h.symm
        · rw [h] at h95; simp at h95
        · rw [h] at h95; simp at h95
        · rw [h] at h95; simp at h95
    | cons w' ws =>
      have ih' := ih (by simp) (fun x hx => hw x (by simp [hx]))
      have h95 := hw w (by simp)
      have hj : joinWords (w :: w' :: ws) = w ++ 95 :: joinWords (w' :: ws) := by
        rw [joinWords]; simp
      rw [hj, List.mem_cons, ih']
      generalize joinWords (w' :: ws) = r
      constructor
      · rintro (h | h | ⟨t, h⟩ | ⟨t, h⟩ | ⟨t, u, h⟩)
        · right; left; exact ⟨r, by rw [← h]; rfl⟩
        · right; right; left; exact ⟨w, by rw [h]⟩
        · right; right; right; exact ⟨w, t, by rw [h]⟩
        · right; right; left; exact ⟨w ++ 95 :: t, by rw [h]; simp⟩
        · right; right; right; exact ⟨w ++ 95 :: t, u, by rw [h]; simp⟩
      · rintro (h | ⟨t, h⟩ | ⟨t, h⟩ | ⟨t, u, h⟩)
        · simp at h
        · cases w with
          | nil => left; rfl
          | cons b w => simp at h; exact absurd (by simp [h.1]) h95
        · right
          rcases List.eq_nil_or_concat r with rfl | ⟨r', x, rfl⟩
          · left; rfl
          · right; right; left
            have : (w ++ 95 :: r') ++ [x] = t ++ [95] := by rw [← h]; simp
            have := List.append_inj_right' this rfl
            simp at this
            exact ⟨r', by simp [this]⟩
        · right
          -- the position of the doubled underscore
          rcases List.append_eq_append_iff.mp h with ⟨a, h1, h2⟩ | ⟨a, h1, h2⟩
          · cases a with
            | nil => simp at h2; right; left; exact ⟨u, h2⟩
            | cons x a =>
              simp at h2
              right; right; right
              exact ⟨a, u, h2.2⟩
          · cases a with
            | nil => simp at h2; right; left; exact ⟨u, h2.symm⟩
            | cons x a =>
              simp at h2
              exfalso; apply h95; rw [h1, ← h2.1]; simp

end Micro.Funcs
