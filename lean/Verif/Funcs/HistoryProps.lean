import Verif.Funcs.SharpProps
import Mathlib.Data.List.Perm.Basic
set_option linter.unusedSimpArgs false
/-
C44, C45: every history, whatever the order of the keys.
-/
namespace Micro.Funcs

variable {K V : Type}

/-! ### The search never fails -/

theorem searchLoop_total [LinearOrder K] (mp : List (K × V)) (key : K) (n : Nat) : ∀ l r, r - l ≤ n → l ≤ r → r < mp.length →
    ∃ i, ∃ hi : i < mp.length, searchLoop mp key l r = some (i, decide (key = mp[i].1)) := by
  induction n with
  | zero =>
    intro l r hn hlr hr
    obtain rfl : l = r := by omega
    refine ⟨l, hr, ?_⟩
    rw [searchLoop]; simp [hr]
  | succ n ih =>
    intro l r hn hlr hr
    by_cases h : l < r
    · have hm : mid l r < mp.length ∧ l < mid l r ∧ mid l r ≤ r := by
        unfold mid; split <;> omega
      rw [searchLoop, dif_pos h, List.getElem?_eq_getElem hm.1]
      simp only
      split
      · exact ih l (mid l r - 1) (by omega) (by omega) (by omega)
      · exact ih (mid l r) r (by omega) (by omega) hr
    · obtain rfl : l = r := by omega
      refine ⟨l, hr, ?_⟩
      rw [searchLoop]; simp [hr]

theorem search_total [LinearOrder K] (mp : List (K × V)) (key : K) :
    (mp = [] ∧ search mp key = some (none, false)) ∨
    (∃ i, ∃ hi : i < mp.length, search mp key = some (some i, decide (key = mp[i].1))) := by
  cases mp with
  | nil => left; exact ⟨rfl, rfl⟩
  | cons e t =>
    right
    obtain ⟨i, hi, h⟩ := searchLoop_total (e :: t) key _ 0 ((e :: t).length - 1) (le_refl _) (by omega) (by simp)
    exact ⟨i, hi, by rw [search, if_neg (by simp), h]; rfl⟩

/-- C44: no operation ever panics, on any slice, sorted or not: every history has a result. -/
theorem c44_total [LinearOrder K] [DecidableEq V] (mp : List (K × List V)) (ops : List (MOp K V)) : ∃ mp', runOps mp ops = some mp' := by
  have step : ∀ (mp : List (K × List V)) (op : MOp K V), ∃ mp', runOp mp op = some mp' := by
    intro mp op
    cases op with
    | add k v =>
      rcases search_total mp k with ⟨rfl, h⟩ | ⟨i, hi, h⟩
      · exact ⟨[(k, [v])], by simp [runOp, orderedAdd, h]⟩
      · by_cases hk : k = mp[i].1
        · rw [decide_eq_true hk] at h; simp [runOp, orderedAdd, h, hi]
        · rw [decide_eq_false hk] at h; simp [runOp, orderedAdd, h, hi]
    | removeKey k =>
      rcases search_total mp k with ⟨rfl, h⟩ | ⟨i, hi, h⟩
      · exact ⟨[], by simp [runOp, orderedRemoveKey, h]⟩
      · by_cases hk : k = mp[i].1
        · rw [decide_eq_true hk] at h; simp [runOp, orderedRemoveKey, h, hi]
        · rw [decide_eq_false hk] at h; simp [runOp, orderedRemoveKey, h, hi]
    | removeValue k v all =>
      rcases search_total mp k with ⟨rfl, h⟩ | ⟨i, hi, h⟩
      · exact ⟨[], by simp [runOp, orderedRemoveValue, orderedRemoveWith, h]⟩
      · by_cases hk : k = mp[i].1
        · rw [decide_eq_true hk] at h; simp [runOp, orderedRemoveValue, orderedRemoveWith, h, hi]
        · rw [decide_eq_false hk] at h; simp [runOp, orderedRemoveValue, orderedRemoveWith, h, hi]
  induction ops generalizing mp with
  | nil => exact ⟨mp, rfl⟩
  | cons op ops ih =>
    obtain ⟨mp1, h1⟩ := step mp op
    obtain ⟨mp2, h2⟩ := ih mp1
    exact ⟨mp2, by simp [runOps, h1, h2]⟩

/-! ### Exactly which histories are right -/

theorem represents_unique_keys [LinearOrder K] {mp : List (K × List V)} {M : MM K V} (h : Represents mp M) (op : MOp K V) :
    NotBelow M op ↔ (match op with | .add k _ => mp = [] ∨ ∃ e ∈ mp, e.1 ≤ k | _ => True) := by
  cases op with
  | add k v =>
    simp only [NotBelow]
    constructor
    · rintro (hn | ⟨q, hq, hne⟩)
      · left
        cases mp with
        | nil => rfl
        | cons e t => have := (h.2 e.1 e.2).mp (by simp); rw [hn] at this; simp at this
      · right
        obtain ⟨vs, hv⟩ := Option.ne_none_iff_exists'.mp hne
        exact ⟨(q, vs), (h.2 q vs).mpr hv, hq⟩
    · rintro (rfl | ⟨e, he, hle⟩)
      · left
        intro q
        cases hq : M q with
        | none => rfl
        | some vs => exact absurd ((h.2 q vs).mpr hq) (by simp)
      · right
        exact ⟨e.1, hle, by rw [(h.2 e.1 e.2).mp he]; simp⟩
  | removeKey k => simp [NotBelow]
  | removeValue k v all => simp [NotBelow]

/-- C44, exactly when: the slice is the sorted multimap of the specification after every operation of a history if and only if no operation adds a
key below all the keys present at that time. -/
theorem c44_history_iff [LinearOrder K] [DecidableEq V] (ops : List (MOp K V)) :
    (∀ n, ∃ mp, runOps [] (ops.take n) = some mp ∧ Represents mp (MM.empty.applyAll (fun a b => decide (a = b)) (ops.take n))) ↔
      NeverBelow (fun a b => decide (a = b)) (MM.empty : MM K V) ops := by
  have main : ∀ (ops : List (MOp K V)) (mp : List (K × List V)) (M : MM K V), Represents mp M →
      ((∀ n, ∃ mp', runOps mp (ops.take n) = some mp' ∧ Represents mp' (M.applyAll (fun a b => decide (a = b)) (ops.take n))) ↔
        NeverBelow (fun a b => decide (a = b)) M ops) := by
    intro ops
    induction ops with
    | nil => intro mp M hr; simp [NeverBelow, runOps, MM.applyAll, hr]
    | cons op ops ih =>
      intro mp M hr
      simp only [NeverBelow]
      constructor
      · intro h
        obtain ⟨mp1, h1, h2⟩ := h 1
        simp only [List.take_succ_cons, List.take_zero, runOps, MM.applyAll] at h1 h2
        have h1' : runOp mp op = some mp1 := by
          rcases ho : runOp mp op with _ | m <;> simp [ho] at h1 ⊢; exact h1
        refine ⟨?_, (ih mp1 _ h2).mp ?_⟩
        · rw [represents_unique_keys hr]
          cases op with
          | add k v => exact (c44_add_iff mp hr.1 k v).1.mp ⟨mp1, h1', h2.1⟩
          | removeKey k => trivial
          | removeValue k v all => trivial
        · intro n
          obtain ⟨mp', h3, h4⟩ := h (n + 1)
          refine ⟨mp', ?_, h4⟩
          simpa [List.take_succ_cons, runOps, h1'] using h3
      · rintro ⟨hb, hn⟩ n
        have step : ∃ mp', runOp mp op = some mp' ∧ Represents mp' (M.apply (fun a b => decide (a = b)) op) := by
          cases op with
          | add k v => exact orderedAdd_represents mp M hr k v _ hb
          | removeKey k => exact orderedRemoveKey_represents mp M hr k _
          | removeValue k v all =>
            obtain ⟨mp', h1, h2⟩ := orderedRemoveWith_represents (fun slc => sliceRemove slc v [all]) mp M hr k
            refine ⟨mp', h1, ?_⟩
            simp only [sliceRemove_eq] at h2
            exact h2
        obtain ⟨mp1, h1, h2⟩ := step
        cases n with
        | zero => exact ⟨mp, by simp [runOps], by simpa [MM.applyAll] using hr⟩
        | succ n =>
          obtain ⟨mp2, h3, h4⟩ := (ih mp1 _ h2).mpr hn n
          exact ⟨mp2, by simp [List.take_succ_cons, runOps, h1, h3], by simpa [List.take_succ_cons, MM.applyAll] using h4⟩
  exact main ops [] MM.empty ⟨List.Pairwise.nil, by simp [MM.empty]⟩

/-! ### Additions are never lost -/

/-- The pairs (key, value) a slice holds. -/
def pairs (mp : List (K × List V)) : List (K × V) := mp.flatMap (fun e => e.2.map (fun v => (e.1, v)))

/-- C44: adding a value to any slice, sorted or not, adds exactly the pair of key and value, and keeps all others. -/
theorem c44_add_pairs [LinearOrder K] (mp mp' : List (K × List V)) (k : K) (v : V) (h : orderedAdd mp k v = some mp') :
    List.Perm (pairs mp') (pairs mp ++ [(k, v)]) := by
  rcases search_total mp k with ⟨rfl, hs⟩ | ⟨i, hi, hs⟩
  · simp [orderedAdd, hs] at h
    subst h
    simp [pairs]
  · have hsplit : mp = mp.take i ++ mp[i] :: mp.drop (i + 1) := by
      rw [List.getElem_cons_drop, List.take_append_drop]
    by_cases hk : k = mp[i].1
    · rw [decide_eq_true hk] at hs
      simp [orderedAdd, hs, hi] at h
      subst h
      rw [hk]
      have e1 : mp.set i (mp[i].1, mp[i].2 ++ [v]) = mp.take i ++ (mp[i].1, mp[i].2 ++ [v]) :: mp.drop (i + 1) := by
        rw [List.set_eq_take_append_cons_drop, if_pos hi]
      rw [e1]
      have e2 : pairs mp = pairs (mp.take i ++ mp[i] :: mp.drop (i + 1)) := congrArg pairs hsplit
      rw [e2]
      simp only [pairs, List.flatMap_append, List.flatMap_cons, List.map_append, List.map_cons, List.map_nil, List.append_assoc]
      refine List.Perm.append_left _ (List.Perm.append_left _ ?_)
      exact List.perm_append_comm
    · simp only [orderedAdd, hs, hk, decide_false, Option.some.injEq] at h
      subst h
      conv_rhs => rw [← List.take_append_drop (i + 1) mp]
      simp only [pairs, List.flatMap_append, List.flatMap_cons, List.flatMap_nil, List.map_cons, List.map_nil, List.append_nil, List.append_assoc]
      exact List.Perm.append_left _ List.perm_append_comm

/-- C45: whatever the order of the ids, after any sequence of registrations Send applies every receiver exactly as often as it has been registered
(the order is right if and only if no id is below all ids present, C44). -/
theorem c45_all_receivers {I T : Type} [LinearOrder I] (regs : List (I × Recv T)) :
    ∃ r calls, regOps [] (regs.map (fun (i, rc) => MOp.add i rc)) = some r ∧ List.Perm calls (regs.map (·.2)) ∧
      ∀ val, send r val = calls.foldl (fun v rcvr => rcvr.process v) val := by
  have main : ∀ (regs : List (I × Recv T)) (r0 : Registry I T), ∃ r, regOps r0 (regs.map (fun (i, rc) => MOp.add i rc)) = some r ∧
      List.Perm (pairs r) (pairs r0 ++ regs) := by
    intro regs
    induction regs with
    | nil => intro r0; exact ⟨r0, rfl, by simp⟩
    | cons x regs ih =>
      intro r0
      obtain ⟨k, v⟩ := x
      have : ∃ r1, orderedAdd r0 k v = some r1 := by
        rcases search_total r0 k with ⟨rfl, h⟩ | ⟨i, hi, h⟩
        · simp [orderedAdd, h]
        · by_cases hk : k = r0[i].1
          · rw [decide_eq_true hk] at h; simp [orderedAdd, h, hi]
          · rw [decide_eq_false hk] at h; simp [orderedAdd, h, hi]
      obtain ⟨r1, h1⟩ := this
      obtain ⟨r, h2, h3⟩ := ih r1
      refine ⟨r, by simp [regOps, regOp, register, h1, h2], h3.trans ?_⟩
      have := (c44_add_pairs _ _ _ _ h1).append_right regs
      simpa using this
  obtain ⟨r, h1, h2⟩ := main regs []
  refine ⟨r, (pairs r).map (·.2), h1, by simpa [pairs] using h2.map (·.2), ?_⟩
  intro val
  rw [send_eq]
  congr 1
  simp [pairs, List.map_flatMap, Function.comp_def]

/-- Non-vacuity: registrations under the ids 5, 3, 5. -/
example : NeverBelow (fun a b => decide (a = b)) (MM.empty : MM Int Nat) [.add 3 1, .add 5 2] ∧
    ¬ NeverBelow (fun a b => decide (a = b)) (MM.empty : MM Int Nat) [.add 5 1, .add 3 2] := by
  constructor
  · exact ⟨Or.inl (fun _ => rfl), Or.inr ⟨3, by decide, by simp [MM.apply]⟩, trivial⟩
  · rintro ⟨_, h, _⟩
    rcases h with h | ⟨q, hq, hne⟩
    · have := h 5; simp [MM.apply] at this
    · by_cases h5 : q = 5
      · omega
      · simp [MM.apply, MM.empty, h5] at hne

end Micro.Funcs
