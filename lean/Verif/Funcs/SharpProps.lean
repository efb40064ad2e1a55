import Verif.Funcs.Props
set_option linter.unusedSimpArgs false
/-
C44: additions below the smallest key are exactly those that break the order.
-/
namespace Micro.Funcs

variable {K V : Type}

/-- C44: adding to a sorted slice keeps it sorted exactly if the slice is empty or the key is not below all its keys; otherwise the new entry is put
in the second place, after the larger smallest key. -/
theorem c44_add_iff [LinearOrder K] (mp : List (K × List V)) (hs : SortedKeys mp) (k : K) (v : V) :
    ((∃ mp', orderedAdd mp k v = some mp' ∧ SortedKeys mp') ↔ (mp = [] ∨ ∃ e ∈ mp, e.1 ≤ k)) ∧
    (∀ e t, mp = e :: t → k < e.1 → orderedAdd mp k v = some (e :: (k, [v]) :: t)) := by
  have hlow : ∀ e t, mp = e :: t → k < e.1 → orderedAdd mp k v = some (e :: (k, [v]) :: t) := by
    rintro e t rfl hk
    rcases search_spec _ hs k with ⟨h, _⟩ | ⟨A, vs, B, h, _⟩ | ⟨A, B, h, hA, _, h1, _⟩ | ⟨_, hse, _⟩
    · simp at h
    · exfalso
      cases A with
      | nil => simp at h; rw [h.1] at hk; exact lt_irrefl _ hk
      | cons a A =>
        simp at h
        have hm : (k, vs) ∈ t := by rw [h.2]; simp
        have := (List.pairwise_cons.mp hs).1 _ hm
        exact lt_irrefl _ (hk.trans this)
    · exfalso
      cases A with
      | nil => exact hA rfl
      | cons a A =>
        simp at h
        have := h1 a (by simp)
        rw [h.1] at hk
        exact lt_irrefl _ (hk.trans this)
    · simp [orderedAdd, hse]
  refine ⟨⟨?_, ?_⟩, hlow⟩
  · rintro ⟨mp', h, hs'⟩
    by_contra hc
    simp only [not_or, not_exists, not_and, not_le] at hc
    obtain ⟨hne, hall⟩ := hc
    cases mp with
    | nil => exact hne rfl
    | cons e t =>
      have hk := hall e (by simp)
      rw [hlow e t rfl hk] at h
      simp only [Option.some.injEq] at h
      subst h
      have := (List.pairwise_cons.mp hs').1 (k, [v]) (by simp)
      exact lt_irrefl _ (hk.trans this)
  · intro h
    -- the multimap the slice represents
    have hM : ∃ M : MM K V, Represents mp M := by
      classical
      refine ⟨fun q => (mp.find? (fun e => decide (e.1 = q))).map (·.2), hs, ?_⟩
      intro q vs
      constructor
      · intro hm
        obtain ⟨A, B, rfl⟩ := List.append_of_mem hm
        have hA : A.find? (fun e => decide (e.1 = q)) = none := by
          rw [List.find?_eq_none]
          intro x hx
          have := (List.pairwise_append.mp hs).2.2 x hx (q, vs) (by simp)
          simp [ne_of_lt this]
        simp [List.find?_append, hA]
      · intro hf
        obtain ⟨e, he, rfl⟩ := Option.map_eq_some_iff.mp hf
        have h1 := List.mem_of_find?_eq_some he
        have h2 := List.find?_some he
        simp only [decide_eq_true_eq] at h2
        subst h2
        exact h1
    obtain ⟨M, hM⟩ := hM
    obtain ⟨mp', h1, h2⟩ := orderedAdd_represents mp M hM k v (fun _ _ => false) (by
      rcases h with rfl | ⟨e, he, hle⟩
      · left
        intro q
        cases hq : M q with
        | none => rfl
        | some vs => exact absurd ((hM.2 q vs).mpr hq) (by simp)
      · right
        refine ⟨e.1, hle, ?_⟩
        rw [(hM.2 e.1 e.2).mp he]; simp)
    exact ⟨mp', h1, h2.1⟩

example : SortedKeys [((2 : Int), [1]), (5, [2])] ∧ (3 : Int) < 5 := by
  refine ⟨?_, by decide⟩
  unfold SortedKeys
  simp

end Micro.Funcs
