import Verif.Funcs.MapProps
/-
C75 for keys that are ordered by a rank (the absolute value of MapSortComplex, or a Cmp or less function for which different keys can be equal).
-/
namespace Micro.Funcs
open Micro

variable {K V R : Type}

/-- A function that does what sort.Slice promises for `rank`: all pairs are kept and none has a smaller rank than one before it. -/
def Sorts [LinearOrder R] (rank : K → R) (sort : List (K × V) → List (K × V)) : Prop :=
  ∀ l : List (K × V), (sort l).Perm l ∧ (sort l).Pairwise (fun a b => ¬ rank b.1 < rank a.1)

/-- C75. MapSortComplex, and MapSortCmp and MapSortBy with any weak order: the pairs of the map, each once, by increasing rank. -/
theorem c75_rank [LinearOrder R] (rank : K → R) (m : GoMap K V) (sort : List (K × V) → List (K × V)) (hs : Sorts rank sort) (l : List (K × V)) (hl : m.Ranges l) :
    ((mapSort sort l).map Prod.fst).Nodup ∧ (mapSort sort l).Pairwise (fun a b => rank a.1 ≤ rank b.1) ∧ ∀ k v, (k, v) ∈ mapSort sort l ↔ m.get k = some v := by
  rw [mapSort_eq]
  obtain ⟨h1, h2⟩ := hs l
  exact ⟨(h1.map Prod.fst).nodup_iff.mpr hl.1, h2.imp not_lt.mp, fun k v => by rw [h1.mem_iff]; exact hl.2 k v⟩

theorem two_orders {α : Type} {s : List α} (hn : s.Nodup) {a b : α} (h1 : [a, b].Sublist s) (h2 : [b, a].Sublist s) : False := by
  induction s with
  | nil => cases h1
  | cons x s ih =>
    have hn' := List.nodup_cons.mp hn
    cases h1 with
    | cons _ h1 =>
      cases h2 with
      | cons _ h2 => exact ih hn'.2 h1 h2
      | cons_cons _ h2 => exact hn'.1 (h1.subset (by simp))
    | cons_cons _ h1 =>
      cases h2 with
      | cons _ h2 => exact hn'.1 (h2.subset (by simp))
      | cons_cons _ h2 => exact hn'.1 (h1.subset (by simp))

theorem sub_two {α : Type} {s : List α} {a b : α} (ha : a ∈ s) (hb : b ∈ s) (hne : a ≠ b) : [a, b].Sublist s ∨ [b, a].Sublist s := by
  induction s with
  | nil => cases ha
  | cons x s ih =>
    rcases List.mem_cons.mp ha with rfl | ha'
    · rcases List.mem_cons.mp hb with rfl | hb
      · exact absurd rfl hne
      · exact .inl (.cons_cons _ (List.singleton_sublist.mpr hb))
    · rcases List.mem_cons.mp hb with rfl | hb
      · exact .inr (.cons_cons _ (List.singleton_sublist.mpr ha'))
      · rcases ih ha' hb with h | h
        · exact .inl (.cons _ h)
        · exact .inr (.cons _ h)

/-- Insertion sort by rank. -/
noncomputable def byRank [LinearOrder R] (rank : K → R) (l : List (K × V)) : List (K × V) := l.insertionSort (fun a b => rank a.1 ≤ rank b.1)

theorem byRank_sorts [LinearOrder R] (rank : K → R) : Sorts (V := V) rank (byRank rank) := by
  intro l
  refine ⟨List.perm_insertionSort _ l, ?_⟩
  haveI : IsTrans (K × V) (fun a b => rank a.1 ≤ rank b.1) := ⟨fun _ _ _ h1 h2 => le_trans h1 h2⟩
  haveI : Std.Total (fun a b : K × V => rank a.1 ≤ rank b.1) := ⟨fun a b => le_total _ _⟩
  exact (List.pairwise_insertionSort (fun a b : K × V => rank a.1 ≤ rank b.1) l).imp (fun h => not_lt.mpr h)

/-- C75, exactly: the result is the same in whatever order the map is visited and however sort.Slice works, if and only if no two keys of the map have the same rank. For
MapSortComplex: no two keys of the same absolute value. -/
theorem c75_rank_iff [LinearOrder R] (rank : K → R) (m : GoMap K V) (l : List (K × V)) (hl : m.Ranges l) :
    (∀ sort1 sort2 l1 l2, Sorts rank sort1 → Sorts rank sort2 → m.Ranges l1 → m.Ranges l2 → mapSort sort1 l1 = mapSort sort2 l2) ↔
    ∀ k1 k2, (m.get k1).isSome → (m.get k2).isSome → rank k1 = rank k2 → k1 = k2 := by
  constructor
  · intro h k1 k2 h1 h2 hr
    obtain ⟨v1, h1⟩ := Option.isSome_iff_exists.mp h1
    obtain ⟨v2, h2⟩ := Option.isSome_iff_exists.mp h2
    by_contra hne
    have hrev : m.Ranges l.reverse := ⟨by rw [List.map_reverse, List.nodup_reverse]; exact hl.1, fun k v => by rw [List.mem_reverse]; exact hl.2 k v⟩
    have hb := byRank_sorts (V := V) rank
    have he := h (byRank rank) (byRank rank) l l.reverse hb hb hl hrev
    rw [mapSort_eq, mapSort_eq] at he
    have hnd : (byRank rank l).Nodup := (hb l).1.nodup_iff.mpr (List.Nodup.of_map _ hl.1)
    have key : ∀ (a b : K × V) (l : List (K × V)), rank a.1 = rank b.1 → [a, b].Sublist l → [a, b].Sublist (byRank rank l) := by
      intro a b l hab hsub
      haveI : IsTrans (K × V) (fun a b => rank a.1 ≤ rank b.1) := ⟨fun _ _ _ h1 h2 => le_trans h1 h2⟩
      haveI : Std.Total (fun a b : K × V => rank a.1 ≤ rank b.1) := ⟨fun a b => le_total _ _⟩
      exact List.sublist_insertionSort (by simp [hab]) hsub
    rcases sub_two ((hl.2 k1 v1).2 h1) ((hl.2 k2 v2).2 h2) (by intro e; exact hne (by cases e; rfl)) with hs | hs
    · exact two_orders hnd (key _ _ _ hr hs) (he ▸ key _ _ _ hr.symm (by simpa using hs.reverse))
    · exact two_orders hnd (key _ _ _ hr.symm hs) (he ▸ key _ _ _ hr (by simpa using hs.reverse))
  · intro h sort1 sort2 l1 l2 hs1 hs2 hl1 hl2
    obtain ⟨a1, a2, a3⟩ := c75_rank rank m sort1 hs1 l1 hl1
    obtain ⟨b1, b2, b3⟩ := c75_rank rank m sort2 hs2 l2 hl2
    have hp : (mapSort sort1 l1).Perm (mapSort sort2 l2) := by
      rw [List.perm_ext_iff_of_nodup (List.Nodup.of_map _ a1) (List.Nodup.of_map _ b1)]
      rintro ⟨k, v⟩
      rw [a3, b3]
    refine hp.eq_of_pairwise (fun a b ha hb h1 h2 => ?_) a2 b2
    obtain ⟨k, v⟩ := a
    obtain ⟨k', v'⟩ := b
    have g1 := (a3 k v).1 ha
    have g2 := (b3 k' v').1 hb
    have : k = k' := h k k' (by rw [g1]; rfl) (by rw [g2]; rfl) (le_antisymm h1 h2)
    subst this
    rw [g1] at g2
    cases g2
    rfl

example : GoMap.Ranges (K := Int) (V := Char) (some (fun k => if k = 3 then some 'a' else if k = -4 then some 'b' else none)) [(3, 'a'), (-4, 'b')] := by
  refine ⟨by decide, fun k v => ?_⟩
  simp only [GoMap.get, List.mem_cons, Prod.mk.injEq, List.not_mem_nil, or_false]
  by_cases h1 : k = 3
  · subst h1; simp [eq_comm]
  · by_cases h2 : k = -4
    · subst h2; simp [eq_comm]
    · simp [h1, h2]

end Micro.Funcs
