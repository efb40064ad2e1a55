import Verif.Json.HeapLemmas
set_option linter.unusedSimpArgs false
/-
Lemmas for C126: the conversions back to Go values, and which Values they return for.
-/
namespace Micro.Json
open Micro

theorem anyFields_keys : ∀ (kvs : List (List Char × JVal)), (anyFields kvs).map Prod.fst = kvs.map Prod.fst
  | [] => by rw [anyFields]; rfl
  | (k, j) :: r => by rw [anyFields]; simp [anyFields_keys r]

mutual
/-- ToAny with memory does what ToAny does, in new maps and arrays. -/
theorem toAnyH_spec (V : Objs HVal) (P : Nat → Prop) :
    ∀ (j : JVal) (v : HVal) (A : Objs HAny), Den V P j v →
      ∃ x A', toAnyH V v A = some (x, A') ∧ Grows A A' ∧ Tree A' (Fresh A A') (toAny j) x
  | .invalid, v, A => fun h => by
    simp only [Den] at h; subst h
    rw [toAnyH, toAny]
    exact ⟨_, A, rfl, ⟨Nat.le_refl _, fun _ _ => ⟨rfl, rfl⟩⟩, by simp [Tree]⟩
  | .null, v, A => fun h => by
    simp only [Den] at h; subst h
    rw [toAnyH, toAny]
    exact ⟨_, A, rfl, ⟨Nat.le_refl _, fun _ _ => ⟨rfl, rfl⟩⟩, by simp [Tree]⟩
  | .bool b, v, A => fun h => by
    simp only [Den] at h; subst h
    rw [toAnyH, toAny]
    exact ⟨_, A, rfl, ⟨Nat.le_refl _, fun _ _ => ⟨rfl, rfl⟩⟩, by simp [Tree]⟩
  | .num b, v, A => fun h => by
    simp only [Den] at h; subst h
    rw [toAnyH, toAny]
    exact ⟨_, A, rfl, ⟨Nat.le_refl _, fun _ _ => ⟨rfl, rfl⟩⟩, by simp [Tree]⟩
  | .str b, v, A => fun h => by
    simp only [Den] at h; subst h
    rw [toAnyH, toAny]
    exact ⟨_, A, rfl, ⟨Nat.le_refl _, fun _ _ => ⟨rfl, rfl⟩⟩, by simp [Tree]⟩
  | .obj kvs, v, A => fun h => by
    simp only [Den] at h
    obtain ⟨m, rfl, -, hn, hr⟩ := h
    obtain ⟨A', h1, h2, h3, new, h4, h5⟩ := anyFieldsH_spec V P kvs (V.maps m) A.next (A.newMap []) [] hr (by simp [Objs.newMap])
      (by simp [Objs.newMap]) (by simpa using hn)
    rw [toAnyH, toAny, toMapH, h1]
    have hnext : (A.newMap []).next = A.next + 1 := rfl
    rw [hnext] at h2 h3
    refine ⟨.map A.next, A', rfl, ⟨by omega, fun a ha => ?_⟩, ?_⟩
    · have := h3 a (by omega)
      refine ⟨?_, this.2⟩
      rw [this.1 (by omega)]
      simp only [Objs.newMap]
      rw [Function.update_of_ne (by omega)]
    · simp only [Tree]
      refine ⟨_, rfl, ⟨Nat.le_refl _, by omega⟩, ?_, ?_⟩
      · rw [anyFields_keys]; exact hn
      · rw [h4]
        refine treeF_frame (fun _ _ => ⟨rfl, rfl⟩) (fun a ha => ?_) _ _ h5
        unfold Fresh at *
        rw [hnext] at ha
        omega
  | .arr js, v, A => fun h => by
    simp only [Den] at h
    obtain ⟨a, off, len, rfl, -, hr⟩ := h
    obtain ⟨xs, A', h1, h2, h3⟩ := anyElemsH_spec V P js (V.elems a off len) A hr
    rw [toAnyH, toAny, toSliceH, h1]
    refine ⟨.slice A'.next 0 xs.length, A'.newArr xs, rfl, ⟨Nat.le_succ_of_le h2.1, fun b hb => ?_⟩, ?_⟩
    · have := h2.2 b hb
      have hlt := Nat.lt_of_lt_of_le hb h2.1
      refine ⟨this.1, ?_⟩
      rw [← this.2]
      simp only [Objs.newArr]
      rw [Function.update_of_ne (by omega)]
    · simp only [Tree]
      refine ⟨_, _, _, rfl, ⟨h2.1, Nat.lt_succ_self _⟩, ?_⟩
      have : (A'.newArr xs).elems A'.next 0 xs.length = xs := by
        unfold Objs.elems Objs.newArr
        simp
      rw [this]
      refine treeE_frame (V := A') (V' := A'.newArr xs) (P := Fresh A A') (fun b hb => ⟨rfl, ?_⟩) (fun b hb => ?_) _ _ h3
      · simp only [Objs.newArr]
        unfold Fresh at hb
        rw [Function.update_of_ne (by omega)]
      · unfold Fresh at *
        simp only [Objs.newArr]
        omega
theorem anyFieldsH_spec (V : Objs HVal) (P : Nat → Prop) :
    ∀ (kvs : List (List Char × JVal)) (l : List (List Char × HVal)) (p : Nat) (A : Objs HAny) (done : List (List Char × HAny)),
      DenF V P kvs l → p < A.next → A.maps p = done → (done.map Prod.fst ++ kvs.map Prod.fst).Nodup →
      ∃ A', anyFieldsH V l p A = some A' ∧ A.next ≤ A'.next ∧
        (∀ m < A.next, (m ≠ p → A'.maps m = A.maps m) ∧ A'.arrs m = A.arrs m) ∧
        ∃ new, A'.maps p = done ++ new ∧ TreeF A' (Fresh A A') (anyFields kvs) new
  | [], l, p, A, done => fun h hp hd _ => by
    simp only [DenF] at h; subst h
    rw [anyFieldsH, anyFields]
    exact ⟨A, rfl, Nat.le_refl _, fun _ _ => ⟨fun _ => rfl, rfl⟩, [], by simp [hd], by simp [TreeF]⟩
  | (k, g) :: kvs, l, p, A, done => fun h hp hd hn => by
    simp only [DenF] at h
    obtain ⟨x, l', rfl, h1, h2⟩ := h
    obtain ⟨v, V1, g1, g2, g3⟩ := toAnyH_spec V P g x A h1
    rw [anyFieldsH, anyFields, g1]
    simp only [Option.bind_eq_bind, Option.bind_some]
    have hp1 : p < V1.next := Nat.lt_of_lt_of_le hp g2.1
    have hd1 : V1.maps p = done := by rw [(g2.2 p hp).1, hd]
    have hk : k ∉ done.map Prod.fst := by
      intro hc
      rw [List.nodup_append] at hn
      exact hn.2.2 k hc k (by simp) rfl
    have hset : (V1.setKey p k v).maps p = done ++ [(k, v)] := by
      simp only [Objs.setKey, Function.update_self, hd1]
      exact setKey_new done k v hk
    obtain ⟨V', k1, k2, k3, new, k4, k5⟩ := anyFieldsH_spec V P kvs l' p (V1.setKey p k v) (done ++ [(k, v)]) h2 hp1 hset (by
      simp only [List.map_append, List.map_cons, List.map_nil, List.append_assoc, List.cons_append, List.nil_append] at hn ⊢
      exact hn)
    have hnx : (V1.setKey p k v).next = V1.next := rfl
    rw [hnx] at k2 k3
    refine ⟨V', k1, Nat.le_trans g2.1 k2, fun m hm => ?_, (k, v) :: new, by rw [k4]; simp, ?_⟩
    · have a1 := k3 m (Nat.lt_of_lt_of_le hm g2.1)
      refine ⟨fun hmp => ?_, ?_⟩
      · rw [a1.1 hmp]
        simp only [Objs.setKey]
        rw [Function.update_of_ne hmp, (g2.2 m hm).1]
      · rw [a1.2]
        simp only [Objs.setKey]
        rw [(g2.2 m hm).2]
    · simp only [TreeF]
      refine ⟨v, new, rfl, tree_frame ?_ ?_ _ v g3, treeF_frame (fun _ _ => ⟨rfl, rfl⟩) ?_ _ new k5⟩
      · intro m hm
        unfold Fresh at hm
        have a1 := k3 m hm.2
        have hmp : m ≠ p := by omega
        refine ⟨?_, ?_⟩
        · rw [a1.1 hmp]
          simp only [Objs.setKey]
          rw [Function.update_of_ne hmp]
        · rw [a1.2]; rfl
      · intro m hm; unfold Fresh at *; omega
      · intro m hm; unfold Fresh at *; rw [hnx] at hm; have := g2.1; omega
theorem anyElemsH_spec (V : Objs HVal) (P : Nat → Prop) :
    ∀ (js : List JVal) (l : List HVal) (A : Objs HAny), DenE V P js l →
      ∃ xs A', anyElemsH V l A = some (xs, A') ∧ Grows A A' ∧ TreeE A' (Fresh A A') (anyElems js) xs
  | [], l, A => fun h => by
    simp only [DenE] at h; subst h
    rw [anyElemsH, anyElems]
    exact ⟨[], A, rfl, ⟨Nat.le_refl _, fun _ _ => ⟨rfl, rfl⟩⟩, by simp [TreeE]⟩
  | g :: js, l, A => fun h => by
    simp only [DenE] at h
    obtain ⟨x, l', rfl, h1, h2⟩ := h
    obtain ⟨v, A1, g1, g2, g3⟩ := toAnyH_spec V P g x A h1
    obtain ⟨xs, A2, k1, k2, k3⟩ := anyElemsH_spec V P js l' A1 h2
    rw [anyElemsH, anyElems, g1]
    simp only [Option.bind_eq_bind, Option.bind_some, k1]
    refine ⟨v :: xs, A2, rfl, ⟨Nat.le_trans g2.1 k2.1, fun m hm => ?_⟩, ?_⟩
    · have a := g2.2 m hm
      have b := k2.2 m (Nat.lt_of_lt_of_le hm g2.1)
      exact ⟨b.1.trans a.1, b.2.trans a.2⟩
    · simp only [TreeE]
      refine ⟨v, xs, rfl, tree_frame (fun m hm => k2.2 m hm.2) ?_ _ v g3, treeE_frame (fun _ _ => ⟨rfl, rfl⟩) ?_ _ xs k3⟩
      · intro m hm; unfold Fresh at *; have := k2.1; omega
      · intro m hm; unfold Fresh at *; have := g2.1; omega
end

theorem denF_keys {V : Objs HVal} {P : Nat → Prop} : ∀ (kvs : List (List Char × JVal)) (l : List (List Char × HVal)), DenF V P kvs l →
    kvs.map Prod.fst = l.map Prod.fst
  | [], l => fun h => by simp only [DenF] at h; subst h; rfl
  | (k, j) :: r, l => fun h => by
    simp only [DenF] at h
    obtain ⟨v, l', rfl, -, h2⟩ := h
    simp [denF_keys r l' h2]

/-- ToAny returns only for Values that stand for a document. -/
theorem toAnyH_returns (V : Objs HVal) (hV : ∀ m, ((V.maps m).map Prod.fst).Nodup) :
    ∀ (v : HVal) (A : Objs HAny) (r : HAny × Objs HAny), toAnyH V v A = some r → ∃ j, Den V (fun _ => True) j v := by
  have := (toAnyH.mutual_partial_correctness V
    (fun v _ _ => ∃ j, Den V (fun _ => True) j v)
    (fun a off len _ _ => ∃ js, DenE V (fun _ => True) js (V.elems a off len))
    (fun l _ _ => ∃ js, DenE V (fun _ => True) js l)
    (fun m _ _ => ∃ kvs, DenF V (fun _ => True) kvs (V.maps m))
    (fun l _ _ _ => ∃ kvs, DenF V (fun _ => True) kvs l) ?_ ?_ ?_ ?_ ?_)
  · exact this.1
  · intro fs fm hs hm v A r h
    cases v with
    | obj m =>
      obtain ⟨kvs, hk⟩ := hm m A r h
      exact ⟨.obj kvs, by
        simp only [Den]
        refine ⟨m, rfl, trivial, ?_, hk⟩
        rw [denF_keys kvs _ hk]; exact hV m⟩
    | arr a off len =>
      obtain ⟨js, hk⟩ := hs a off len A r h
      exact ⟨.arr js, by simp only [Den]; exact ⟨a, off, len, rfl, trivial, hk⟩⟩
    | invalid => exact ⟨.invalid, by simp [Den]⟩
    | null => exact ⟨.null, by simp [Den]⟩
    | bool b => exact ⟨.bool b, by simp [Den]⟩
    | num b => exact ⟨.num b, by simp [Den]⟩
    | str b => exact ⟨.str b, by simp [Den]⟩
  · intro f hf a off len A r h
    simp only [Option.bind_eq_bind, Option.bind_eq_some_iff] at h
    obtain ⟨q, hq, -⟩ := h
    exact hf _ _ _ hq
  · intro f g hf hg l A r h
    cases l with
    | nil => exact ⟨[], by simp [DenE]⟩
    | cons v l =>
      simp only [Option.bind_eq_bind, Option.bind_eq_some_iff] at h
      obtain ⟨q, hq, q2, hq2, -⟩ := h
      obtain ⟨j, hj⟩ := hf _ _ _ hq
      obtain ⟨js, hjs⟩ := hg _ _ _ hq2
      exact ⟨j :: js, by simp only [DenE]; exact ⟨v, l, rfl, hj, hjs⟩⟩
  · intro f hf m A r h
    simp only [Option.bind_eq_bind, Option.bind_eq_some_iff] at h
    obtain ⟨q, hq, -⟩ := h
    exact hf _ _ _ _ hq
  · intro f g hf hg l p A r h
    cases l with
    | nil => exact ⟨[], by simp [DenF]⟩
    | cons e l =>
      obtain ⟨k, v⟩ := e
      simp only [Option.bind_eq_bind, Option.bind_eq_some_iff] at h
      obtain ⟨q, hq, hq2⟩ := h
      obtain ⟨j, hj⟩ := hf _ _ _ hq
      obtain ⟨js, hjs⟩ := hg _ _ _ _ hq2
      exact ⟨(k, j) :: js, by simp only [DenF]; exact ⟨v, l, rfl, hj, hjs⟩⟩

mutual
theorem den_unique {V : Objs HVal} {P Q : Nat → Prop} : ∀ (i j : JVal) (v : HVal), Den V P i v → Den V Q j v → i = j
  | .invalid, j, v => fun hi hj => by
    simp only [Den] at hi; subst hi
    cases j <;> simp [Den] at hj ⊢
  | .null, j, v => fun hi hj => by
    simp only [Den] at hi; subst hi
    cases j <;> simp [Den] at hj ⊢
  | .bool b, j, v => fun hi hj => by
    simp only [Den] at hi; subst hi
    cases j <;> simp [Den] at hj ⊢; exact hj
  | .num b, j, v => fun hi hj => by
    simp only [Den] at hi; subst hi
    cases j <;> simp [Den] at hj ⊢; exact hj
  | .str b, j, v => fun hi hj => by
    simp only [Den] at hi; subst hi
    cases j <;> simp [Den] at hj ⊢; exact hj
  | .arr is, j, v => fun hi hj => by
    simp only [Den] at hi
    obtain ⟨a, off, len, rfl, -, hi⟩ := hi
    cases j with
    | arr js =>
      simp only [Den] at hj
      obtain ⟨a', off', len', he, -, hj⟩ := hj
      cases he
      rw [denE_unique is js _ hi hj]
    | _ => simp [Den] at hj
  | .obj is, j, v => fun hi hj => by
    simp only [Den] at hi
    obtain ⟨m, rfl, -, -, hi⟩ := hi
    cases j with
    | obj js =>
      simp only [Den] at hj
      obtain ⟨m', he, -, -, hj⟩ := hj
      cases he
      rw [denF_unique is js _ hi hj]
    | _ => simp [Den] at hj
theorem denF_unique {V : Objs HVal} {P Q : Nat → Prop} : ∀ (i j : List (List Char × JVal)) (l : List (List Char × HVal)),
    DenF V P i l → DenF V Q j l → i = j
  | [], j, l => fun hi hj => by
    simp only [DenF] at hi; subst hi
    cases j with
    | nil => rfl
    | cons e r => obtain ⟨k, e⟩ := e; simp [DenF] at hj
  | (k, i) :: r, j, l => fun hi hj => by
    simp only [DenF] at hi
    obtain ⟨v, l', rfl, h1, h2⟩ := hi
    cases j with
    | nil => simp [DenF] at hj
    | cons e r' =>
      obtain ⟨k', e⟩ := e
      simp only [DenF] at hj
      obtain ⟨v', l'', he, g1, g2⟩ := hj
      cases he
      rw [den_unique i e v h1 g1, denF_unique r r' l' h2 g2]
theorem denE_unique {V : Objs HVal} {P Q : Nat → Prop} : ∀ (i j : List JVal) (l : List HVal),
    DenE V P i l → DenE V Q j l → i = j
  | [], j, l => fun hi hj => by
    simp only [DenE] at hi; subst hi
    cases j with
    | nil => rfl
    | cons e r => simp [DenE] at hj
  | i :: r, j, l => fun hi hj => by
    simp only [DenE] at hi
    obtain ⟨v, l', rfl, h1, h2⟩ := hi
    cases j with
    | nil => simp [DenE] at hj
    | cons e r' =>
      simp only [DenE] at hj
      obtain ⟨v', l'', he, g1, g2⟩ := hj
      cases he
      rw [den_unique i e v h1 g1, denE_unique r r' l' h2 g2]
end

theorem setKey_mem {α : Type} : ∀ (l : List (List Char × α)) (k : List Char) (v : α), (k, v) ∈ setKey l k v
  | [], k, v => by simp [setKey]
  | e :: r, k, v => by
    rw [setKey]
    split
    · simp
    · exact List.mem_cons_of_mem _ (setKey_mem r k v)

theorem setKey_keys {α : Type} : ∀ (l : List (List Char × α)) (k : List Char) (v : α),
    (setKey l k v).map Prod.fst = if k ∈ l.map Prod.fst then l.map Prod.fst else l.map Prod.fst ++ [k]
  | [], k, v => by simp [setKey]
  | e :: r, k, v => by
    rw [setKey]
    by_cases h : e.1 = k
    · simp [h]
    · simp only [h, if_false, List.map_cons, setKey_keys r k v, List.mem_cons]
      have : ¬ k = e.1 := fun hc => h hc.symm
      simp only [this, false_or]
      split <;> simp

theorem setKey_nodup {α : Type} (l : List (List Char × α)) (k : List Char) (v : α) (h : (l.map Prod.fst).Nodup) : ((setKey l k v).map Prod.fst).Nodup := by
  rw [setKey_keys]
  split
  · exact h
  · rw [List.nodup_append]
    exact ⟨h, by simp, by rintro a ha b hb; simp only [List.mem_singleton] at hb; subst hb; exact fun hc => by subst hc; contradiction⟩

theorem denF_mem {V : Objs HVal} {P : Nat → Prop} : ∀ (kvs : List (List Char × JVal)) (l : List (List Char × HVal)), DenF V P kvs l → ∀ e ∈ l,
    ∃ j, (e.1, j) ∈ kvs ∧ Den V P j e.2
  | [], l => fun h e he => by simp only [DenF] at h; subst h; cases he
  | (k, j) :: r, l => fun h e he => by
    simp only [DenF] at h
    obtain ⟨v, l', rfl, h1, h2⟩ := h
    rcases List.mem_cons.mp he with rfl | he
    · exact ⟨j, by simp, h1⟩
    · obtain ⟨j', h3, h4⟩ := denF_mem r l' h2 e he
      exact ⟨j', List.mem_cons_of_mem _ h3, h4⟩

theorem den_acyclic (V : Objs HVal) (m : Nat) (k : List Char) (h : (k, HVal.obj m) ∈ V.maps m) (j : JVal) (hj : Den V (fun _ => True) j (.obj m)) : False := by
  cases j with
  | obj kvs =>
    have hj' := hj
    simp only [Den] at hj
    obtain ⟨m', he, -, -, hr⟩ := hj
    cases he
    obtain ⟨i, h1, h2⟩ := denF_mem kvs _ hr _ h
    have hu := den_unique _ _ _ hj' h2
    have hs : sizeOf i < sizeOf (JVal.obj kvs) := by
      have a := List.sizeOf_lt_of_mem h1
      simp only [Prod.mk.sizeOf_spec, JVal.obj.sizeOf_spec] at a ⊢
      omega
    rw [hu] at hs
    omega
  | _ => simp [Den] at hj

theorem docSet_keys (kvs : List (List Char × JVal)) (k : List Char) (j : JVal) :
    (docSet kvs k j).map Prod.fst = if k ∈ kvs.map Prod.fst then kvs.map Prod.fst else kvs.map Prod.fst ++ [k] := by
  unfold docSet
  split
  · rw [List.map_map]
    apply List.map_congr_left
    intro e _
    simp only [Function.comp]
    split
    · rename_i h; exact h.symm
    · rfl
  · simp

theorem docSet_cons (k' : List Char) (i : JVal) (r : List (List Char × JVal)) (k : List Char) (j : JVal) (hn : k' ∉ r.map Prod.fst) :
    docSet ((k', i) :: r) k j = if k' = k then (k, j) :: r else (k', i) :: docSet r k j := by
  by_cases h : k' = k
  · subst h
    have : r.map (fun e => if e.1 = k' then (k', j) else e) = r := by
      conv_rhs => rw [← List.map_id r]
      apply List.map_congr_left
      intro e he
      rw [if_neg]
      · rfl
      · intro hc; exact hn (List.mem_map.mpr ⟨e, he, hc⟩)
    simp [docSet, this]
  · have h' : ¬ k = k' := fun hc => h hc.symm
    simp only [docSet, List.map_cons, List.mem_cons, h', false_or, h, if_false]
    split <;> simp

theorem denF_set {V : Objs HVal} {P : Nat → Prop} : ∀ (kvs : List (List Char × JVal)) (l : List (List Char × HVal)), DenF V P kvs l →
    (kvs.map Prod.fst).Nodup → ∀ (k : List Char) {j : JVal} {w : HVal}, Den V P j w →
    DenF V P (docSet kvs k j) (setKey l k w) ∧ ((docSet kvs k j).map Prod.fst).Nodup
  | [], l => fun h _ k j w hw => by
    simp only [DenF] at h; subst h
    simp [docSet, setKey, DenF, hw]
  | (k', i) :: r, l => fun h hn k j w hw => by
    simp only [DenF] at h
    obtain ⟨v, l', rfl, h1, h2⟩ := h
    simp only [List.map_cons, List.nodup_cons] at hn
    obtain ⟨g1, g2⟩ := denF_set r l' h2 hn.2 k hw
    rw [docSet_cons _ _ _ _ _ hn.1, setKey]
    by_cases hk : k' = k
    · simp only [hk, if_true]
      constructor
      · simp only [DenF]; exact ⟨w, l', rfl, hw, h2⟩
      · subst hk; simp only [List.map_cons, List.nodup_cons]; exact hn
    · simp only [hk, if_false]
      constructor
      · simp only [DenF]; exact ⟨v, _, rfl, h1, g1⟩
      · simp only [List.map_cons, List.nodup_cons]
        refine ⟨?_, g2⟩
        rw [docSet_keys]
        split
        · exact hn.1
        · simp only [List.mem_append, List.mem_singleton, not_or]; exact ⟨hn.1, hk⟩

theorem denE_set {V : Objs HVal} {P : Nat → Prop} : ∀ (js : List JVal) (l : List HVal), DenE V P js l →
    ∀ (i : Nat) {j : JVal} {w : HVal}, Den V P j w → DenE V P (js.set i j) (l.set i w)
  | [], l => fun h i j w hw => by
    simp only [DenE] at h; subst h
    simp [DenE]
  | j' :: r, l => fun h i j w hw => by
    simp only [DenE] at h
    obtain ⟨v, l', rfl, h1, h2⟩ := h
    cases i with
    | zero => simp only [List.set_cons_zero, DenE]; exact ⟨w, l', rfl, hw, h2⟩
    | succ i => simp only [List.set_cons_succ, DenE]; exact ⟨v, _, rfl, h1, denE_set r l' h2 i hw⟩

end Micro.Json
