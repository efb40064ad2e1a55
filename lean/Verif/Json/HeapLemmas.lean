import Verif.Json.HeapSpec
import Mathlib.Tactic.Tauto
import Mathlib.Data.List.Nodup
set_option linter.unusedSimpArgs false
/-
Lemmas for C126.
-/
namespace Micro.Json
open Micro

variable {α : Type}

mutual
theorem den_frame {V V' : Objs HVal} {P Q : Nat → Prop} (hA : AgreeOn P V V') (hPQ : ∀ m, P m → Q m) :
    ∀ (j : JVal) (v : HVal), Den V P j v → Den V' Q j v
  | .invalid, v => fun h => by simpa [Den] using h
  | .null, v => fun h => by simpa [Den] using h
  | .bool b, v => fun h => by simpa [Den] using h
  | .num s, v => fun h => by simpa [Den] using h
  | .str s, v => fun h => by simpa [Den] using h
  | .arr js, v => fun h => by
    simp only [Den] at h ⊢
    obtain ⟨a, off, len, rfl, hp, he⟩ := h
    refine ⟨a, off, len, rfl, hPQ a hp, ?_⟩
    rw [show V'.elems a off len = V.elems a off len from by unfold Objs.elems; rw [(hA a hp).2]]
    exact denE_frame hA hPQ js _ he
  | .obj kvs, v => fun h => by
    simp only [Den] at h ⊢
    obtain ⟨m, rfl, hp, hn, he⟩ := h
    refine ⟨m, rfl, hPQ m hp, hn, ?_⟩
    rw [(hA m hp).1]
    exact denF_frame hA hPQ kvs _ he
theorem denF_frame {V V' : Objs HVal} {P Q : Nat → Prop} (hA : AgreeOn P V V') (hPQ : ∀ m, P m → Q m) :
    ∀ (kvs : List (List Char × JVal)) (l : List (List Char × HVal)), DenF V P kvs l → DenF V' Q kvs l
  | [], l => fun h => by simpa [DenF] using h
  | (k, j) :: r, l => fun h => by
    simp only [DenF] at h ⊢
    obtain ⟨v, l', rfl, h1, h2⟩ := h
    exact ⟨v, l', rfl, den_frame hA hPQ j v h1, denF_frame hA hPQ r l' h2⟩
theorem denE_frame {V V' : Objs HVal} {P Q : Nat → Prop} (hA : AgreeOn P V V') (hPQ : ∀ m, P m → Q m) :
    ∀ (js : List JVal) (l : List HVal), DenE V P js l → DenE V' Q js l
  | [], l => fun h => by simpa [DenE] using h
  | j :: r, l => fun h => by
    simp only [DenE] at h ⊢
    obtain ⟨v, l', rfl, h1, h2⟩ := h
    exact ⟨v, l', rfl, den_frame hA hPQ j v h1, denE_frame hA hPQ r l' h2⟩
end

mutual
theorem tree_frame {V V' : Objs HAny} {P Q : Nat → Prop} (hA : AgreeOn P V V') (hPQ : ∀ m, P m → Q m) :
    ∀ (j : GoAny) (v : HAny), Tree V P j v → Tree V' Q j v
  | .nil, v => fun h => by simpa [Tree] using h
  | .bool b, v => fun h => by simpa [Tree] using h
  | .str s, v => fun h => by simpa [Tree] using h
  | .numStr s, v => fun h => by simpa [Tree] using h
  | .namedStr s, v => fun h => by simpa [Tree] using h
  | .num s, v => fun h => by simpa [Tree] using h
  | .int k s, v => fun h => by simpa [Tree] using h
  | .mapV s, v => fun h => by simpa [Tree] using h
  | .sliceV s, v => fun h => by simpa [Tree] using h
  | .other, v => fun h => by simpa [Tree] using h
  | .slice js, v => fun h => by
    simp only [Tree] at h ⊢
    obtain ⟨a, off, len, rfl, hp, he⟩ := h
    refine ⟨a, off, len, rfl, hPQ a hp, ?_⟩
    rw [show V'.elems a off len = V.elems a off len from by unfold Objs.elems; rw [(hA a hp).2]]
    exact treeE_frame hA hPQ js _ he
  | .map kvs, v => fun h => by
    simp only [Tree] at h ⊢
    obtain ⟨m, rfl, hp, hn, he⟩ := h
    refine ⟨m, rfl, hPQ m hp, hn, ?_⟩
    rw [(hA m hp).1]
    exact treeF_frame hA hPQ kvs _ he
theorem treeF_frame {V V' : Objs HAny} {P Q : Nat → Prop} (hA : AgreeOn P V V') (hPQ : ∀ m, P m → Q m) :
    ∀ (kvs : List (List Char × GoAny)) (l : List (List Char × HAny)), TreeF V P kvs l → TreeF V' Q kvs l
  | [], l => fun h => by simpa [TreeF] using h
  | (k, j) :: r, l => fun h => by
    simp only [TreeF] at h ⊢
    obtain ⟨v, l', rfl, h1, h2⟩ := h
    exact ⟨v, l', rfl, tree_frame hA hPQ j v h1, treeF_frame hA hPQ r l' h2⟩
theorem treeE_frame {V V' : Objs HAny} {P Q : Nat → Prop} (hA : AgreeOn P V V') (hPQ : ∀ m, P m → Q m) :
    ∀ (js : List GoAny) (l : List HAny), TreeE V P js l → TreeE V' Q js l
  | [], l => fun h => by simpa [TreeE] using h
  | j :: r, l => fun h => by
    simp only [TreeE] at h ⊢
    obtain ⟨v, l', rfl, h1, h2⟩ := h
    exact ⟨v, l', rfl, tree_frame hA hPQ j v h1, treeE_frame hA hPQ r l' h2⟩
end

theorem setKey_new (l : List (List Char × α)) (k : List Char) (v : α) (h : k ∉ l.map Prod.fst) : setKey l k v = l ++ [(k, v)] := by
  induction l with
  | nil => rfl
  | cons e r ih =>
    simp only [List.map_cons, List.mem_cons, not_or] at h
    rw [setKey, if_neg (fun hc => h.1 hc.symm), ih h.2]; rfl

theorem set_middle (done : List α) (x v : α) (rest : List α) : (done ++ x :: rest).set done.length v = done ++ v :: rest := by
  simp

mutual
/-- toValue with memory does what toValue does, in new maps and arrays. -/
theorem toValueH_spec (A : Objs HAny) (P : Nat → Prop) :
    ∀ (g : GoAny) (x : HAny) (V : Objs HVal), Tree A P g x →
      (∀ e, toValue g = .error e → toValueH A x V = some (.error e)) ∧
      (∀ j, toValue g = .ok j → ∃ v V', toValueH A x V = some (.ok (v, V')) ∧ Grows V V' ∧ Den V' (Fresh V V') j v)
  | .nil, x, V => fun h => by
    simp only [Tree] at h; subst h
    rw [toValueH, toValue]
    exact ⟨by simp, fun j hj => ⟨_, V, rfl, ⟨Nat.le_refl _, fun _ _ => ⟨rfl, rfl⟩⟩, by cases hj; simp [Den]⟩⟩
  | .bool b, x, V => fun h => by
    simp only [Tree] at h; subst h
    rw [toValueH, toValue]
    exact ⟨by simp, fun j hj => ⟨_, V, rfl, ⟨Nat.le_refl _, fun _ _ => ⟨rfl, rfl⟩⟩, by cases hj; simp [Den]⟩⟩
  | .str s, x, V => fun h => by
    simp only [Tree] at h; subst h
    rw [toValueH, toValue]
    exact ⟨by simp, fun j hj => ⟨_, V, rfl, ⟨Nat.le_refl _, fun _ _ => ⟨rfl, rfl⟩⟩, by cases hj; simp [Den]⟩⟩
  | .numStr s, x, V => fun h => by
    simp only [Tree] at h; subst h
    rw [toValueH, toValue]
    by_cases hm : matchNumber s = true
    · simp only [hm, if_true]
      exact ⟨by simp, fun j hj => ⟨_, V, rfl, ⟨Nat.le_refl _, fun _ _ => ⟨rfl, rfl⟩⟩, by cases hj; simp [Den]⟩⟩
    · simp only [hm, if_false]
      exact ⟨fun e he => by cases he; rfl, fun j hj => by cases hj⟩
  | .namedStr s, x, V => fun h => by
    simp only [Tree] at h; subst h
    rw [toValueH, toValue]
    exact ⟨fun e he => by cases he; rfl, fun j hj => by cases hj⟩
  | .num t, x, V => fun h => by
    simp only [Tree] at h; subst h
    rw [toValueH, toValue]
    exact ⟨by simp, fun j hj => ⟨_, V, rfl, ⟨Nat.le_refl _, fun _ _ => ⟨rfl, rfl⟩⟩, by cases hj; simp [Den]⟩⟩
  | .int k v, x, V => fun h => by
    simp only [Tree] at h; subst h
    rw [toValueH, toValue]
    exact ⟨by simp, fun j hj => ⟨_, V, rfl, ⟨Nat.le_refl _, fun _ _ => ⟨rfl, rfl⟩⟩, by cases hj; simp [Den]⟩⟩
  | .mapV kvs, x, V => fun h => by
    simp only [Tree] at h; obtain ⟨m, rfl⟩ := h
    rw [toValueH, toValue]
    exact ⟨fun e he => by cases he; rfl, fun j hj => by cases hj⟩
  | .sliceV vs, x, V => fun h => by
    simp only [Tree] at h; obtain ⟨a, off, len, rfl⟩ := h
    rw [toValueH, toValue]
    exact ⟨fun e he => by cases he; rfl, fun j hj => by cases hj⟩
  | .other, x, V => fun h => by
    simp only [Tree] at h; subst h
    rw [toValueH, toValue]
    exact ⟨fun e he => by cases he; rfl, fun j hj => by cases hj⟩
  | .map kvs, x, V => fun h => by
    simp only [Tree] at h
    obtain ⟨m, rfl, -, hn, hr⟩ := h
    have ih := convFieldsH_spec A P kvs (A.maps m) V.next (V.newMap []) [] hr (by simp [Objs.newMap]) (by simp [Objs.newMap]) (by simpa using hn)
    rw [toValueH, toValue, mapToValueH, mapToValue]
    constructor
    · intro e he
      cases hc : convFields kvs with
      | error e' => rw [hc] at he; cases he; rw [ih.1 e hc]; rfl
      | ok r => rw [hc] at he; cases he
    · intro j hj
      cases hc : convFields kvs with
      | error e' => rw [hc] at hj; cases hj
      | ok r =>
        rw [hc] at hj; cases hj
        obtain ⟨V', h1, h2, h3, new, h4, h5⟩ := ih.2 r hc
        rw [h1]
        have hnext : (V.newMap []).next = V.next + 1 := rfl
        rw [hnext] at h2 h3
        refine ⟨_, V', rfl, ⟨by omega, fun a ha => ?_⟩, ?_⟩
        · have := h3 a (by omega)
          refine ⟨?_, this.2⟩
          rw [this.1 (by omega)]
          simp only [Objs.newMap]
          rw [Function.update_of_ne (by omega)]
        · simp only [Den]
          refine ⟨_, rfl, ⟨Nat.le_refl _, by omega⟩, ?_, ?_⟩
          · have : r.map Prod.fst = kvs.map Prod.fst := convFields_keys kvs r hc
            rw [this]; exact hn
          · rw [h4]
            refine denF_frame (fun _ _ => ⟨rfl, rfl⟩) (fun a ha => ?_) r _ h5
            unfold Fresh at *
            rw [hnext] at ha
            omega
  | .slice gs, x, V => fun h => by
    simp only [Tree] at h
    obtain ⟨a, off, len, rfl, -, hr⟩ := h
    have ih := convElemsH_spec A P gs (A.elems a off len) V.next (V.newArr (List.replicate (A.elems a off len).length .invalid)) [] hr
      (by simp [Objs.newArr]) (by simp [Objs.newArr])
    rw [toValueH, toValue, sliceToValueH, sliceToValue]
    constructor
    · intro e he
      cases hc : convElems gs with
      | error e' => rw [hc] at he; cases he; rw [show (0 : Nat) = ([] : List HVal).length from rfl, ih.1 e hc]; rfl
      | ok r => rw [hc] at he; cases he
    · intro j hj
      cases hc : convElems gs with
      | error e' => rw [hc] at hj; cases hj
      | ok r =>
        rw [hc] at hj; cases hj
        obtain ⟨V', h1, h2, h3, new, h4, h5, h6⟩ := ih.2 r hc
        simp only [List.length_nil] at h1
        rw [h1]
        have hnext : (V.newArr (List.replicate (A.elems a off len).length HVal.invalid)).next = V.next + 1 := rfl
        rw [hnext] at h2 h3
        refine ⟨_, V', rfl, ⟨by omega, fun b hb => ?_⟩, ?_⟩
        · have := h3 b (by omega)
          refine ⟨this.1, ?_⟩
          rw [this.2 (by omega)]
          simp only [Objs.newArr]
          rw [Function.update_of_ne (by omega)]
        · simp only [Den]
          refine ⟨_, _, _, rfl, ⟨Nat.le_refl _, by omega⟩, ?_⟩
          have : V'.elems V.next 0 (A.elems a off len).length = new := by
            rw [← h6]
            unfold Objs.elems
            rw [h4, List.nil_append, List.drop_zero, List.take_length]
          rw [this]
          refine denE_frame (fun _ _ => ⟨rfl, rfl⟩) (fun b hb => ?_) r _ h5
          unfold Fresh at *
          rw [hnext] at hb
          omega
theorem convFieldsH_spec (A : Objs HAny) (P : Nat → Prop) :
    ∀ (kvs : List (List Char × GoAny)) (l : List (List Char × HAny)) (p : Nat) (V : Objs HVal) (done : List (List Char × HVal)),
      TreeF A P kvs l → p < V.next → V.maps p = done → (done.map Prod.fst ++ kvs.map Prod.fst).Nodup →
      (∀ e, convFields kvs = .error e → convFieldsH A l p V = some (.error e)) ∧
      (∀ r, convFields kvs = .ok r → ∃ V', convFieldsH A l p V = some (.ok V') ∧ V.next ≤ V'.next ∧
        (∀ m < V.next, (m ≠ p → V'.maps m = V.maps m) ∧ V'.arrs m = V.arrs m) ∧
        ∃ new, V'.maps p = done ++ new ∧ DenF V' (Fresh V V') r new)
  | [], l, p, V, done => fun h hp hd _ => by
    simp only [TreeF] at h; subst h
    rw [convFieldsH, convFields]
    exact ⟨by simp, fun r hr => ⟨V, rfl, Nat.le_refl _, fun _ _ => ⟨fun _ => rfl, rfl⟩, [], by simp [hd], by cases hr; simp [DenF]⟩⟩
  | (k, g) :: kvs, l, p, V, done => fun h hp hd hn => by
    simp only [TreeF] at h
    obtain ⟨x, l', rfl, h1, h2⟩ := h
    have ihv := toValueH_spec A P g x V h1
    rw [convFieldsH, convFields]
    cases hg : toValue g with
    | error e =>
      rw [ihv.1 e hg]
      exact ⟨fun e' he => by cases he; rfl, fun r hr => by cases hr⟩
    | ok j =>
      obtain ⟨v, V1, g1, g2, g3⟩ := ihv.2 j hg
      rw [g1]
      simp only [Option.bind_eq_bind, Option.bind_some]
      have hp1 : p < V1.next := Nat.lt_of_lt_of_le hp g2.1
      have hd1 : V1.maps p = done := by rw [(g2.2 p hp).1, hd]
      have hk : k ∉ done.map Prod.fst := by
        intro hc
        rw [List.nodup_append] at hn
        exact hn.2.2 k hc k (by simp) rfl
      have hset : (V1.setKey p k v).maps p = done ++ [(k, v)] := by
        simp only [Objs.setKey, Function.update_self, hd1]
        exact setKey_new done k v hk
      have ih := convFieldsH_spec A P kvs l' p (V1.setKey p k v) (done ++ [(k, v)]) h2 hp1 hset (by
        simp only [List.map_append, List.map_cons, List.map_nil, List.append_assoc, List.cons_append, List.nil_append] at hn ⊢
        exact hn)
      cases hc : convFields kvs with
      | error e => exact ⟨fun e' he => by cases he; exact ih.1 e hc, fun r hr => by cases hr⟩
      | ok r =>
        refine ⟨fun e he => (by cases he), fun r' hr => ?_⟩
        cases hr
        obtain ⟨V', k1, k2, k3, new, k4, k5⟩ := ih.2 r hc
        have hnx : (V1.setKey p k v).next = V1.next := rfl
        rw [hnx] at k2 k3
        refine ⟨V', k1, Nat.le_trans g2.1 k2, fun m hm => ?_, (k, v) :: new, by rw [k4]; simp, ?_⟩
        · have a1 := k3 m (Nat.lt_of_lt_of_le hm g2.1)
          refine ⟨fun hmp => ?_, ?_⟩
          · rw [a1.1 hmp]
            simp only [Objs.setKey]
            rw [Function.update_of_ne hmp, (g2.2 m hm).1]
          · rw [a1.2]
            simp only [Objs.setKey]
            rw [(g2.2 m hm).2]
        · simp only [DenF]
          refine ⟨v, new, rfl, den_frame ?_ ?_ j v g3, denF_frame (fun _ _ => ⟨rfl, rfl⟩) ?_ r new k5⟩
          · intro m hm
            unfold Fresh at hm
            have a1 := k3 m hm.2
            have hmp : m ≠ p := by omega
            refine ⟨?_, ?_⟩
            · rw [a1.1 hmp]
              simp only [Objs.setKey]
              rw [Function.update_of_ne hmp]
            · rw [a1.2]; rfl
          · intro m hm; unfold Fresh at *; omega
          · intro m hm; unfold Fresh at *; rw [hnx] at hm; have := g2.1; omega
theorem convElemsH_spec (A : Objs HAny) (P : Nat → Prop) :
    ∀ (gs : List GoAny) (l : List HAny) (p : Nat) (V : Objs HVal) (done : List HVal),
      TreeE A P gs l → p < V.next → V.arrs p = done ++ List.replicate l.length .invalid →
      (∀ e, convElems gs = .error e → convElemsH A l p done.length V = some (.error e)) ∧
      (∀ r, convElems gs = .ok r → ∃ V', convElemsH A l p done.length V = some (.ok V') ∧ V.next ≤ V'.next ∧
        (∀ m < V.next, V'.maps m = V.maps m ∧ (m ≠ p → V'.arrs m = V.arrs m)) ∧
        ∃ new, V'.arrs p = done ++ new ∧ DenE V' (Fresh V V') r new ∧ new.length = l.length)
  | [], l, p, V, done => fun h hp hd => by
    simp only [TreeE] at h; subst h
    rw [convElemsH, convElems]
    exact ⟨by simp, fun r hr => ⟨V, rfl, Nat.le_refl _, fun _ _ => ⟨rfl, fun _ => rfl⟩, [], by simp [hd], by cases hr; simp [DenE], rfl⟩⟩
  | g :: gs, l, p, V, done => fun h hp hd => by
    simp only [TreeE] at h
    obtain ⟨x, l', rfl, h1, h2⟩ := h
    have ihv := toValueH_spec A P g x V h1
    rw [convElemsH, convElems]
    cases hg : toValue g with
    | error e =>
      rw [ihv.1 e hg]
      exact ⟨fun e' he => by cases he; rfl, fun r hr => by cases hr⟩
    | ok j =>
      obtain ⟨v, V1, g1, g2, g3⟩ := ihv.2 j hg
      rw [g1]
      simp only [Option.bind_eq_bind, Option.bind_some]
      have hp1 : p < V1.next := Nat.lt_of_lt_of_le hp g2.1
      have hd1 : V1.arrs p = done ++ .invalid :: List.replicate l'.length .invalid := by
        rw [(g2.2 p hp).2, hd, List.length_cons, List.replicate_succ]
      have hset : (V1.setIdx p done.length v).arrs p = (done ++ [v]) ++ List.replicate l'.length .invalid := by
        simp only [Objs.setIdx, Function.update_self, hd1, set_middle]
        simp
      have ih := convElemsH_spec A P gs l' p (V1.setIdx p done.length v) (done ++ [v]) h2 hp1 hset
      rw [show (done ++ [v]).length = done.length + 1 from by simp] at ih
      cases hc : convElems gs with
      | error e => exact ⟨fun e' he => by cases he; exact ih.1 e hc, fun r hr => by cases hr⟩
      | ok r =>
        refine ⟨fun e he => (by cases he), fun r' hr => ?_⟩
        cases hr
        obtain ⟨V', k1, k2, k3, new, k4, k5, k6⟩ := ih.2 r hc
        have hnx : (V1.setIdx p done.length v).next = V1.next := rfl
        rw [hnx] at k2 k3
        refine ⟨V', k1, Nat.le_trans g2.1 k2, fun m hm => ?_, v :: new, by rw [k4]; simp, ?_, by simp [k6]⟩
        · have a1 := k3 m (Nat.lt_of_lt_of_le hm g2.1)
          refine ⟨?_, fun hmp => ?_⟩
          · rw [a1.1]
            simp only [Objs.setIdx]
            rw [(g2.2 m hm).1]
          · rw [a1.2 hmp]
            simp only [Objs.setIdx]
            rw [Function.update_of_ne hmp, (g2.2 m hm).2]
        · simp only [DenE]
          refine ⟨v, new, rfl, den_frame ?_ ?_ j v g3, denE_frame (fun _ _ => ⟨rfl, rfl⟩) ?_ r new k5⟩
          · intro m hm
            unfold Fresh at hm
            have a1 := k3 m hm.2
            have hmp : m ≠ p := by omega
            refine ⟨?_, ?_⟩
            · rw [a1.1]; rfl
            · rw [a1.2 hmp]
              simp only [Objs.setIdx]
              rw [Function.update_of_ne hmp]
          · intro m hm; unfold Fresh at *; omega
          · intro m hm; unfold Fresh at *; rw [hnx] at hm; have := g2.1; omega
theorem convFields_keys : ∀ (kvs : List (List Char × GoAny)) (r : List (List Char × JVal)), convFields kvs = .ok r → r.map Prod.fst = kvs.map Prod.fst
  | [], r => fun h => by rw [convFields] at h; cases h; rfl
  | (k, g) :: kvs, r => fun h => by
    rw [convFields] at h
    cases hg : toValue g with
    | error e => rw [hg] at h; cases h
    | ok j =>
      rw [hg] at h
      cases hc : convFields kvs with
      | error e => rw [hc] at h; cases h
      | ok r' =>
        rw [hc] at h; cases h
        simp [convFields_keys kvs r' hc]
end

end Micro.Json
