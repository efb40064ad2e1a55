import Verif.Json.ValueSpec
import Verif.Json.ParseComplete
import Verif.Json.ParseSound
import Verif.Conv.Props
import Mathlib.Data.List.TakeWhile
set_option linter.unusedSimpArgs false
/- Lemmas about ValueModel. -/
namespace Micro.Json
open Micro Micro.Iter

/-! ### matchNumber -/

theorem matchNumber_iff (s : List Char) : matchNumber s = true ↔ ∃ a m b, s = a ++ m ++ b ∧ NumberRegex m := by
  unfold matchNumber
  rw [List.any_eq_true]
  constructor
  · rintro ⟨c, hc, hd⟩
    obtain ⟨a, b, rfl⟩ := List.append_of_mem hc
    refine ⟨a, [c], b, by simp, [], [c], [], [], .inl rfl, by simp, ?_, .inl rfl, .inl rfl, rfl⟩
    intro x hx
    rw [List.mem_singleton] at hx
    rw [hx]; exact hd
  · rintro ⟨a, m, b, rfl, sign, i, f, x, -, hi, hd, -, -, rfl⟩
    cases i with
    | nil => exact absurd rfl hi
    | cons c t => exact ⟨c, by simp, hd c (by simp)⟩

/-! ### Conversions -/

mutual
theorem toValue_toAny : ∀ v : JVal, Convertible v → toValue (toAny v) = .ok v
  | .null, _ => by simp [toAny, toValue]
  | .invalid, h => by cases h
  | .bool b, _ => by simp [toAny, toValue]
  | .str s, _ => by simp [toAny, toValue]
  | .num s, h => by
    cases h with
    | num _ h =>
      have : matchNumber s = true := by unfold matchNumber; rw [List.any_eq_true]; exact h
      simp [toAny, toValue, this]
  | .arr vs, h => by
    cases h with
    | arr _ h => simp [toAny, toValue, sliceToValue, convElems_any vs h]
  | .obj kvs, h => by
    cases h with
    | obj _ h => simp [toAny, toValue, mapToValue, convFields_any kvs h]
termination_by v => sizeOf v

theorem convElems_any : ∀ vs : List JVal, (∀ v ∈ vs, Convertible v) → convElems (anyElems vs) = .ok vs
  | [], _ => by simp [anyElems, anyFields, convElems, convFields]
  | v :: vs, h => by
    simp only [anyElems, convElems]
    rw [toValue_toAny v (h v (by simp)), convElems_any vs (fun u hu => h u (by simp [hu]))]
termination_by vs => sizeOf vs

theorem convFields_any : ∀ kvs : List (List Char × JVal), (∀ kv ∈ kvs, Convertible kv.2) → convFields (anyFields kvs) = .ok kvs
  | [], _ => by simp [anyElems, anyFields, convElems, convFields]
  | (k, v) :: kvs, h => by
    simp only [anyFields, convFields]
    rw [toValue_toAny v (h (k, v) (by simp)), convFields_any kvs (fun u hu => h u (by simp [hu]))]
termination_by kvs => sizeOf kvs
end

mutual
theorem convertible_of : ∀ v : JVal, toValue (toAny v) = .ok v → Convertible v
  | .null, _ => .null
  | .invalid, h => by simp [toAny, toValue] at h
  | .bool b, _ => .bool b
  | .str s, _ => .str s
  | .num s, h => by
    refine .num s ?_
    simp only [toAny, toValue] at h
    split at h
    · rename_i hm; unfold matchNumber at hm; rwa [List.any_eq_true] at hm
    · cases h
  | .arr vs, h => by
    refine .arr vs ?_
    simp only [toAny, toValue, sliceToValue] at h
    split at h
    · cases h
    · rename_i r he; cases h
      exact convElems_of vs he
  | .obj kvs, h => by
    refine .obj kvs ?_
    simp only [toAny, toValue, mapToValue] at h
    split at h
    · cases h
    · rename_i r he; cases h
      exact convFields_of kvs he
termination_by v => sizeOf v

theorem convElems_of : ∀ vs : List JVal, convElems (anyElems vs) = .ok vs → ∀ v ∈ vs, Convertible v
  | [], _ => by simp
  | v :: vs, h => by
    simp only [anyElems, convElems] at h
    split at h
    · cases h
    · rename_i jv hv
      split at h
      · cases h
      · rename_i r hr
        simp only [Except.ok.injEq, List.cons.injEq] at h
        rw [h.1] at hv; rw [h.2] at hr
        intro u hu
        rcases List.mem_cons.mp hu with hu | hu
        · rw [hu]; exact convertible_of v hv
        · exact convElems_of vs hr u hu
termination_by vs => sizeOf vs

theorem convFields_of : ∀ kvs : List (List Char × JVal), convFields (anyFields kvs) = .ok kvs → ∀ kv ∈ kvs, Convertible kv.2
  | [], _ => by simp
  | (k, v) :: kvs, h => by
    simp only [anyFields, convFields] at h
    split at h
    · cases h
    · rename_i jv hv
      split at h
      · cases h
      · rename_i r hr
        simp only [Except.ok.injEq, List.cons.injEq, Prod.mk.injEq, true_and] at h
        rw [h.1] at hv; rw [h.2] at hr
        intro u hu
        rcases List.mem_cons.mp hu with hu | hu
        · rw [hu]; exact convertible_of v hv
        · exact convFields_of kvs hr u hu
termination_by kvs => sizeOf kvs
end

mutual
theorem toAny_toValue : ∀ (a : GoAny) (v : JVal), PlainGo a → toValue a = .ok v → toAny v = a
  | .nil, v, _, h => by simp [toValue] at h; subst h; simp [toAny]
  | .bool b, v, _, h => by simp [toValue] at h; subst h; simp [toAny]
  | .str s, v, _, h => by simp [toValue] at h; subst h; simp [toAny]
  | .numStr s, v, _, h => by
    simp only [toValue] at h
    split at h
    · cases h; simp [toAny]
    · cases h
  | .int _ _, v, h, _ => by cases h
  | .mapV _, v, h, _ => by cases h
  | .sliceV _, v, h, _ => by cases h
  | .other, v, h, _ => by cases h
  | .map kvs, v, hp, h => by
    cases hp with
    | map _ hp =>
      simp only [toValue, mapToValue] at h
      split at h
      · cases h
      · rename_i r hr; cases h; simp only [toAny]; rw [anyFields_conv kvs r hp hr]
  | .slice vs, v, hp, h => by
    cases hp with
    | slice _ hp =>
      simp only [toValue, sliceToValue] at h
      split at h
      · cases h
      · rename_i r hr; cases h; simp only [toAny]; rw [anyElems_conv vs r hp hr]
termination_by a => sizeOf a

theorem anyElems_conv : ∀ (vs : List GoAny) (r : List JVal), (∀ v ∈ vs, PlainGo v) → convElems vs = .ok r → anyElems r = vs
  | [], r, _, h => by simp [convElems] at h; subst h; simp [anyElems]
  | v :: vs, r, hp, h => by
    simp only [convElems] at h
    split at h
    · cases h
    · rename_i jv hv
      split at h
      · cases h
      · rename_i q hq
        simp only [Except.ok.injEq] at h
        subst h
        simp only [anyElems]
        rw [toAny_toValue v jv (hp v (by simp)) hv, anyElems_conv vs q (fun u hu => hp u (by simp [hu])) hq]
termination_by vs => sizeOf vs

theorem anyFields_conv : ∀ (vs : List (List Char × GoAny)) (r : List (List Char × JVal)), (∀ v ∈ vs, PlainGo v.2) →
    convFields vs = .ok r → anyFields r = vs
  | [], r, _, h => by simp [convFields] at h; subst h; simp [anyFields]
  | (k, v) :: vs, r, hp, h => by
    simp only [convFields] at h
    split at h
    · cases h
    · rename_i jv hv
      split at h
      · cases h
      · rename_i q hq
        simp only [Except.ok.injEq] at h
        subst h
        simp only [anyFields]
        rw [toAny_toValue v jv (hp (k, v) (by simp)) hv, anyFields_conv vs q (fun u hu => hp u (by simp [hu])) hq]
termination_by vs => sizeOf vs
end

/-! ### Parsed values are convertible -/

theorem numLit_digit {m : Mode} {s : List Char} (h : NumLit m s) : ∃ c ∈ s, isDigit c = true := by
  obtain ⟨neg, int, f, x, ⟨hi, hd, -⟩, -, -, rfl⟩ := h
  cases int with
  | nil => exact absurd rfl hi
  | cons c t => exact ⟨c, by simp, hd c (by simp)⟩

theorem convertible_all {m : Mode} (hm : m.junk = false) {t : List Char} {v : JVal} (h : IsVal m t v) : Convertible v := by
  refine IsVal.rec (m := m) (motive_1 := fun _ v _ => Convertible v) (motive_2 := fun _ vs _ => ∀ v ∈ vs, Convertible v)
    (motive_3 := fun _ kvs _ => ∀ kv ∈ kvs, Convertible kv.2) ?_ ?_ ?_ ?_ ?_ ?_ ?_ ?_ ?_ ?_ ?_ ?_ ?_ ?_ h
  · exact .null
  · exact .bool _
  · exact .bool _
  · intro s h; exact .num s (numLit_digit h)
  · intro s v _; exact .str v
  · intro w _; exact .arr [] (by simp)
  · intro s vs _ _ ih; exact .arr vs ih
  · intro s kvs _ _ ih; exact .obj kvs ih
  · intro s hj; rw [hm] at hj; cases hj
  · intro w1 s w2 v _ _ _ ih; simpa using ih
  · intro w1 s w2 v r vs _ _ _ _ ih1 ih2
    simp only [List.mem_cons]; rintro u (rfl | hu); exact ih1; exact ih2 u hu
  · intro w _; simp
  · intro w1 k key w2 w3 s w4 v _ _ _ _ _ _ ih; simpa using ih
  · intro w1 k key w2 w3 s w4 v r kvs _ _ _ _ _ _ _ _ ih1 ih2
    simp only [List.mem_cons]; rintro u (rfl | hu); exact ih1; exact ih2 u hu

theorem distinct_all {m : Mode} {t : List Char} {v : JVal} (h : IsVal m t v) : DistinctKeys v := by
  refine IsVal.rec (m := m) (motive_1 := fun _ v _ => DistinctKeys v) (motive_2 := fun _ vs _ => ∀ v ∈ vs, DistinctKeys v)
    (motive_3 := fun _ kvs _ => ∀ kv ∈ kvs, DistinctKeys kv.2) ?_ ?_ ?_ ?_ ?_ ?_ ?_ ?_ ?_ ?_ ?_ ?_ ?_ ?_ h
  · exact .null
  · exact .bool _
  · exact .bool _
  · intro s h; exact .num s
  · intro s v _; exact .str v
  · intro w _; exact .arr [] (by simp)
  · intro s vs _ _ ih; exact .arr vs ih
  · intro s kvs _ hn ih; exact .obj kvs hn ih
  · intro s _ _; exact .invalid
  · intro w1 s w2 v _ _ _ ih; simpa using ih
  · intro w1 s w2 v r vs _ _ _ _ ih1 ih2
    simp only [List.mem_cons]; rintro u (rfl | hu); exact ih1; exact ih2 u hu
  · intro w _; simp
  · intro w1 k key w2 w3 s w4 v _ _ _ _ _ _ ih; simpa using ih
  · intro w1 k key w2 w3 s w4 v r kvs _ _ _ _ _ _ _ _ ih1 ih2
    simp only [List.mem_cons]; rintro u (rfl | hu); exact ih1; exact ih2 u hu

/-! ### Paths -/

theorem isKeyChar_iff (c : Char) : isKeyChar c = true ↔ c ≠ '.' ∧ c ≠ '[' ∧ c ≠ ']' := by
  simp [isKeyChar, and_assoc]

/-- A match and its text. -/
def PartText (t : List Char) (p : Part) : Prop :=
  (p.index = [] ∧ p.key ≠ [] ∧ (∀ c ∈ p.key, isKeyChar c = true) ∧ t = '.' :: p.key) ∨
  (p.key = [] ∧ p.index ≠ [] ∧ AllDigits p.index ∧ t = '[' :: p.index ++ [']'])

theorem matchPart_sound {t : List Char} {p : Part} {r : List Char} (h : matchPart t = some (p, r)) :
    ∃ u, t = u ++ r ∧ PartText u p := by
  cases t with
  | nil => simp [matchPart] at h
  | cons c t =>
    have h1 := List.takeWhile_append_dropWhile (p := isKeyChar) (l := t)
    have h2 := List.takeWhile_append_dropWhile (p := isDigit) (l := t)
    have a1 : ∀ c ∈ t.takeWhile isKeyChar, isKeyChar c = true := fun c hc => List.mem_takeWhile_imp hc
    have a2 : ∀ c ∈ t.takeWhile isDigit, isDigit c = true := fun c hc => List.mem_takeWhile_imp hc
    unfold matchPart at h
    simp only at h
    split at h
    · rename_i hc; subst hc
      split at h
      · cases h
      · rename_i hne
        simp only [Option.some.injEq, Prod.mk.injEq] at h
        obtain ⟨rfl, rfl⟩ := h
        exact ⟨'.' :: t.takeWhile isKeyChar, by rw [List.cons_append, h1], .inl ⟨rfl, hne, a1, rfl⟩⟩
    · split at h
      · rename_i hc; subst hc
        split at h
        · cases h
        · rename_i hne
          split at h
          · cases h
          · rename_i d r' heq
            split at h
            · rename_i hd; subst hd
              simp only [Option.some.injEq, Prod.mk.injEq] at h
              obtain ⟨rfl, rfl⟩ := h
              refine ⟨'[' :: t.takeWhile isDigit ++ [']'], ?_, .inr ⟨rfl, hne, a2, rfl⟩⟩
              rw [heq] at h2
              conv_lhs => rw [← h2]
              simp
            · cases h
      · cases h

theorem takeWhile_app {p : Char → Bool} {a : List Char} (ha : ∀ c ∈ a, p c = true) {b : List Char}
    (hb : ∀ c, b.head? = some c → p c = false) : (a ++ b).takeWhile p = a ∧ (a ++ b).dropWhile p = b := by
  induction a with
  | nil =>
    cases b with
    | nil => simp
    | cons c b => have := hb c rfl; simp [this]
  | cons c a ih =>
    have hc := ha c (by simp)
    have := ih (fun d hd => ha d (by simp [hd]))
    simp [hc, this]

theorem matchPart_complete {u r : List Char} {p : Part} (h : PartText u p) (hr : ∀ c, r.head? = some c → isKeyChar c = false) :
    matchPart (u ++ r) = some (p, r) := by
  obtain ⟨k, i⟩ := p
  rcases h with ⟨rfl, hk, hall, rfl⟩ | ⟨rfl, hi, hall, rfl⟩
  · simp only at hk hall ⊢
    have := takeWhile_app hall hr
    simp only [List.cons_append, matchPart, if_true, this, if_neg hk]
  · simp only at hi hall ⊢
    have := takeWhile_app (b := ']' :: r) hall (by intro c hc; cases hc; decide)
    have e : '[' :: i ++ [']'] ++ r = '[' :: (i ++ ']' :: r) := by simp
    rw [e]
    simp only [matchPart, if_true, this, if_neg hi]
    rw [if_neg (by decide)]

/-- Texts of matches, one after the other. -/
inductive PartsText : List Char → List Part → Prop
  | nil : PartsText [] []
  | cons (t p u ps) : PartText t p → PartsText u ps → PartsText (t ++ u) (p :: ps)

theorem partText_head {t : List Char} {p : Part} (h : PartText t p) : ∃ c u, t = c :: u ∧ isKeyChar c = false := by
  rcases h with ⟨-, -, -, rfl⟩ | ⟨-, -, -, rfl⟩
  · exact ⟨_, _, rfl, by decide⟩
  · exact ⟨_, _, rfl, by decide⟩

theorem partsText_head {t : List Char} {ps : List Part} (h : PartsText t ps) : ∀ c, t.head? = some c → isKeyChar c = false := by
  intro c hc
  cases h with
  | nil => simp at hc
  | cons t p u ps ht hu =>
    obtain ⟨d, v, rfl, hd⟩ := partText_head ht
    simp at hc; rw [← hc]; exact hd

theorem findAll_sound (n : Nat) : ∀ t : List Char, t.length ≤ n → (findAll t).2 = [] → PartsText t (findAll t).1 := by
  induction n with
  | zero =>
    intro t ht _
    have : t = [] := List.length_eq_zero_iff.mp (by omega)
    subst this; rw [findAll]; exact .nil
  | succ n ih =>
    intro t ht h
    cases t with
    | nil => rw [findAll]; exact .nil
    | cons c u =>
      rw [findAll] at h ⊢
      cases heq : matchPart (c :: u) with
      | none => rw [heq] at h; simp at h
      | some pr =>
        obtain ⟨p, r⟩ := pr
        rw [heq] at h
        have hl := matchPart_length heq
        obtain ⟨v, hv, hp⟩ := matchPart_sound heq
        have := ih r (by simp at hl ht ⊢; omega) h
        rw [hv]; exact .cons _ _ _ _ hp this

theorem findAll_complete {t : List Char} {ps : List Part} (h : PartsText t ps) : findAll t = (ps, []) := by
  induction h with
  | nil => rw [findAll]
  | cons t p u ps ht hu ih =>
    have hm := matchPart_complete ht (partsText_head hu)
    obtain ⟨c, v, rfl, -⟩ := partText_head ht
    rw [List.cons_append] at hm ⊢
    rw [findAll]
    split
    · rename_i p' r' heq'
      rw [hm] at heq'; cases heq'
      rw [ih]
    · rename_i heq'; rw [hm] at heq'; cases heq'

theorem stringTo_digits {ds : List Char} (hne : ds ≠ []) (hd : AllDigits ds) (v : Int) :
    Conv.stringTo .int ds 0 = ⟨v, false⟩ ↔ v = digitsVal ds ∧ v ≤ 9223372036854775807 := by
  rw [Conv.c22_string_to_integer]
  have hmax : Kind.int.InRange v ↔ -9223372036854775808 ≤ v ∧ v ≤ 9223372036854775807 := Iff.rfl
  rw [hmax]
  generalize (9223372036854775807 : Int) = M at *
  constructor
  · rintro ⟨⟨es, he, hes, h | ⟨-, h, -⟩ | ⟨-, h, -⟩⟩, h2⟩
    · exact ⟨by rw [h.1]; exact h.2, h2.2⟩
    · exact absurd (hd '+' (by rw [h]; simp)) (by decide)
    · exact absurd (hd '-' (by rw [h]; simp)) (by decide)
  · rintro ⟨rfl, h⟩
    exact ⟨⟨ds, hne, hd, .inl ⟨rfl, rfl⟩⟩, by omega, h⟩

theorem partsToSteps_sound {t : List Char} {ps : List Part} (h : PartsText t ps) :
    ∀ {ss : List Step}, partsToSteps ps = some ss → ps ≠ [] → PathText t ss := by
  induction h with
  | nil => intro ss _ h; exact absurd rfl h
  | cons t p u ps ht hu ih =>
    intro ss h _
    unfold partsToSteps at h
    have key : ∃ s ss', ss = s :: ss' ∧ StepText t s ∧ partsToSteps ps = some ss' := by
      rcases ht with ⟨-, hk, hall, rfl⟩ | ⟨hk, hi, hall, rfl⟩
      · rw [if_pos hk] at h
        cases hp : partsToSteps ps with
        | none => rw [hp] at h; simp at h
        | some ss' =>
          rw [hp] at h
          simp at h
          exact ⟨_, _, h.symm, ⟨hk, fun c hc => (isKeyChar_iff c).mp (hall c hc), rfl⟩, rfl⟩
      · rw [if_neg (by simp [hk])] at h
        simp only at h
        split at h
        · cases h
        · rename_i hf
          cases hp : partsToSteps ps with
          | none => rw [hp] at h; simp at h
          | some ss' =>
            rw [hp] at h
            simp at h
            have := (stringTo_digits hi hall (Conv.stringTo .int p.index 0).target).mp (by
              cases hr : Conv.stringTo .int p.index 0 with
              | mk a b => rw [hr] at hf; simp at hf; rw [hf])
            exact ⟨_, _, h.symm, ⟨p.index, hi, hall, rfl, this.1, this.2⟩, rfl⟩
    obtain ⟨s, ss', rfl, hs, hp⟩ := key
    cases hu with
    | nil =>
      simp [partsToSteps] at hp; subst hp
      rw [List.append_nil]; exact .one _ _ hs
    | cons t' p' u' ps' ht' hu' =>
      exact .more _ _ _ _ hs (ih hp (by simp))

theorem partsToSteps_complete {t : List Char} {ss : List Step} (h : PathText t ss) :
    ∃ ps, ps ≠ [] ∧ PartsText t ps ∧ partsToSteps ps = some ss := by
  have step : ∀ {t s}, StepText t s → ∃ p, PartText t p ∧ ∀ ps ss, partsToSteps ps = some ss → partsToSteps (p :: ps) = some (s :: ss) := by
    intro t s hs
    cases s with
    | key k =>
      obtain ⟨hk, hall, rfl⟩ := hs
      refine ⟨⟨k, []⟩, .inl ⟨rfl, hk, fun c hc => (isKeyChar_iff c).mpr (hall c hc), rfl⟩, ?_⟩
      intro ps ss h
      simp [partsToSteps, hk, h]
    | idx n =>
      obtain ⟨ds, hne, hd, rfl, hn, hle⟩ := hs
      refine ⟨⟨[], ds⟩, .inr ⟨rfl, hne, hd, rfl⟩, ?_⟩
      intro ps ss h
      have := (stringTo_digits hne hd n).mpr ⟨hn, hle⟩
      unfold partsToSteps
      rw [if_neg (by simp)]
      simp [this, h]
  induction h with
  | one t s hs =>
    obtain ⟨p, hp, hq⟩ := step hs
    exact ⟨[p], by simp, by simpa using PartsText.cons _ _ _ _ hp .nil, hq [] [] rfl⟩
  | more t s u ss hs hu ih =>
    obtain ⟨p, hp, hq⟩ := step hs
    obtain ⟨ps, -, h1, h2⟩ := ih
    exact ⟨p :: ps, by simp, .cons _ _ _ _ hp h1, hq _ _ h2⟩

theorem parsePath_iff (p : List Char) (ss : List Step) : parsePath p = some ss ↔ PathText p ss := by
  constructor
  · intro h
    unfold parsePath at h
    split at h
    · cases h
    · rename_i h1
      split at h
      · cases h
      · rename_i h2
        exact partsToSteps_sound (findAll_sound p.length p (Nat.le_refl _) (by simpa using h1)) h h2
  · intro h
    obtain ⟨ps, h0, h1, h2⟩ := partsToSteps_complete h
    unfold parsePath
    rw [findAll_complete h1]
    simp [h0, h2]

theorem lookup_mem {kvs : List (List Char × JVal)} (h : (kvs.map Prod.fst).Nodup) (k : List Char) (u : JVal) :
    kvs.lookup k = some u ↔ (k, u) ∈ kvs := by
  induction kvs with
  | nil => simp
  | cons kv kvs ih =>
    obtain ⟨k', u'⟩ := kv
    simp only [List.map_cons, List.nodup_cons] at h
    rw [List.lookup_cons]
    by_cases hk : k = k'
    · subst hk
      simp only [beq_self_eq_true, List.mem_cons, Prod.mk.injEq, true_and]
      constructor
      · intro e; cases e; exact .inl rfl
      · rintro (rfl | hm)
        · rfl
        · exact absurd (List.mem_map_of_mem (f := Prod.fst) hm) h.1
    · have : (k == k') = false := by simpa using hk
      rw [this]
      simp only [List.mem_cons, Prod.mk.injEq, hk, false_and, false_or]
      exact ih h.2

theorem lookup_iff : ∀ (ss : List Step) (v u : JVal), DistinctKeys v → (∀ n, Step.idx n ∈ ss → 0 ≤ n) → (lookup ss v = some u ↔ At v ss u) := by
  intro ss
  induction ss with
  | nil =>
    intro v u _ _
    simp only [lookup, Option.some.injEq]
    constructor
    · rintro rfl; exact .here _
    · intro h; cases h; rfl
  | cons s ss ih =>
    intro v u hv hn
    have hn' : ∀ n, Step.idx n ∈ ss → 0 ≤ n := fun n h => hn n (by simp [h])
    cases s with
    | key k =>
      constructor
      · intro h
        unfold lookup at h
        split at h
        · rename_i kvs
          split at h
          · rename_i w hw
            cases hv with
            | obj _ h1 h2 =>
              have hm := (lookup_mem h1 k w).mp hw
              exact .key _ _ _ _ _ hm ((ih w u (h2 _ hm) hn').mp h)
          · cases h
        · cases h
      · intro h
        cases h with
        | key kvs _ w _ _ hm hr =>
          cases hv with
          | obj _ h1 h2 =>
            unfold lookup
            simp only [(lookup_mem h1 k w).mpr hm]
            exact (ih w u (h2 _ hm) hn').mpr hr
    | idx n =>
      constructor
      · intro h
        unfold lookup at h
        split at h
        · rename_i vs
          split at h
          · split at h
            · rename_i w hw
              cases hv with
              | arr _ h2 =>
                have := At.idx vs n.toNat w ss u hw ((ih w u (h2 _ (List.mem_of_getElem? hw)) hn').mp h)
                rwa [Int.toNat_of_nonneg (hn n (by simp))] at this
            · cases h
          · cases h
        · cases h
      · intro h
        cases h with
        | idx vs i w _ _ hm hr =>
          cases hv with
          | arr _ h2 =>
            unfold lookup
            have hl := (List.getElem?_eq_some_iff.mp hm).1
            simp only
            rw [if_pos (by omega)]
            simp only [Int.toNat_natCast, hm]
            exact (ih w u (h2 _ (List.mem_of_getElem? hm)) hn').mpr hr

theorem pathText_idx {t : List Char} {ss : List Step} (h : PathText t ss) : ∀ n, Step.idx n ∈ ss → 0 ≤ n := by
  have step : ∀ {t n}, StepText t (.idx n) → 0 ≤ n := by
    rintro t n ⟨ds, -, -, -, rfl, -⟩; omega
  induction h with
  | one t s hs => intro n hn; rw [List.mem_singleton] at hn; subst hn; exact step hs
  | more t s u ss hs _ ih =>
    intro n hn
    rcases List.mem_cons.mp hn with rfl | hn
    · exact step hs
    · exact ih n hn

/-! ### Writing -/

theorem writesAll_append_ok {σ : Type} {w : W σ} {s s' s'' : σ} {a b : List (List Char)} {r : Option Err}
    (h1 : WritesAll w s a none s') (h2 : WritesAll w s' b r s'') : WritesAll w s (a ++ b) r s'' := by
  generalize hn : (none : Option Err) = n at h1
  induction h1 with
  | done s => exact h2
  | next s c s' cs r s'' hw _ ih => exact .next _ _ _ _ _ _ hw (ih h2 hn)
  | fail s c e s' cs hw => cases hn

theorem writesAll_append_err {σ : Type} {w : W σ} {s s' : σ} {a : List (List Char)} (b : List (List Char)) {e : Err}
    (h1 : WritesAll w s a (some e) s') : WritesAll w s (a ++ b) (some e) s' := by
  generalize hn : (some e : Option Err) = n at h1
  induction h1 with
  | done s => cases hn
  | next s c s' cs r s'' hw _ ih => exact .next _ _ _ _ _ _ hw (ih hn)
  | fail s c e s' cs hw => exact .fail _ _ _ _ _ hw

theorem writesAll_one {σ : Type} {w : W σ} {s : σ} {c : List Char} : WritesAll w s [c] (w s c).1 (w s c).2 := by
  rcases h : w s c with ⟨r, s'⟩
  cases r with
  | none => exact .next _ _ _ _ _ _ h (.done _)
  | some e => exact .fail _ _ _ _ _ h

theorem writesAll_unique {σ : Type} {w : W σ} {s s1 s2 : σ} {cs : List (List Char)} {r1 r2 : Option Err}
    (h1 : WritesAll w s cs r1 s1) (h2 : WritesAll w s cs r2 s2) : r1 = r2 ∧ s1 = s2 := by
  induction h1 with
  | done s => cases h2; exact ⟨rfl, rfl⟩
  | next s c s' cs r s'' hw _ ih =>
    cases h2 with
    | next _ _ t' _ _ _ hw' h => rw [hw] at hw'; cases hw'; exact ih h
    | fail _ _ e t' _ hw' => rw [hw] at hw'; cases hw'
  | fail s c e s' cs hw =>
    cases h2 with
    | next _ _ t' _ _ _ hw' h => rw [hw] at hw'; cases hw'
    | fail _ _ e t' _ hw' => rw [hw] at hw'; cases hw'; exact ⟨rfl, rfl⟩

mutual
theorem writeTo_all {σ : Type} (w : W σ) : ∀ (v : JVal) (s : σ), WritesAll w s (writeChunks v) (writeTo w s v).1 (writeTo w s v).2
  | .obj kvs, s => by
    have hf := fun s => fieldsTo_all w kvs s 0
    simp only [writeTo, writeChunks]
    rcases h : w s ['{'] with ⟨r, s1⟩
    cases r with
    | some e => exact .fail _ _ _ _ _ h
    | none =>
      refine .next _ _ _ _ _ _ h ?_
      have := hf s1
      simp only [decide_true] at this
      rcases h2 : fieldsTo w s1 0 kvs with ⟨r2, s2⟩
      rw [h2] at this
      simp only [h2]
      cases r2 with
      | some e => exact writesAll_append_err _ this
      | none => exact writesAll_append_ok this writesAll_one
  | .arr vs, s => by
    have hf := fun s => elemsTo_all w vs s 0
    simp only [writeTo, writeChunks]
    rcases h : w s ['['] with ⟨r, s1⟩
    cases r with
    | some e => exact .fail _ _ _ _ _ h
    | none =>
      refine .next _ _ _ _ _ _ h ?_
      have := hf s1
      simp only [decide_true] at this
      rcases h2 : elemsTo w s1 0 vs with ⟨r2, s2⟩
      rw [h2] at this
      simp only [h2]
      cases r2 with
      | some e => exact writesAll_append_err _ this
      | none => exact writesAll_append_ok this writesAll_one
  | .str t, s => by simp only [writeTo, writeChunks]; exact writesAll_one
  | .num t, s => by simp only [writeTo, writeChunks]; exact writesAll_one
  | .bool t, s => by simp only [writeTo, writeChunks]; exact writesAll_one
  | .null, s => by simp only [writeTo, writeChunks]; exact writesAll_one
  | .invalid, s => by simp only [writeTo, writeChunks]; exact writesAll_one
termination_by v => sizeOf v

theorem fieldsTo_all {σ : Type} (w : W σ) : ∀ (kvs : List (List Char × JVal)) (s : σ) (i : Nat),
    WritesAll w s (writeFields (decide (i = 0)) kvs) (fieldsTo w s i kvs).1 (fieldsTo w s i kvs).2
  | [], s, i => by simp only [fieldsTo, writeFields]; exact .done _
  | (k, v) :: kvs, s, i => by
    have hv := fun s => writeTo_all w v s
    have hk := fun s => fieldsTo_all w kvs s (i + 1)
    have e : (if decide (i = 0) = true then [] else [',']) = (if i > 0 then [','] else ([] : List Char)) := by
      by_cases h : i = 0 <;> simp [h]
    simp only [fieldsTo, writeFields, List.cons_append]
    rw [e]
    rcases h : w s ((if i > 0 then [','] else []) ++ ['"'] ++ k ++ ['"', ':']) with ⟨r, s1⟩
    cases r with
    | some e => exact .fail _ _ _ _ _ h
    | none =>
      refine .next _ _ _ _ _ _ h ?_
      have h1 := hv s1
      rcases h2 : writeTo w s1 v with ⟨r2, s2⟩
      rw [h2] at h1
      simp only [h2]
      cases r2 with
      | some e => exact writesAll_append_err _ h1
      | none =>
        have h3 := hk s2
        simp only [Nat.add_eq_zero_iff, one_ne_zero, and_false, decide_false] at h3
        exact writesAll_append_ok h1 h3
termination_by kvs => sizeOf kvs

theorem elemsTo_all {σ : Type} (w : W σ) : ∀ (vs : List JVal) (s : σ) (i : Nat),
    WritesAll w s (writeElems (decide (i = 0)) vs) (elemsTo w s i vs).1 (elemsTo w s i vs).2
  | [], s, i => by simp only [elemsTo, writeElems]; exact .done _
  | v :: vs, s, i => by
    have hv := fun s => writeTo_all w v s
    have hk := fun s => elemsTo_all w vs s (i + 1)
    have tail : ∀ s1, WritesAll w s1 (writeChunks v ++ writeElems false vs)
        (match writeTo w s1 v with | (some e, s) => (some e, s) | (none, s) => elemsTo w s (i + 1) vs).1
        (match writeTo w s1 v with | (some e, s) => (some e, s) | (none, s) => elemsTo w s (i + 1) vs).2 := by
      intro s1
      have h1 := hv s1
      rcases h2 : writeTo w s1 v with ⟨r2, s2⟩
      rw [h2] at h1
      cases r2 with
      | some e => exact writesAll_append_err _ h1
      | none =>
        have h3 := hk s2
        simp only [Nat.add_eq_zero_iff, one_ne_zero, and_false, decide_false] at h3
        exact writesAll_append_ok h1 h3
    simp only [elemsTo, writeElems]
    by_cases hi : i = 0
    · subst hi
      have t := tail s
      rcases h2 : writeTo w s v with ⟨r2, s2⟩
      rw [h2] at t
      cases r2 <;> simpa [h2] using t
    · rw [if_neg (by simpa using hi), if_pos (by omega)]
      simp only [List.cons_append, List.nil_append]
      rcases h : w s [','] with ⟨r, s1⟩
      cases r with
      | some e => exact .fail _ _ _ _ _ h
      | none => exact .next _ _ _ _ _ _ h (tail s1)
termination_by vs => sizeOf vs
end

end Micro.Json
