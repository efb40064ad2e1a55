import Verif.Funcs.FloatKeyModel
import Verif.Funcs.HistoryProps
import Verif.Funcs.MapModel
import Mathlib.Data.Rat.Defs
import Mathlib.Order.WithBot
import Mathlib.Algebra.Order.Ring.Rat
set_option linter.unusedSimpArgs false
/-
C132: floats as keys and elements.
-/
namespace Micro.Funcs
open Micro

variable {K V : Type}

/-- A type with Go's comparison operators of which the values satisfying `ok` are in linear order, by way of `g`. -/
structure OrderedBy (K L : Type) [GoOrdered K] [LinearOrder L] (ok : K → Prop) where
  g : K → L
  lt_iff : ∀ a b, ok a → ok b → (GoOrdered.lt a b = true ↔ g a < g b)
  eq_iff : ∀ a b, ok a → ok b → (GoOrdered.eq a b = true ↔ g a = g b)

/-- The slice with its keys replaced by their images. -/
def imageKeys {L : Type} (g : K → L) (mp : List (K × V)) : List (L × V) := mp.map (fun e => (g e.1, e.2))

theorem searchLoopGo_image {L : Type} [GoOrdered K] [LinearOrder L] {ok : K → Prop} (o : OrderedBy K L ok) (mp : List (K × V)) (hm : ∀ e ∈ mp, ok e.1)
    (key : K) (hk : ok key) (n : Nat) : ∀ l r, r - l ≤ n → searchLoopGo mp key l r = searchLoop (imageKeys o.g mp) (o.g key) l r := by
  have base : ∀ l r, ¬ l < r → searchLoopGo mp key l r = searchLoop (imageKeys o.g mp) (o.g key) l r := by
    intro l r h
    rw [searchLoopGo, searchLoop, dif_neg h, dif_neg h]
    by_cases hlr : l = r
    · simp only [hlr, if_true, imageKeys, List.getElem?_map]
      rcases he : mp[r]? with _ | e
      · rfl
      · have := o.eq_iff key e.1 hk (hm e (List.mem_of_getElem? he))
        simp only [Option.map_some]
        congr 2
        rw [Bool.eq_iff_iff, this]; simp
    · simp [hlr]
  induction n with
  | zero => intro l r hn; exact base l r (by omega)
  | succ n ih =>
    intro l r hn
    by_cases h : l < r
    · have hmid : l < mid l r ∧ mid l r ≤ r := by unfold mid; split <;> omega
      rw [searchLoopGo, searchLoop, dif_pos h, dif_pos h]
      simp only [imageKeys, List.getElem?_map]
      rcases he : mp[mid l r]? with _ | e
      · rfl
      · have hlt := o.lt_iff key e.1 hk (hm e (List.mem_of_getElem? he))
        simp only [Option.map_some]
        by_cases hc : o.g key < o.g e.1
        · rw [if_pos (hlt.mpr hc), if_pos hc]
          exact ih _ _ (by omega)
        · rw [if_neg (mt hlt.mp hc), if_neg hc]
          exact ih _ _ (by omega)
    · exact base l r h

theorem searchGo_image {L : Type} [GoOrdered K] [LinearOrder L] {ok : K → Prop} (o : OrderedBy K L ok) (mp : List (K × V)) (hm : ∀ e ∈ mp, ok e.1)
    (key : K) (hk : ok key) : searchGo mp key = search (imageKeys o.g mp) (o.g key) := by
  unfold searchGo search
  rw [searchLoopGo_image o mp hm key hk _ _ _ (le_refl _)]
  simp [imageKeys]

/-- Numbers and infinities in their order. -/
def fltRank : Conv.Flt → WithBot (WithTop ℚ)
  | .nan => ⊥
  | .inf true => ⊥
  | .inf false => ((⊤ : WithTop ℚ) : WithBot (WithTop ℚ))
  | .fin q => ((q : WithTop ℚ) : WithBot (WithTop ℚ))

/-- Floats that are not NaN are linearly ordered. -/
def fltOrdered : OrderedBy Conv.Flt (WithBot (WithTop ℚ)) (fun x => x ≠ .nan) where
  g := fltRank
  lt_iff a b ha hb := by
    rcases a with _ | (_ | _) | a <;> rcases b with _ | (_ | _) | b <;> simp_all [fltRank, GoOrdered.lt, WithBot.coe_lt_coe, WithTop.coe_lt_coe, WithTop.coe_lt_top]
    first | exact WithBot.coe_lt_coe.mpr (WithTop.coe_lt_top _) | exact WithBot.bot_lt_coe _
  eq_iff a b ha hb := by
    rcases a with _ | (_ | _) | a <;> rcases b with _ | (_ | _) | b <;> simp_all [fltRank, GoOrdered.eq]

/-- C132: while neither the key nor the keys present are NaN, the ordered tuple slices with float keys work as over the real numbers with both
infinities: search, addition and removal correspond to those of C44. -/
theorem c132_ordinary (mp : List (Conv.Flt × List V)) (key : Conv.Flt) (value : V) (hm : ∀ e ∈ mp, e.1 ≠ .nan) (hk : key ≠ .nan) :
    searchGo mp key = search (imageKeys fltRank mp) (fltRank key) ∧
    (orderedAddGo mp key value).map (imageKeys fltRank) = orderedAdd (imageKeys fltRank mp) (fltRank key) value ∧
    (orderedRemoveKeyGo mp key).map (imageKeys fltRank) = orderedRemoveKey (imageKeys fltRank mp) (fltRank key) := by
  have hs := searchGo_image fltOrdered mp hm key hk
  change searchGo mp key = search (imageKeys fltRank mp) (fltRank key) at hs
  refine ⟨hs, ?_, ?_⟩
  · unfold orderedAddGo orderedAdd
    rw [hs]
    rcases search (imageKeys fltRank mp) (fltRank key) with _ | ⟨_ | i, _ | _⟩
    · rfl
    · rfl
    · rfl
    · simp [imageKeys]
    · simp only [imageKeys, List.getElem?_map]
      rcases mp[i]? with _ | e
      · rfl
      · simp [imageKeys, List.map_set]
  · unfold orderedRemoveKeyGo orderedRemoveKey
    rw [hs]
    rcases search (imageKeys fltRank mp) (fltRank key) with _ | ⟨_ | i, _ | _⟩ <;> simp [imageKeys]

example : imageKeys (V := Nat) fltRank [(.inf true, 1), (.fin (1/2), 2), (.inf false, 3)] =
    [((⊥ : WithBot (WithTop ℚ)), 1), ((((1/2 : ℚ) : WithTop ℚ) : WithBot (WithTop ℚ)), 2), (((⊤ : WithTop ℚ) : WithBot (WithTop ℚ)), 3)] := rfl

/-! ### NaN -/

theorem lt_nan (x : Conv.Flt) : GoOrdered.lt x Conv.Flt.nan = false ∧ GoOrdered.lt Conv.Flt.nan x = false ∧
    GoOrdered.eq x Conv.Flt.nan = false ∧ GoOrdered.eq Conv.Flt.nan x = false := by
  rcases x with _ | (_ | _) | _ <;> simp [GoOrdered.lt, GoOrdered.eq]

theorem searchLoopGo_nan (mp : List (Conv.Flt × V)) (n : Nat) : ∀ l r, r - l ≤ n → l ≤ r → r < mp.length →
    searchLoopGo mp .nan l r = some (r, false) := by
  induction n with
  | zero =>
    intro l r hn hlr hr
    obtain rfl : l = r := by omega
    rw [searchLoopGo]; simp [hr, (lt_nan _).2.2.2]
  | succ n ih =>
    intro l r hn hlr hr
    by_cases h : l < r
    · have hm : mid l r < mp.length ∧ l < mid l r ∧ mid l r ≤ r := by unfold mid; split <;> omega
      rw [searchLoopGo, dif_pos h, List.getElem?_eq_getElem hm.1]
      simp only [(lt_nan _).2.1, Bool.false_eq_true, if_false]
      exact ih _ _ (by omega) (by omega) hr
    · obtain rfl : l = r := by omega
      rw [searchLoopGo]; simp [hr, (lt_nan _).2.2.2]

/-- C132: a NaN key is never found: each addition appends an entry of its own at the end, and removals do nothing. -/
theorem c132_nan_key (mp : List (Conv.Flt × List V)) (value : V) :
    (∃ i, searchGo mp Conv.Flt.nan = some (i, false)) ∧
    orderedAddGo mp .nan value = some (mp ++ [(.nan, [value])]) ∧
    orderedRemoveKeyGo mp .nan = some mp := by
  cases mp with
  | nil => exact ⟨⟨none, rfl⟩, rfl, rfl⟩
  | cons e t =>
    have hs : searchGo (e :: t) Conv.Flt.nan = some (some t.length, false) := by
      unfold searchGo
      rw [if_neg (by simp), searchLoopGo_nan _ _ _ _ (le_refl _) (by omega) (by simp)]
      rfl
    refine ⟨⟨_, hs⟩, ?_, ?_⟩
    · unfold orderedAddGo; rw [hs]; simp
    · unfold orderedRemoveKeyGo; rw [hs]

theorem searchLoopGo_sound [GoOrdered K] (mp : List (K × V)) (key : K) (n : Nat) : ∀ l r, r - l ≤ n → l ≤ r → r < mp.length →
    ∃ i e, searchLoopGo mp key l r = some (i, GoOrdered.eq key e.1) ∧ mp[i]? = some e := by
  have base : ∀ l, l < mp.length → ∃ i e, searchLoopGo mp key l l = some (i, GoOrdered.eq key e.1) ∧ mp[i]? = some e := by
    intro l hl
    refine ⟨l, mp[l], ?_, List.getElem?_eq_getElem hl⟩
    rw [searchLoopGo]
    simp [hl]
  induction n with
  | zero =>
    intro l r hn hlr hr
    obtain rfl : l = r := by omega
    exact base l hr
  | succ n ih =>
    intro l r hn hlr hr
    by_cases h : l < r
    · have hm : mid l r < mp.length ∧ l < mid l r ∧ mid l r ≤ r := by unfold mid; split <;> omega
      rw [searchLoopGo, dif_pos h, List.getElem?_eq_getElem hm.1]
      by_cases hc : GoOrdered.lt key mp[mid l r].1 = true
      · simp only [hc, if_true]
        exact ih _ _ (by omega) (by omega) (by omega)
      · simp only [hc]
        exact ih _ _ (by omega) (by omega) hr
    · obtain rfl : l = r := by omega
      exact base l hr

theorem searchGo_sound [GoOrdered K] (mp : List (K × V)) (key : K) (hne : mp ≠ []) :
    ∃ pre e post, mp = pre ++ e :: post ∧ searchGo mp key = some (some pre.length, GoOrdered.eq key e.1) := by
  have hl : 0 < mp.length := List.length_pos_iff.mpr hne
  obtain ⟨i, e, h1, h2⟩ := searchLoopGo_sound mp key (mp.length - 1) 0 (mp.length - 1) (by omega) (by omega) (by omega)
  obtain ⟨hi, rfl⟩ := List.getElem?_eq_some_iff.mp h2
  refine ⟨mp.take i, mp[i], mp.drop (i + 1), ?_, ?_⟩
  · rw [← List.drop_eq_getElem_cons hi, List.take_append_drop]
  · unfold searchGo
    rw [if_neg (by omega), h1]
    simp [Nat.min_eq_left (Nat.le_of_lt hi)]

/-- C132: nothing is lost or mixed up, whatever NaN keys there are and in whatever order the keys are: SliceAdd returns, and either appends the value to one entry whose key is equal to the given number, or adds
an entry of its own, and leaves all others as they are; RemoveKey returns, and removes nothing or one entry, whose key is equal to the given number. -/
theorem c132_nothing_lost (mp : List (Conv.Flt × List V)) (key : Conv.Flt) (value : V) :
    ((∃ pre vs post, mp = pre ++ (key, vs) :: post ∧ key ≠ .nan ∧ orderedAddGo mp key value = some (pre ++ (key, vs ++ [value]) :: post)) ∨
      ∃ pre post, mp = pre ++ post ∧ orderedAddGo mp key value = some (pre ++ (key, [value]) :: post)) ∧
    (orderedRemoveKeyGo mp key = some mp ∨
      ∃ pre vs post, mp = pre ++ (key, vs) :: post ∧ key ≠ .nan ∧ orderedRemoveKeyGo mp key = some (pre ++ post)) := by
  by_cases hne : mp = []
  · subst hne
    exact ⟨.inr ⟨[], [], rfl, rfl⟩, .inl rfl⟩
  obtain ⟨pre, e, post, rfl, hs⟩ := searchGo_sound mp key hne
  obtain ⟨k, vs⟩ := e
  unfold orderedAddGo orderedRemoveKeyGo
  rw [hs]
  cases hb : GoOrdered.eq key k with
  | true =>
    have hk : key = k ∧ key ≠ .nan := by
      cases key <;> cases k <;> simp_all [GoOrdered.eq]
    obtain ⟨rfl, hn⟩ := hk
    refine ⟨.inl ⟨pre, vs, post, rfl, hn, ?_⟩, .inr ⟨pre, vs, post, rfl, hn, ?_⟩⟩
    · simp
    · simp
  | false =>
    refine ⟨.inr ⟨pre ++ [(k, vs)], post, by simp, ?_⟩, .inl rfl⟩
    simp [List.take_append, List.drop_append, List.take_of_length_le (Nat.le_succ pre.length), List.drop_eq_nil_of_le (Nat.le_succ pre.length)]

/-- C132 is false with NaN: once a NaN key is present, adding 1 twice under the key 1 to a slice that has the key 1 makes a new entry instead of
appending to it, so the key occurs twice, and RemoveKey leaves one of them. -/
theorem c132_nan_refuted :
    orderedAddGo [(.fin 1, [10]), (Conv.Flt.nan, [20])] (.fin 1) 11 = some [(.fin 1, [10]), (.nan, [20]), (.fin 1, [11])] ∧
    orderedRemoveKeyGo [(.fin 1, [10]), (Conv.Flt.nan, [20]), (.fin 1, [11])] (.fin 1) = some [(.fin 1, [10]), (.nan, [20])] ∧
    (∃ i, searchGo [(.fin 1, [10]), (Conv.Flt.nan, [20])] (.fin 1) = some (i, false)) := by
  have h1 : searchGo [(.fin 1, [10]), (Conv.Flt.nan, [20])] (.fin 1) = some (some 1, false) := by
    unfold searchGo
    rw [searchLoopGo]
    simp [mid, GoOrdered.lt]
    rw [searchLoopGo]
    simp [GoOrdered.eq]
  have h2 : searchGo [(.fin 1, [10]), (Conv.Flt.nan, [20]), (.fin 1, [11])] (.fin 1) = some (some 2, true) := by
    unfold searchGo
    rw [searchLoopGo]
    simp [mid, GoOrdered.lt]
    rw [searchLoopGo]
    simp [mid, GoOrdered.lt]
    rw [searchLoopGo]
    simp [GoOrdered.eq]
  refine ⟨?_, ?_, ⟨_, h1⟩⟩
  · unfold orderedAddGo; rw [h1]; rfl
  · unfold orderedRemoveKeyGo; rw [h2]; rfl

/-- Non-vacuity of c132_nothing_lost: 1 is not found beside a NaN and gets a second entry; the one behind it is found. -/
example : orderedAddGo [(.fin 1, [10]), (Conv.Flt.nan, [20])] (.fin 1) 11 = some ([(.fin 1, [10]), (.nan, [20])] ++ (.fin 1, [11]) :: []) ∧
    orderedRemoveKeyGo [(.fin 1, [10]), (Conv.Flt.nan, [20]), (.fin 1, [11])] (.fin 1) = some ([(.fin 1, [10]), (.nan, [20])] ++ []) :=
  ⟨c132_nan_refuted.1, c132_nan_refuted.2.1⟩

/-- C132: SliceRemove never removes a NaN, and In never finds one; apart from that they compare numbers: an element that is removed or found is equal
to the value as a number. Without the last argument SliceRemove removes one. -/
theorem c132_elements (slc : List Conv.Flt) (val : Conv.Flt) (all : Bool) :
    (sliceRemoveGo slc .nan [all] = slc ∧ sliceRemoveGo slc val [] = sliceRemoveGo slc val [false]) ∧ (inGo slc .nan = false) ∧
    (sliceRemoveGo slc val [true] = slc.filter (fun x => !(decide (x ≠ .nan ∧ x = val)))) ∧
    (sliceRemoveGo slc val [false] = slc.eraseP (fun x => decide (x ≠ .nan ∧ x = val))) ∧
    (inGo slc val = true ↔ val ≠ .nan ∧ val ∈ slc) := by
  have heq : ∀ a b : Conv.Flt, GoOrdered.eq a b = decide (a ≠ .nan ∧ a = b) := by
    intro a b
    rcases a with _ | (_ | _) | a <;> rcases b with _ | (_ | _) | b <;> simp [GoOrdered.eq]
  have hin : ∀ (slc : List Conv.Flt) (val : Conv.Flt), inGo slc val = true ↔ val ≠ .nan ∧ val ∈ slc := by
    intro slc val
    induction slc with
    | nil => simp [inGo]
    | cons a t ih =>
      simp only [inGo, heq]
      by_cases h : val ≠ .nan ∧ val = a
      · rw [if_pos (by simpa using h)]; exact ⟨fun _ => ⟨h.1, by simp [h.2]⟩, fun _ => rfl⟩
      · rw [if_neg (by simpa using h), ih]
        constructor
        · rintro ⟨h1, h2⟩; exact ⟨h1, by simp [h2]⟩
        · rintro ⟨h1, h2⟩
          rcases List.mem_cons.mp h2 with h2 | h2
          · exact absurd ⟨h1, h2⟩ h
          · exact ⟨h1, h2⟩
  have hfun : ∀ val : Conv.Flt, (fun t => GoOrdered.eq t val) = fun x => decide (x ≠ .nan ∧ x = val) := fun val => funext fun x => heq x val
  have hall : ∀ val : Conv.Flt, sliceRemoveGo slc val [true] = slc.filter (fun x => !(decide (x ≠ .nan ∧ x = val))) := by
    intro val; simp [sliceRemoveGo, sliceIndex, removeAll_eq, hfun]
  have hone : ∀ val : Conv.Flt, sliceRemoveGo slc val [false] = slc.eraseP (fun x => decide (x ≠ .nan ∧ x = val)) := by
    intro val; simp [sliceRemoveGo, sliceIndex, removeFirst_eq, hfun]
  refine ⟨⟨?_, by simp [sliceRemoveGo, sliceIndex]⟩, ?_, hall val, hone val, hin slc val⟩
  · cases all
    · rw [hone, List.eraseP_of_forall_not]; intro a _; simp
    · rw [hall, List.filter_eq_self]; intro a _; simp
  · have := hin slc .nan
    cases h : inGo slc .nan with
    | false => rfl
    | true => rw [h] at this; simp at this

example : sliceRemoveGo [.fin 1, .nan, .fin 2, .fin 1] (Conv.Flt.fin 1) [true] = [.nan, .fin 2] := by
  rw [(c132_elements _ _ true).2.2.1]; rfl

end Micro.Funcs
