import Verif.Regex.Spec
/-
Lemmas about regular expressions.
-/
namespace Micro.Regex
variable {α : Type} [Sym α]
set_option linter.unusedSimpArgs false
set_option linter.unusedSectionVars false

/-! ### The order-free meaning -/

theorem one_nil (p : α → Bool) : one p [] = [] := rfl

theorem one_cons (p : α → Bool) (c : α) (s : List α) : one p (c :: s) = if p c then [⟨[c], s, []⟩] else [] := rfl

theorem isEmpty_append' (v w : List α) : (v ++ w).isEmpty = (v.isEmpty && w.isEmpty) := by cases v <;> simp

/-- The hits are what the relation allows. -/
def Agrees (f : Bool → List α → List (Hit α)) (L : Bool → List α → List α → Prop) : Prop :=
  ∀ bg s u t, (∃ r ∈ f bg s, r.txt = u ∧ r.rest = t) ↔ (s = u ++ t ∧ L bg u t)

theorem agrees_one (p : α → Bool) : Agrees (fun _ => one p) (fun _ u _ => ∃ x, u = [x] ∧ p x = true) := by
  intro bg s u t
  cases s with
  | nil =>
    simp only [one]
    constructor
    · rintro ⟨r, hr, _⟩; cases hr
    · rintro ⟨h, x, rfl, _⟩; simp at h
  | cons c s =>
    simp only [one]
    by_cases hp : p c = true
    · simp only [hp, if_true, List.mem_singleton, exists_eq_left]
      constructor
      · rintro ⟨rfl, rfl⟩; exact ⟨rfl, c, rfl, hp⟩
      · rintro ⟨h, x, rfl, _⟩; simp at h; simp [h]
    · simp only [hp, if_false, Bool.false_eq_true]
      constructor
      · rintro ⟨r, hr, _⟩; cases hr
      · rintro ⟨h, x, rfl, h2⟩; simp at h; rw [← h.1] at h2; exact absurd h2 hp

theorem agrees_andThen {f g : Bool → List α → List (Hit α)} {L M : Bool → List α → List α → Prop} (hf : Agrees f L) (hg : Agrees g M) :
    Agrees (andThen f g) (fun bg u t => ∃ v w, u = v ++ w ∧ L bg v (w ++ t) ∧ M (bg && v.isEmpty) w t) := by
  intro bg s u t
  simp only [andThen, List.mem_flatMap, List.mem_map]
  constructor
  · rintro ⟨_, ⟨r, hr, q, hq, rfl⟩, rfl, rfl⟩
    obtain ⟨h1, h2⟩ := (hf bg s r.txt r.rest).1 ⟨r, hr, rfl, rfl⟩
    obtain ⟨h3, h4⟩ := (hg _ r.rest q.txt q.rest).1 ⟨q, hq, rfl, rfl⟩
    refine ⟨by rw [h1, h3]; simp, r.txt, q.txt, rfl, by rw [← h3]; exact h2, h4⟩
  · rintro ⟨rfl, v, w, rfl, h1, h2⟩
    obtain ⟨r, hr, hrt, hrr⟩ := (hf bg ((v ++ w) ++ t) v (w ++ t)).2 ⟨by simp, h1⟩
    obtain ⟨q, hq, hqt, hqr⟩ := (hg (bg && v.isEmpty) (w ++ t) w t).2 ⟨rfl, h2⟩
    exact ⟨_, ⟨r, hr, q, by rw [hrt, hrr]; exact hq, rfl⟩, by simp [hrt, hqt], hqr⟩

theorem agrees_done : Agrees (fun _ (s : List α) => [⟨[], s, []⟩]) (fun _ u _ => u = []) := by
  intro bg s u t
  simp only [List.mem_singleton, exists_eq_left]
  constructor
  · rintro ⟨rfl, rfl⟩; simp
  · rintro ⟨rfl, rfl⟩; simp

theorem agrees_times {f : Bool → List α → List (Hit α)} {L : Bool → List α → List α → Prop} (hf : Agrees f L) (n : Nat) :
    Agrees (times f n) (Times L n) := by
  induction n with
  | zero => exact agrees_done
  | succ n ih => exact agrees_andThen hf ih

/-- At most n texts, none of them empty. -/
theorem agrees_upTo {f : Bool → List α → List (Hit α)} {L : Bool → List α → List α → Prop} (hf : Agrees f L) (n : Nat) :
    Agrees (upTo f n) (fun bg u t => ∃ k ≤ n, Times (fun bg u t => L bg u t ∧ u ≠ []) k bg u t) := by
  have hf' : Agrees (fun bg s => (f bg s).filter fun r => !r.txt.isEmpty) (fun bg u t => L bg u t ∧ u ≠ []) := by
    intro bg s u t
    have := hf bg s u t
    simp only [List.mem_filter]
    constructor
    · rintro ⟨r, ⟨hr, hne⟩, rfl, rfl⟩
      obtain ⟨h1, h2⟩ := this.1 ⟨r, hr, rfl, rfl⟩
      exact ⟨h1, h2, by simpa using hne⟩
    · rintro ⟨h1, h2, h3⟩
      obtain ⟨r, hr, rfl, rfl⟩ := this.2 ⟨h1, h2⟩
      exact ⟨r, ⟨hr, by simpa using h3⟩, rfl, rfl⟩
  induction n with
  | zero =>
    intro bg s u t
    rw [show upTo f 0 bg s = [⟨[], s, []⟩] from rfl]
    have := agrees_done bg s u t
    rw [this]
    constructor
    · rintro ⟨h, rfl⟩; exact ⟨h, 0, Nat.le_refl _, rfl⟩
    · rintro ⟨h, k, hk, h2⟩
      obtain rfl : k = 0 := by omega
      exact ⟨h, h2⟩
  | succ n ih =>
    intro bg s u t
    simp only [upTo, List.mem_append]
    have h1 := agrees_andThen hf' ih bg s u t
    have h2 := agrees_done bg s u t
    constructor
    · rintro ⟨r, hr | hr, hrt, hrr⟩
      · obtain ⟨hs, v, w, huv, hl, k, hk, ht⟩ := h1.1 ⟨r, hr, hrt, hrr⟩
        exact ⟨hs, k + 1, by omega, v, w, huv, hl, ht⟩
      · obtain ⟨hs, hu⟩ := h2.1 ⟨r, hr, hrt, hrr⟩
        exact ⟨hs, 0, by omega, hu⟩
    · rintro ⟨hs, k, hk, ht⟩
      cases k with
      | zero =>
        obtain ⟨r, hr, h⟩ := h2.2 ⟨hs, ht⟩
        exact ⟨r, Or.inr hr, h⟩
      | succ k =>
        obtain ⟨v, w, huv, hl, ht⟩ := ht
        obtain ⟨r, hr, h⟩ := h1.2 ⟨hs, v, w, huv, hl, k, by omega, ht⟩
        exact ⟨r, Or.inl hr, h⟩

theorem mem_upToLazy (f : Bool → List α → List (Hit α)) (n : Nat) (bg : Bool) (s : List α) (r : Hit α) :
    r ∈ upToLazy f n bg s ↔ r ∈ upTo f n bg s := by
  induction n generalizing bg s r with
  | zero => rfl
  | succ n ih =>
    simp only [upToLazy, upTo, andThen, List.mem_cons, List.mem_append, List.mem_flatMap, List.mem_map, ih, List.not_mem_nil, or_false]
    exact Or.comm

/-- Empty texts can be left out of a repetition. -/
theorem times_nonempty {L : Bool → List α → List α → Prop} : ∀ n bg u t, Times L n bg u t →
    ∃ k ≤ n, k ≤ u.length ∧ Times (fun bg u t => L bg u t ∧ u ≠ []) k bg u t := by
  intro n
  induction n with
  | zero => intro bg u t h; exact ⟨0, by omega, by omega, h⟩
  | succ n ih =>
    rintro bg u t ⟨v, w, rfl, hl, ht⟩
    obtain ⟨k, hk, hkl, hk2⟩ := ih _ w t ht
    cases v with
    | nil => exact ⟨k, by omega, by simpa using hkl, by simpa using hk2⟩
    | cons c v => exact ⟨k + 1, by omega, by simp; omega, c :: v, w, rfl, ⟨hl, by simp⟩, hk2⟩

theorem times_weaken {L M : Bool → List α → List α → Prop} (h : ∀ bg u t, L bg u t → M bg u t) : ∀ n bg u t, Times L n bg u t → Times M n bg u t := by
  intro n
  induction n with
  | zero => intro bg u t h; exact h
  | succ n ih => rintro bg u t ⟨v, w, hu, hl, ht⟩; exact ⟨v, w, hu, h _ _ _ hl, ih _ _ _ ht⟩

theorem times_add {L : Bool → List α → List α → Prop} : ∀ n k bg u t,
    Times L (n + k) bg u t ↔ ∃ v w, u = v ++ w ∧ Times L n bg v (w ++ t) ∧ Times L k (bg && v.isEmpty) w t := by
  intro n
  induction n with
  | zero =>
    intro k bg u t
    simp only [Nat.zero_add, Times]
    constructor
    · intro h; exact ⟨[], u, rfl, rfl, by simpa using h⟩
    · rintro ⟨_, w, rfl, rfl, h⟩; simpa using h
  | succ n ih =>
    intro k bg u t
    rw [Nat.add_right_comm]
    simp only [Times]
    constructor
    · rintro ⟨v, w, rfl, hl, ht⟩
      obtain ⟨v2, w2, rfl, h1, h2⟩ := (ih k _ _ _).1 ht
      refine ⟨v ++ v2, w2, by simp, ⟨v, v2, rfl, by simpa using hl, h1⟩, ?_⟩
      simpa [Bool.and_assoc, isEmpty_append'] using h2
    · rintro ⟨_, w2, rfl, ⟨v, v2, rfl, hl, h1⟩, h2⟩
      refine ⟨v, v2 ++ w2, by simp, by simpa using hl, (ih k _ _ _).2 ⟨v2, w2, rfl, h1, ?_⟩⟩
      simpa [Bool.and_assoc, isEmpty_append'] using h2

theorem agrees_congr {f : Bool → List α → List (Hit α)} {L M : Bool → List α → List α → Prop} (h : Agrees f L)
    (hlm : ∀ bg u t, L bg u t ↔ M bg u t) : Agrees f M := by
  intro bg s u t
  rw [h bg s u t, hlm]

/-- As often as there is text. -/
theorem agrees_again {f : Bool → List α → List (Hit α)} {L : Bool → List α → List α → Prop} (hf : Agrees f L)
    {more : Nat → Bool → List α → List (Hit α)} (hm : ∀ n bg s r, r ∈ more n bg s ↔ r ∈ upTo f n bg s) :
    Agrees (fun bg s => more s.length bg s) (fun bg u t => ∃ k, Times L k bg u t) := by
  intro bg s u t
  have h := agrees_upTo hf s.length bg s u t
  simp only [hm]
  rw [h]
  constructor
  · rintro ⟨hs, k, hk, ht⟩
    exact ⟨hs, k, times_weaken (fun _ _ _ h => h.1) _ _ _ _ ht⟩
  · rintro ⟨hs, k, ht⟩
    obtain ⟨k', hk', hkl, hk2⟩ := times_nonempty _ _ _ _ ht
    refine ⟨hs, k', ?_, hk2⟩
    simp [hs]; omega

theorem agrees_plus {f : Bool → List α → List (Hit α)} {L : Bool → List α → List α → Prop} (hf : Agrees f L)
    {more : Bool → List α → List (Hit α)} (hm : Agrees more (fun bg u t => ∃ k, Times L k bg u t)) :
    Agrees (plus f more) (fun bg u t => ∃ k, Times L (k + 1) bg u t) := by
  intro bg s u t
  simp only [plus, List.mem_flatMap]
  constructor
  · rintro ⟨q, ⟨r, hr, hq⟩, rfl, rfl⟩
    obtain ⟨h1, h2⟩ := (hf bg s r.txt r.rest).1 ⟨r, hr, rfl, rfl⟩
    split at hq
    · obtain rfl := List.mem_singleton.1 hq
      exact ⟨h1, 0, q.txt, [], by simp, by simpa using h2, rfl⟩
    · rename_i hne
      obtain ⟨q', hq', rfl⟩ := List.mem_map.1 hq
      obtain ⟨h3, k, h4⟩ := (hm false r.rest q'.txt q'.rest).1 ⟨q', hq', rfl, rfl⟩
      refine ⟨by rw [h1, h3]; simp, k, r.txt, q'.txt, rfl, by rw [← h3]; exact h2, ?_⟩
      rw [show (bg && r.txt.isEmpty) = false by simp_all]
      exact h4
  · rintro ⟨rfl, k, ht⟩
    obtain ⟨k', hk', hkl, hk2⟩ := times_nonempty _ _ _ _ ht
    cases k' with
    | zero =>
      obtain rfl : u = [] := hk2
      obtain ⟨v, w, hvw, hl, -⟩ := ht
      obtain ⟨rfl, rfl⟩ := List.append_eq_nil_iff.1 hvw.symm
      obtain ⟨r, hr, hrt, hrr⟩ := (hf bg ([] ++ t) [] t).2 ⟨rfl, by simpa using hl⟩
      exact ⟨r, ⟨r, hr, by simp [hrt]⟩, hrt, hrr⟩
    | succ k' =>
      obtain ⟨v, w, rfl, ⟨hl, hne⟩, ht'⟩ := hk2
      obtain ⟨r, hr, hrt, hrr⟩ := (hf bg ((v ++ w) ++ t) v (w ++ t)).2 ⟨by simp, hl⟩
      have hb : (bg && v.isEmpty) = false := by cases v with
        | nil => exact absurd rfl hne
        | cons => simp
      rw [hb] at ht'
      obtain ⟨q, hq, hqt, hqr⟩ := (hm false (w ++ t) w t).2 ⟨rfl, k', times_weaken (fun _ _ _ h => h.1) _ _ _ _ ht'⟩
      refine ⟨⟨r.txt ++ q.txt, q.rest, q.caps ++ r.caps⟩, ⟨r, hr, ?_⟩, by simp [hrt, hqt], hqr⟩
      rw [if_neg (by simpa [hrt] using hne)]
      exact List.mem_map.2 ⟨q, by rw [hrr]; exact hq, rfl⟩

theorem agrees_quests {f : Bool → List α → List (Hit α)} {L : Bool → List α → List α → Prop} (hf : Agrees f L) (n : Nat) :
    Agrees (quests f n) (fun bg u t => ∃ k ≤ n, Times L k bg u t) := by
  induction n with
  | zero =>
    intro bg s u t
    rw [show quests f 0 bg s = [⟨[], s, []⟩] from rfl, agrees_done bg s u t]
    constructor
    · rintro ⟨h, rfl⟩; exact ⟨h, 0, Nat.le_refl _, rfl⟩
    · rintro ⟨h, k, hk, h2⟩
      obtain rfl : k = 0 := by omega
      exact ⟨h, h2⟩
  | succ n ih =>
    intro bg s u t
    simp only [quests, List.mem_append]
    have h1 := agrees_andThen hf ih bg s u t
    have h2 := agrees_done bg s u t
    constructor
    · rintro ⟨r, hr | hr, hrt, hrr⟩
      · obtain ⟨hs, v, w, huv, hl, k, hk, ht⟩ := h1.1 ⟨r, hr, hrt, hrr⟩
        exact ⟨hs, k + 1, by omega, v, w, huv, hl, ht⟩
      · obtain ⟨hs, hu⟩ := h2.1 ⟨r, hr, hrt, hrr⟩
        exact ⟨hs, 0, by omega, hu⟩
    · rintro ⟨hs, k, hk, ht⟩
      cases k with
      | zero =>
        obtain ⟨r, hr, h⟩ := h2.2 ⟨hs, ht⟩
        exact ⟨r, Or.inr hr, h⟩
      | succ k =>
        obtain ⟨v, w, huv, hl, ht⟩ := ht
        obtain ⟨r, hr, h⟩ := h1.2 ⟨hs, v, w, huv, hl, k, by omega, ht⟩
        exact ⟨r, Or.inl hr, h⟩

theorem mem_questsLazy (f : Bool → List α → List (Hit α)) (n : Nat) (bg : Bool) (s : List α) (r : Hit α) :
    r ∈ questsLazy f n bg s ↔ r ∈ quests f n bg s := by
  induction n generalizing bg s r with
  | zero => rfl
  | succ n ih =>
    simp only [questsLazy, quests, andThen, List.mem_cons, List.mem_append, List.mem_flatMap, List.mem_map, ih, List.not_mem_nil, or_false]
    exact Or.comm

/-- The ways to match a repetition, whatever the order: the language of `Matches`. -/
theorem agrees_rep {f : Bool → List α → List (Hit α)} {L : Bool → List α → List α → Prop} (hf : Agrees f L) (min : Nat) (max : Option Nat)
    {g : Bool → List α → List (Hit α)} {more : Nat → Bool → List α → List (Hit α)} (hm : ∀ n bg s r, r ∈ more n bg s ↔ r ∈ upTo f n bg s)
    (hs : ∀ m, max = some m → ∀ bg s r, r ∈ g bg s ↔ r ∈ andThen (times f min) (quests f (m - min)) bg s)
    (h0 : max = none → min = 0 → ∀ bg s r, r ∈ g bg s ↔ r ∈ plus f (fun bg s => more s.length bg s) bg s ∨ r = ⟨[], s, []⟩)
    (h1 : ∀ n, max = none → min = n + 1 → ∀ bg s r, r ∈ g bg s ↔ r ∈ andThen (times f n) (plus f (fun bg s => more s.length bg s)) bg s) :
    Agrees g (fun bg u t => ∃ n, min ≤ n ∧ (∀ m, max = some m → n = min ∨ n ≤ m) ∧ Times L n bg u t) := by
  intro bg s u t
  have hp := agrees_plus hf (agrees_again hf hm)
  cases max with
  | some m =>
    simp only [hs m rfl]
    rw [agrees_andThen (agrees_times hf min) (agrees_quests hf (m - min)) bg s u t]
    refine and_congr_right fun _ => ?_
    constructor
    · rintro ⟨v, w, rfl, h1, k, hk, h2⟩
      refine ⟨min + k, by omega, ?_, (times_add _ _ _ _ _).2 ⟨v, w, rfl, h1, h2⟩⟩
      rintro m' ⟨⟩
      omega
    · rintro ⟨n, hn, hm, ht⟩
      obtain ⟨k, rfl⟩ : ∃ k, n = min + k := ⟨n - min, by omega⟩
      obtain ⟨v, w, rfl, h1, h2⟩ := (times_add _ _ _ _ _).1 ht
      exact ⟨v, w, rfl, h1, k, by have := hm m rfl; omega, h2⟩
  | none =>
    cases min with
    | zero =>
      simp only [h0 rfl rfl]
      have h := hp bg s u t
      constructor
      · rintro ⟨r, hr | rfl, hrt, hrr⟩
        · obtain ⟨hs, k, hk⟩ := h.1 ⟨r, hr, hrt, hrr⟩
          exact ⟨hs, k + 1, by omega, by simp, hk⟩
        · subst hrt hrr; exact ⟨rfl, 0, by omega, by simp, rfl⟩
      · rintro ⟨hs, n, -, -, ht⟩
        cases n with
        | zero =>
          obtain rfl : u = [] := ht
          exact ⟨_, Or.inr rfl, rfl, by simpa using hs⟩
        | succ n =>
          obtain ⟨r, hr, hx⟩ := h.2 ⟨hs, n, ht⟩
          exact ⟨r, Or.inl hr, hx⟩
    | succ n =>
      simp only [h1 n rfl rfl]
      rw [agrees_andThen (agrees_times hf n) hp bg s u t]
      refine and_congr_right fun _ => ?_
      constructor
      · rintro ⟨v, w, rfl, h1, k, h2⟩
        exact ⟨n + (k + 1), by omega, by simp, (times_add _ _ _ _ _).2 ⟨v, w, rfl, h1, h2⟩⟩
      · rintro ⟨n', hn, hm, ht⟩
        obtain ⟨k, rfl⟩ : ∃ k, n' = n + (k + 1) := ⟨n' - n - 1, by omega⟩
        obtain ⟨v, w, rfl, h1, h2⟩ := (times_add _ _ _ _ _).1 ht
        exact ⟨v, w, rfl, h1, k, h2⟩

theorem mem_andThen_congr {f g g' : Bool → List α → List (Hit α)} (h : ∀ bg s r, r ∈ g bg s ↔ r ∈ g' bg s) (bg : Bool) (s : List α) (r : Hit α) :
    r ∈ andThen f g bg s ↔ r ∈ andThen f g' bg s := by
  simp only [andThen, List.mem_flatMap, List.mem_map, h]

theorem agrees_outs (re : Re) : Agrees (α := α) (outs re) (Matches re) := by
  induction re with
  | eps => exact agrees_done
  | lit c => exact agrees_congr (agrees_one _) (by intro bg u t; simp [Matches])
  | any => exact agrees_congr (agrees_one _) (by intro bg u t; simp [Matches])
  | cls neg rs =>
    refine agrees_congr (agrees_one _) ?_
    intro bg u t
    have : ∀ x : α, inClass neg rs x = true ↔ ((∃ r ∈ rs, r.1.toNat ≤ Sym.code x ∧ Sym.code x ≤ r.2.toNat) ↔ neg = false) := by
      intro x
      have hany : (rs.any fun r => decide (r.1.toNat ≤ Sym.code x) && decide (Sym.code x ≤ r.2.toNat)) = true ↔
          ∃ r ∈ rs, r.1.toNat ≤ Sym.code x ∧ Sym.code x ≤ r.2.toNat := by simp [List.any_eq_true]
      rw [← hany]
      unfold inClass
      cases neg <;> cases (rs.any fun r => decide (r.1.toNat ≤ Sym.code x) && decide (Sym.code x ≤ r.2.toNat)) <;> simp
    simp only [Matches, this]
  | seq a b ha hb => exact agrees_andThen ha hb
  | alt a b ha hb =>
    intro bg s u t
    simp only [outs, List.mem_append, Matches]
    constructor
    · rintro ⟨r, hr | hr, h⟩
      · obtain ⟨h1, h2⟩ := (ha bg s u t).1 ⟨r, hr, h⟩; exact ⟨h1, Or.inl h2⟩
      · obtain ⟨h1, h2⟩ := (hb bg s u t).1 ⟨r, hr, h⟩; exact ⟨h1, Or.inr h2⟩
    · rintro ⟨h1, h2 | h2⟩
      · obtain ⟨r, hr, h⟩ := (ha bg s u t).2 ⟨h1, h2⟩; exact ⟨r, Or.inl hr, h⟩
      · obtain ⟨r, hr, h⟩ := (hb bg s u t).2 ⟨h1, h2⟩; exact ⟨r, Or.inr hr, h⟩
  | rep a min max ha =>
    refine agrees_rep ha min max (more := upTo (outs a)) (fun _ _ _ _ => Iff.rfl) ?_ ?_ ?_
    · rintro m rfl bg s r; simp only [outs]
    · rintro rfl rfl bg s r; simp only [outs, List.mem_append, List.mem_singleton]
    · rintro n rfl rfl bg s r; simp only [outs]
  | lazy a min max ha =>
    refine agrees_rep ha min max (more := upToLazy (outs a)) (mem_upToLazy _) ?_ ?_ ?_
    · rintro m rfl bg s r; simp only [outs]; exact mem_andThen_congr (mem_questsLazy _ _) bg s r
    · rintro rfl rfl bg s r; simp only [outs, List.mem_cons]; exact Or.comm
    · rintro n rfl rfl bg s r; simp only [outs]
  | grp a ha => exact ha
  | cap i a ha =>
    intro bg s u t
    simp only [outs, List.mem_map, Matches]
    rw [← ha bg s u t]
    constructor
    · rintro ⟨_, ⟨r, hr, rfl⟩, h⟩; exact ⟨r, hr, h⟩
    · rintro ⟨r, hr, h⟩; exact ⟨_, ⟨r, hr, rfl⟩, h⟩
  | bol =>
    intro bg s u t
    cases bg <;> simp [outs, Matches]
    constructor
    · rintro ⟨rfl, rfl⟩; simp
    · rintro ⟨rfl, rfl⟩; simp
  | eol =>
    intro bg s u t
    cases s with
    | nil => simp [outs, Matches]
    | cons c s => simp [outs, Matches]; rintro h rfl rfl; simp at h

theorem outs_split {re : Re} {bg : Bool} {s : List α} {r : Hit α} (h : r ∈ outs re bg s) : s = r.txt ++ r.rest :=
  ((agrees_outs re bg s r.txt r.rest).1 ⟨r, h, rfl, rfl⟩).1

/-! ### Search -/

theorem execAt_some {re : Re} {s : List α} {p : Nat} {r : Hit α} (h : execAt re s p = some r) : s.drop p = r.txt ++ r.rest :=
  outs_split (List.mem_of_head? h)

theorem searchLoop_some {re : Re} {s : List α} : ∀ n p b r, searchLoop re s n p = some (b, r) →
    p ≤ b ∧ b < p + n ∧ execAt re s b = some r ∧ ∀ i, p ≤ i → i < b → execAt re s i = none := by
  intro n
  induction n with
  | zero => intro p b r h; cases h
  | succ n ih =>
    intro p b r h
    unfold searchLoop at h
    cases he : execAt re s p with
    | some q =>
      rw [he] at h
      cases h
      exact ⟨Nat.le_refl _, by omega, he, by intro i h1 h2; omega⟩
    | none =>
      rw [he] at h
      obtain ⟨h1, h2, h3, h4⟩ := ih _ _ _ h
      refine ⟨by omega, by omega, h3, ?_⟩
      intro i hi hib
      by_cases hip : i = p
      · rw [hip]; exact he
      · exact h4 i (by omega) hib

theorem searchLoop_none {re : Re} {s : List α} : ∀ n p, searchLoop re s n p = none ↔ ∀ i, p ≤ i → i < p + n → execAt re s i = none := by
  intro n
  induction n with
  | zero => intro p; simp [searchLoop]; intro i h1 h2; omega
  | succ n ih =>
    intro p
    unfold searchLoop
    cases he : execAt re s p with
    | some q =>
      simp only [reduceCtorEq, false_iff]
      intro h; have := h p (Nat.le_refl _) (by omega); rw [he] at this; cases this
    | none =>
      simp only []
      rw [ih]
      constructor
      · intro h i h1 h2
        by_cases hip : i = p
        · rw [hip]; exact he
        · exact h i (by omega) (by omega)
      · intro h i h1 h2; exact h i (by omega) (by omega)

theorem search_here {re : Re} {s : List α} {p : Nat} {r : Hit α} (hp : p ≤ s.length) (h : execAt re s p = some r) : search re s p = some (p, r) := by
  unfold search
  obtain ⟨n, hn⟩ : ∃ n, s.length + 1 - p = n + 1 := ⟨s.length - p, by omega⟩
  rw [hn]
  simp [searchLoop, h]

theorem search_later {re : Re} {s : List α} {p : Nat} (hp : p ≤ s.length) (h : execAt re s p = none) : search re s p = search re s (p + 1) := by
  unfold search
  obtain ⟨n, hn⟩ : ∃ n, s.length + 1 - p = n + 1 := ⟨s.length - p, by omega⟩
  rw [hn, show s.length + 1 - (p + 1) = n by omega]
  simp [searchLoop, h]

theorem search_beyond {re : Re} {s : List α} {p : Nat} (hp : s.length < p) : search re s p = none := by
  unfold search
  rw [show s.length + 1 - p = 0 by omega]; rfl

/-- There is a match anywhere iff the language allows one. -/
theorem matchString_iff (re : Re) (s : List α) :
    matchString re s = true ↔ ∃ a u t, s = a ++ u ++ t ∧ Matches re a.isEmpty u t := by
  unfold matchString
  constructor
  · intro h
    obtain ⟨⟨b, r⟩, hbr⟩ := Option.isSome_iff_exists.1 h
    obtain ⟨-, -, h3, -⟩ := searchLoop_some _ _ _ _ hbr
    have hb : b ≤ s.length := by
      have := (searchLoop_some _ _ _ _ hbr).2.1; omega
    have := (agrees_outs re (b == 0) (s.drop b) r.txt r.rest).1 ⟨r, List.mem_of_head? h3, rfl, rfl⟩
    refine ⟨s.take b, r.txt, r.rest, ?_, ?_⟩
    · rw [List.append_assoc, ← this.1, List.take_append_drop]
    · have he : (s.take b).isEmpty = (b == 0) := by
        cases b with
        | zero => simp
        | succ b => cases s with
          | nil => simp at hb
          | cons c s => simp
      rw [he]; exact this.2
  · rintro ⟨a, u, t, rfl, hm⟩
    cases hs : search re (a ++ u ++ t) 0 with
    | some x => rfl
    | none =>
      exfalso
      have := (searchLoop_none _ _).1 hs a.length (by omega) (by simp; omega)
      unfold execAt at this
      rw [List.append_assoc, List.drop_left, List.head?_eq_none_iff] at this
      have he : (a.length == 0) = a.isEmpty := by cases a <;> simp
      rw [he] at this
      obtain ⟨r, hr, -⟩ := (agrees_outs re a.isEmpty (u ++ t) u t).2 ⟨rfl, hm⟩
      rw [this] at hr; cases hr

/-! ### Greedy repetition of a class -/

/-- The ways to match `p*`. -/
def prefixes (p : α → Bool) : List α → List (Hit α)
  | [] => [⟨[], [], []⟩]
  | c :: s => (if p c = true then (prefixes p s).map fun r => ⟨c :: r.txt, r.rest, r.caps⟩ else []) ++ [⟨[], c :: s, []⟩]

theorem prefixes_caps (p : α → Bool) : ∀ s, ∀ r ∈ prefixes p s, r.caps = [] := by
  intro s
  induction s with
  | nil => simp [prefixes]
  | cons c s ih =>
    intro r hr
    simp only [prefixes, List.mem_append, List.mem_singleton] at hr
    rcases hr with hr | rfl
    · split at hr
      · obtain ⟨q, hq, rfl⟩ := List.mem_map.1 hr; exact ih q hq
      · cases hr
    · rfl

theorem upTo_one (p : α → Bool) : ∀ (s : List α) n bg, s.length ≤ n → upTo (fun _ s => one p s) n bg s = prefixes p s := by
  intro s
  induction s with
  | nil =>
    intro n bg _
    cases n with
    | zero => rfl
    | succ n => simp [upTo, andThen, one_nil, one_cons, prefixes]
  | cons c s ih =>
    intro n bg hn
    cases n with
    | zero => simp at hn
    | succ n =>
      simp only [upTo, prefixes]
      congr 1
      by_cases hp : p c = true
      · simp only [andThen, one_nil, one_cons, hp, if_true]
        simp only [List.filter_cons, List.isEmpty_cons, Bool.not_false, if_true, List.filter_nil, List.flatMap_cons, List.flatMap_nil, List.append_nil, Bool.and_false]
        rw [ih n false (by simpa using hn)]
        simp
      · simp [andThen, one_nil, one_cons, hp]

theorem prefixes_head (p : α → Bool) : ∀ s : List α, ∃ l, prefixes p s = ⟨s.takeWhile p, s.dropWhile p, []⟩ :: l ∧
    ∀ q ∈ l, ∃ c t, q.rest = c :: t ∧ p c = true := by
  intro s
  induction s with
  | nil => exact ⟨[], rfl, by simp⟩
  | cons c s ih =>
    obtain ⟨l, hl, hq⟩ := ih
    by_cases hp : p c = true
    · refine ⟨(l.map fun r => ⟨c :: r.txt, r.rest, r.caps⟩) ++ [⟨[], c :: s, []⟩], by simp [prefixes, hp, hl], ?_⟩
      intro q hqm
      rcases List.mem_append.1 hqm with h | h
      · obtain ⟨r, hr, rfl⟩ := List.mem_map.1 h; exact hq r hr
      · obtain rfl := List.mem_singleton.1 h; exact ⟨c, s, rfl, hp⟩
    · refine ⟨[], ?_, by simp⟩
      simp only [Bool.not_eq_true] at hp
      simp [prefixes, hp]

/-- One rune of p. -/
def oneOf (p : α → Bool) (re : Re) : Prop := ∀ bg s, outs (α := α) re bg s = one p s

theorem oneOf_fun {p : α → Bool} {re : Re} (h : oneOf p re) : outs (α := α) re = fun _ s => one p s := by
  funext bg s; exact h bg s

/-- One rune is not the empty text: `+` is one and the rest. -/
theorem plus_one (p : α → Bool) (more : Bool → List α → List (Hit α)) (bg : Bool) (s : List α) : plus (fun _ s => one p s) more bg s =
    match s with
    | [] => []
    | c :: t => if p c = true then (more false t).map fun r => ⟨c :: r.txt, r.rest, r.caps⟩ else [] := by
  cases s with
  | nil => simp [plus, one_nil]
  | cons c t => by_cases hp : p c = true <;> simp [plus, one_cons, hp]

theorem star_outs {p : α → Bool} {re : Re} (h : oneOf p re) (bg : Bool) (s : List α) : outs (.rep re 0 none) bg s = prefixes p s := by
  simp only [outs, oneOf_fun h, plus_one]
  cases s with
  | nil => rfl
  | cons c t => simp only [prefixes, upTo_one p t t.length false (Nat.le_refl _)]

theorem plus_outs {p : α → Bool} {re : Re} (h : oneOf p re) (bg : Bool) (s : List α) : outs (.rep re 1 none) bg s =
    match s with
    | [] => []
    | c :: t => if p c = true then (prefixes p t).map fun r => ⟨c :: r.txt, r.rest, r.caps⟩ else [] := by
  simp only [outs, oneOf_fun h, times, andThen, List.flatMap_cons, List.flatMap_nil, plus_one, List.isEmpty_nil, Bool.and_true, List.append_nil,
    List.nil_append]
  cases s with
  | nil => rfl
  | cons c t => simp [upTo_one p t t.length false (Nat.le_refl _)]

theorem opt_outs {p : α → Bool} {re : Re} (h : oneOf p re) (bg : Bool) (s : List α) : outs (.rep re 0 (some 1)) bg s = one p s ++ [⟨[], s, []⟩] := by
  cases s with
  | nil => simp [outs, oneOf_fun h, times, andThen, one_nil, one_cons, quests]
  | cons c t => by_cases hp : p c = true <;> simp [outs, oneOf_fun h, times, andThen, one_nil, one_cons, hp, quests]

theorem times_one (p : α → Bool) : ∀ n bg (s : List α), times (fun _ s => one p s) n bg s =
    if n ≤ s.length ∧ (s.take n).all p = true then [⟨s.take n, s.drop n, []⟩] else [] := by
  intro n
  induction n with
  | zero => intro bg s; simp [times]
  | succ n ih =>
    intro bg s
    cases s with
    | nil => simp [times, andThen, one_nil, one_cons]
    | cons c s =>
      by_cases hp : p c = true
      · simp only [times, andThen, one_nil, one_cons, hp, if_true, List.flatMap_cons, List.flatMap_nil, ih]
        by_cases hc : n ≤ s.length ∧ (s.take n).all p = true
        · simp only [if_pos hc]
          rw [if_pos ⟨by simpa using hc.1, by simpa [hp] using hc.2⟩]
          simp
        · rw [if_neg hc, if_neg]
          · simp
          · rintro ⟨h1, h2⟩; exact hc ⟨by simpa using h1, by simpa [hp] using h2⟩
      · simp [times, andThen, one_nil, one_cons, hp]

theorem exact_outs {p : α → Bool} {re : Re} (h : oneOf p re) (n : Nat) (bg : Bool) (s : List α) : outs (.rep re n (some n)) bg s =
    if n ≤ s.length ∧ (s.take n).all p = true then [⟨s.take n, s.drop n, []⟩] else [] := by
  simp only [outs, oneOf_fun h, andThen, times_one, Nat.sub_self, quests]
  split <;> simp

/-! ### Sequences: the first hit -/

theorem andThen_cons {f g : Bool → List α → List (Hit α)} {bg : Bool} {s : List α} {r q : Hit α} {l m : List (Hit α)}
    (hf : f bg s = r :: l) (hg : g (bg && r.txt.isEmpty) r.rest = q :: m) :
    ∃ k, andThen f g bg s = ⟨r.txt ++ q.txt, q.rest, q.caps ++ r.caps⟩ :: k := by
  simp [andThen, hf, hg]

/-! ### Expressions that match in at most one way -/

/-- The expression matches in at most one way, reading the texts (with captures) of P. -/
def Reads (f : Bool → List α → List (Hit α)) (P : List α → List (Nat × List α) → Prop) : Prop :=
  ∀ bg, (∀ x v k, P x k → f bg (x ++ v) = [⟨x, v, k⟩]) ∧ (∀ u, (∀ x v k, u = x ++ v → ¬ P x k) → f bg u = [])

theorem reads_andThen {f g : Bool → List α → List (Hit α)} {P Q : List α → List (Nat × List α) → Prop} (hf : Reads f P) (hg : Reads g Q) :
    Reads (andThen f g) (fun x k => ∃ y z k1 k2, x = y ++ z ∧ k = k2 ++ k1 ∧ P y k1 ∧ Q z k2) := by
  intro bg
  constructor
  · rintro _ v _ ⟨y, z, k1, k2, rfl, rfl, h1, h2⟩
    unfold andThen
    rw [List.append_assoc, (hf bg).1 y (z ++ v) k1 h1]
    simp only [List.flatMap_cons, List.flatMap_nil, List.append_nil]
    rw [(hg _).1 z v k2 h2]
    simp
  · intro u hu
    unfold andThen
    by_cases h : ∃ y w k, u = y ++ w ∧ P y k
    · obtain ⟨y, w, k1, rfl, h1⟩ := h
      rw [(hf bg).1 y w k1 h1]
      simp only [List.flatMap_cons, List.flatMap_nil, List.append_nil]
      rw [(hg _).2 w]
      · rfl
      · rintro z v k2 rfl h2
        exact hu (y ++ z) v (k2 ++ k1) (by simp) ⟨y, z, k1, k2, rfl, rfl, h1, h2⟩
    · rw [(hf bg).2 u]
      · rfl
      · intro x v k hxv hP; exact h ⟨x, v, k, hxv, hP⟩

theorem reads_congr {f : Bool → List α → List (Hit α)} {P Q : List α → List (Nat × List α) → Prop} (hf : Reads f P) (h : ∀ x k, P x k ↔ Q x k) :
    Reads f Q := by
  intro bg
  exact ⟨fun x v k hq => (hf bg).1 x v k ((h x k).2 hq), fun u hu => (hf bg).2 u fun x v k e hp => hu x v k e ((h x k).1 hp)⟩

theorem reads_eps : Reads (α := α) (outs .eps) (fun x k => x = [] ∧ k = []) := by
  intro bg
  constructor
  · rintro x v k ⟨rfl, rfl⟩; rfl
  · intro u hu; exact absurd ⟨rfl, rfl⟩ (hu [] u [] rfl)

theorem reads_lit (c : Char) : Reads (α := Char) (outs (.lit c)) (fun x k => x = [c] ∧ k = []) := by
  intro bg
  constructor
  · rintro x v k ⟨rfl, rfl⟩
    simp [outs, one, Sym.code]
  · intro u hu
    cases u with
    | nil => rfl
    | cons d u =>
      have : d ≠ c := by rintro rfl; exact hu [d] u [] rfl ⟨rfl, rfl⟩
      have h2 : ¬ d.toNat = c.toNat := fun h => this (Char.ext (UInt32.toNat_inj.mp h))
      simp [outs, one, Sym.code, h2]

theorem reads_exact {p : α → Bool} {re : Re} (h : oneOf p re) (n : Nat) :
    Reads (outs (.rep re n (some n))) (fun x k => (x.length = n ∧ x.all p = true) ∧ k = []) := by
  intro bg
  constructor
  · rintro x v k ⟨⟨rfl, h2⟩, rfl⟩
    rw [exact_outs h, if_pos]
    · simp
    · refine ⟨by simp, ?_⟩
      rw [List.take_left]; exact h2
  · intro u hu
    rw [exact_outs h, if_neg]
    rintro ⟨h1, h2⟩
    exact hu (u.take n) (u.drop n) [] (List.take_append_drop n u).symm ⟨⟨by simp; omega, h2⟩, rfl⟩

theorem reads_cap {re : Re} {P : List α → List (Nat × List α) → Prop} (h : Reads (outs re) P) (i : Nat) :
    Reads (outs (.cap i re)) (fun x k => ∃ k', P x k' ∧ k = (i, x) :: k') := by
  intro bg
  constructor
  · rintro x v k ⟨k', hp, rfl⟩
    simp [outs, (h bg).1 x v k' hp]
  · intro u hu
    simp only [outs]
    rw [(h bg).2 u]
    · rfl
    · intro x v k e hp; exact hu x v _ e ⟨k, hp, rfl⟩

end Micro.Regex
