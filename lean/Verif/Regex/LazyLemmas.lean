import Verif.Regex.RoundProps
set_option linter.unusedSimpArgs false
/-
Lemmas for C145, lazy repetitions: the order in which `*?` and `*` of one rune match.
-/
namespace Micro.Regex
open Micro

/-! ### One rune, repeated -/

section
variable {α : Type} [Sym α]

/-- The ways to match `p*?`. -/
def lazies (p : α → Bool) : List α → List (Hit α)
  | [] => [⟨[], [], []⟩]
  | c :: s => ⟨[], c :: s, []⟩ :: (if p c = true then (lazies p s).map fun r => ⟨c :: r.txt, r.rest, r.caps⟩ else [])

theorem upToLazy_one (p : α → Bool) : ∀ (s : List α) n bg, s.length ≤ n → upToLazy (fun _ s => one p s) n bg s = lazies p s := by
  intro s
  induction s with
  | nil =>
    intro n bg _
    cases n with
    | zero => rfl
    | succ n => simp [upToLazy, andThen, one_nil, one_cons, lazies]
  | cons c s ih =>
    intro n bg hn
    cases n with
    | zero => simp at hn
    | succ n =>
      simp only [upToLazy, lazies]
      congr 1
      by_cases hp : p c = true
      · simp only [andThen, one_nil, one_cons, hp, if_true]
        simp only [List.filter_cons, List.isEmpty_cons, Bool.not_false, if_true, List.filter_nil, List.flatMap_cons, List.flatMap_nil, List.append_nil, Bool.and_false]
        rw [ih n false (by simpa using hn)]
        simp
      · simp [andThen, one_nil, one_cons, hp]

theorem lazy_outs {p : α → Bool} {re : Re} (h : oneOf p re) (bg : Bool) (s : List α) : outs (.lazy re 0 none) bg s = lazies p s := by
  simp only [outs, oneOf_fun h, plus_one]
  cases s with
  | nil => rfl
  | cons c t => simp only [lazies, upToLazy_one p t t.length false (Nat.le_refl _)]

theorem mem_prefixes (p : α → Bool) : ∀ (s : List α) (r : Hit α), r ∈ prefixes p s ↔ s = r.txt ++ r.rest ∧ r.txt.all p = true ∧ r.caps = [] := by
  intro s
  induction s with
  | nil =>
    rintro ⟨u, t, k⟩
    simp only [prefixes, List.mem_singleton, Hit.mk.injEq]
    constructor
    · rintro ⟨rfl, rfl, rfl⟩; simp
    · rintro ⟨h, -, rfl⟩
      obtain ⟨rfl, rfl⟩ := List.append_eq_nil_iff.mp h.symm
      exact ⟨rfl, rfl, rfl⟩
  | cons c s ih =>
    rintro ⟨u, t, k⟩
    simp only [prefixes, List.mem_append, List.mem_singleton, Hit.mk.injEq]
    constructor
    · rintro (h | ⟨rfl, rfl, rfl⟩)
      · split at h
        · rename_i hp
          obtain ⟨r, hr, hh⟩ := List.mem_map.1 h
          obtain ⟨h1, h2, h3⟩ := (ih r).1 hr
          simp only [Hit.mk.injEq] at hh
          obtain ⟨rfl, rfl, rfl⟩ := hh
          exact ⟨by rw [List.cons_append, ← h1], by simp [hp]; simpa using h2, h3⟩
        · cases h
      · simp
    · rintro ⟨h1, h2, h3⟩
      cases u with
      | nil => right; exact ⟨rfl, by simpa using h1.symm, h3⟩
      | cons d u =>
        left
        simp only [List.cons_append, List.cons.injEq] at h1
        simp only [List.all_cons, Bool.and_eq_true] at h2
        obtain ⟨rfl, h1⟩ := h1
        rw [if_pos h2.1]
        exact List.mem_map.2 ⟨⟨u, t, k⟩, (ih _).2 ⟨h1, h2.2, h3⟩, rfl⟩

theorem lazies_perm (p : α → Bool) : ∀ (s : List α) (r : Hit α), r ∈ lazies p s ↔ r ∈ prefixes p s := by
  intro s
  induction s with
  | nil => intro r; rfl
  | cons c s ih =>
    intro r
    simp only [lazies, prefixes, List.mem_cons, List.mem_append, List.not_mem_nil, or_false]
    rw [Or.comm]
    by_cases hp : p c = true
    · simp only [hp, if_true, List.mem_map, ih]
    · simp [hp]

theorem lazies_order (p : α → Bool) : ∀ s : List α, (lazies p s).Pairwise (fun a b => a.txt.length < b.txt.length) := by
  intro s
  induction s with
  | nil => simp [lazies]
  | cons c s ih =>
    simp only [lazies, List.pairwise_cons]
    split
    · refine ⟨?_, ?_⟩
      · intro b hb
        obtain ⟨r, -, rfl⟩ := List.mem_map.1 hb
        simp
      · exact List.pairwise_map.2 (ih.imp (by intro a b h; simpa using h))
    · simp

theorem prefixes_order (p : α → Bool) : ∀ s : List α, (prefixes p s).Pairwise (fun a b => b.txt.length < a.txt.length) := by
  intro s
  induction s with
  | nil => simp [prefixes]
  | cons c s ih =>
    simp only [prefixes, List.pairwise_append]
    split
    · refine ⟨List.pairwise_map.2 (ih.imp (by intro a b h; simpa using h)), by simp, ?_⟩
      intro a ha b hb
      obtain ⟨r, -, rfl⟩ := List.mem_map.1 ha
      rw [List.mem_singleton] at hb
      subst hb
      simp
    · simp

/-- The first element with a property, in an ordered list. -/
theorem find_first {β : Type} {R : β → β → Prop} (hR : ∀ a b, R a b → ¬ R b a) (q : β → Bool) : ∀ (l : List β), l.Pairwise R →
    ∀ r, l.find? q = some r ↔ r ∈ l ∧ q r = true ∧ ∀ x ∈ l, q x = true → x = r ∨ R r x := by
  intro l
  induction l with
  | nil => intro _ r; simp
  | cons a l ih =>
    intro hl r
    obtain ⟨h1, h2⟩ := List.pairwise_cons.1 hl
    by_cases hq : q a = true
    · rw [List.find?_cons_of_pos hq]
      constructor
      · intro h
        cases h
        refine ⟨by simp, hq, ?_⟩
        intro x hx _
        rcases List.mem_cons.1 hx with rfl | hx
        · exact .inl rfl
        · exact .inr (h1 x hx)
      · rintro ⟨hr, -, h⟩
        rcases h a (by simp) hq with rfl | h'
        · rfl
        · rcases List.mem_cons.1 hr with rfl | hr
          · rfl
          · exact absurd h' (hR _ _ (h1 r hr))
    · rw [List.find?_cons_of_neg hq, ih h2 r]
      constructor
      · rintro ⟨hr, hqr, h⟩
        refine ⟨List.mem_cons_of_mem _ hr, hqr, ?_⟩
        intro x hx hqx
        rcases List.mem_cons.1 hx with rfl | hx
        · exact absurd hqx hq
        · exact h x hx hqx
      · rintro ⟨hr, hqr, h⟩
        refine ⟨?_, hqr, fun x hx => h x (List.mem_cons_of_mem _ hx)⟩
        rcases List.mem_cons.1 hr with rfl | hr
        · exact absurd hqr hq
        · exact hr

end

/-! ### A text, something, a text -/

/-- A text, and then r. -/
def litsRe (s : List Char) (r : Re) : Re := s.foldr (fun c r => .seq (.lit c) r) r

theorem outs_lits (pre : List Char) (R : Re) : ∀ (bg : Bool) (s : List Char), outs (litsRe pre R) bg s =
    if pre <+: s then (outs R (bg && pre.isEmpty) (s.drop pre.length)).map (fun q => ⟨pre ++ q.txt, q.rest, q.caps⟩) else [] := by
  induction pre with
  | nil => intro bg s; simp [litsRe]
  | cons c pre ih =>
    intro bg s
    have e : outs (litsRe (c :: pre) R) bg s = andThen (outs (.lit c)) (outs (litsRe pre R)) bg s := rfl
    rw [e]
    cases s with
    | nil => simp [andThen, outs, one]
    | cons x s =>
      by_cases hx : x = c
      · subst hx
        have h1 : (Sym.code x == x.toNat) = true := by simp [Sym.code]
        simp only [andThen, outs, one, h1, if_true, List.flatMap_cons, List.flatMap_nil, List.append_nil, List.isEmpty_cons, Bool.and_false, ih,
          List.cons_prefix_cons, true_and, List.length_cons, List.drop_succ_cons, Bool.false_and]
        by_cases hp : pre <+: s
        · simp [hp]
        · simp [hp]
      · have h1 : (Sym.code x == c.toNat) = false := by
          simp only [beq_eq_false_iff_ne, ne_eq]
          intro h
          exact hx (Char.toNat_inj.mp h)
        have h2 : ¬ (c :: pre <+: x :: s) := by
          rw [List.cons_prefix_cons]; rintro ⟨h, -⟩; exact hx h.symm
        rw [if_neg h2]
        simp [andThen, outs, one, h1]

/-- `^`, a text, a captured expression, a text. -/
def midRe (pre post : List Char) (x : Re) : Re := .seq .bol (litsRe pre (.seq (.cap 1 (.seq x .eps)) (litsRe post .eps)))

/-- What matching it gives, if x matches like a list of hits without captures. -/
theorem outs_mid (pre post : List Char) (x : Re) (hits : List Char → List (Hit Char)) (hx : ∀ bg s, outs x bg s = hits s)
    (hc : ∀ s, ∀ r ∈ hits s, r.caps = []) (s : List Char) :
    outs (midRe pre post x) true s = if pre <+: s then
      ((hits (s.drop pre.length)).filter (fun r => decide (post <+: r.rest))).map
        (fun r => ⟨pre ++ (r.txt ++ post), r.rest.drop post.length, [(1, r.txt)]⟩) else [] := by
  have e : outs (midRe pre post x) true s = andThen (outs .bol) (outs (litsRe pre (.seq (.cap 1 (.seq x .eps)) (litsRe post .eps)))) true s := rfl
  rw [e]
  simp only [andThen, outs, if_true, List.flatMap_cons, List.flatMap_nil, List.append_nil, List.isEmpty_nil, Bool.and_true, List.nil_append]
  rw [List.map_id'' (fun q => rfl), outs_lits]
  split
  · have e2 : ∀ bg (u : List Char), outs (.seq (.cap 1 (.seq x .eps)) (litsRe post .eps)) bg u =
        ((hits u).filter (fun r => decide (post <+: r.rest))).map (fun r => ⟨r.txt ++ post, r.rest.drop post.length, [(1, r.txt)]⟩) := by
      intro bg u
      simp only [outs, andThen, hx, outs_lits]
      have : (hits u).flatMap (fun r => List.map (fun q : Hit Char => (⟨r.txt ++ q.txt, q.rest, q.caps ++ r.caps⟩ : Hit Char)) [⟨[], r.rest, []⟩]) = hits u := by
        have : ∀ l : List (Hit Char), l.flatMap (fun r => List.map (fun q : Hit Char => (⟨r.txt ++ q.txt, q.rest, q.caps ++ r.caps⟩ : Hit Char)) [⟨[], r.rest, []⟩]) = l := by
          intro l; induction l with
          | nil => rfl
          | cons a l ih => rw [List.flatMap_cons, ih]; simp
        exact this _
      rw [this]
      have hcu := hc u
      generalize hits u = l at hcu ⊢
      induction l with
      | nil => rfl
      | cons a l ih =>
        have ha : a.caps = [] := hcu a (by simp)
        rw [List.map_cons, List.flatMap_cons, ih (fun r hr => hcu r (List.mem_cons_of_mem _ hr)), List.filter_cons]
        by_cases hp : post <+: a.rest
        · simp [hp, ha]
        · simp [hp]
    rw [e2, List.map_map]
    rfl
  · rfl

end Micro.Regex
