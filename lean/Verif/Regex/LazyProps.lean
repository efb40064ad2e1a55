import Verif.Regex.LazyLemmas
set_option linter.unusedSimpArgs false
/-
C145, lazy repetitions: what `*?` matches, compared with `*`.
-/
namespace Micro.Regex
open Micro

mutual

/-- The pattern with every lazy repetition made greedy. -/
def Item.greedy : Item → Item
  | .group b => .group b.greedy
  | .capture b => .capture b.greedy
  | .named name b => .named name b.greedy
  | a => a

def Seqn.greedy : Seqn → Seqn
  | .nil => .nil
  | .one a s => .one a.greedy s.greedy
  | .many a q s => .many a.greedy q s.greedy
  | .lazily a q s => .many a.greedy q s.greedy

def Body.greedy : Body → Body
  | .last s => .last s.greedy
  | .or s b => .or s.greedy b.greedy

end

mutual

theorem item_greedy_groups (a : Item) : a.greedy.groups = a.groups := by
  cases a with
  | group b => rw [Item.greedy, Item.groups, Item.groups, body_greedy_groups]
  | capture b => rw [Item.greedy, Item.groups, Item.groups, body_greedy_groups]
  | named name b => rw [Item.greedy, Item.groups, Item.groups, body_greedy_groups]
  | _ => rw [Item.greedy] <;> simp

theorem seqn_greedy_groups (q : Seqn) : q.greedy.groups = q.groups := by
  cases q with
  | nil => rw [Seqn.greedy]
  | one a s => rw [Seqn.greedy, Seqn.groups, Seqn.groups, item_greedy_groups, seqn_greedy_groups]
  | many a q s => rw [Seqn.greedy, Seqn.groups, Seqn.groups, item_greedy_groups, seqn_greedy_groups]
  | lazily a q s => rw [Seqn.greedy, Seqn.groups, Seqn.groups, item_greedy_groups, seqn_greedy_groups]

theorem body_greedy_groups (b : Body) : b.greedy.groups = b.groups := by
  cases b with
  | last s => rw [Body.greedy, Body.groups, Body.groups, seqn_greedy_groups]
  | or s b => rw [Body.greedy, Body.groups, Body.groups, seqn_greedy_groups, body_greedy_groups]

end

mutual

theorem item_greedy_matches (a : Item) (n : Nat) : Matches (α := Char) (a.greedy.re n) = Matches (a.re n) := by
  cases a with
  | group b =>
    funext bg u t
    rw [Item.greedy, Item.re, Item.re, Matches, Matches, body_greedy_matches]
  | capture b =>
    funext bg u t
    rw [Item.greedy, Item.re, Item.re, Matches, Matches, body_greedy_matches]
  | named name b =>
    funext bg u t
    rw [Item.greedy, Item.re, Item.re, Matches, Matches, body_greedy_matches]
  | _ => rw [Item.greedy] <;> simp

theorem seqn_greedy_matches (q : Seqn) (n : Nat) : Matches (α := Char) (q.greedy.re n) = Matches (q.re n) := by
  cases q with
  | nil => rw [Seqn.greedy]
  | one a s =>
    funext bg u t
    simp only [Seqn.greedy, Seqn.re, Matches, item_greedy_groups, item_greedy_matches a n, seqn_greedy_matches s]
  | many a q s =>
    funext bg u t
    simp only [Seqn.greedy, Seqn.re, Matches, item_greedy_groups, item_greedy_matches a n, seqn_greedy_matches s]
  | lazily a q s =>
    funext bg u t
    simp only [Seqn.greedy, Seqn.re, Matches, item_greedy_groups, item_greedy_matches a n, seqn_greedy_matches s]

theorem body_greedy_matches (b : Body) (n : Nat) : Matches (α := Char) (b.greedy.re n) = Matches (b.re n) := by
  cases b with
  | last s =>
    rw [Body.greedy, Body.re, Body.re, seqn_greedy_matches]
  | or s b =>
    funext bg u t
    simp only [Body.greedy, Body.re, Matches, seqn_greedy_groups, seqn_greedy_matches s n, body_greedy_matches b]

end

mutual

theorem item_greedy_reps (a : Item) : a.greedy.reps = a.reps := by
  cases a with
  | group b => rw [Item.greedy, Item.reps, Item.reps, body_greedy_reps]
  | capture b => rw [Item.greedy, Item.reps, Item.reps, body_greedy_reps]
  | named name b => rw [Item.greedy, Item.reps, Item.reps, body_greedy_reps]
  | _ => rw [Item.greedy] <;> simp

theorem seqn_greedy_reps (q : Seqn) : q.greedy.reps = q.reps := by
  cases q with
  | nil => rw [Seqn.greedy]
  | one a s => rw [Seqn.greedy, Seqn.reps, Seqn.reps, item_greedy_reps, seqn_greedy_reps]
  | many a q s => rw [Seqn.greedy, Seqn.reps, Seqn.reps, item_greedy_reps, seqn_greedy_reps]
  | lazily a q s => rw [Seqn.greedy, Seqn.reps, Seqn.reps, item_greedy_reps, seqn_greedy_reps]

theorem body_greedy_reps (b : Body) : b.greedy.reps = b.reps := by
  cases b with
  | last s => rw [Body.greedy, Body.reps, Body.reps, seqn_greedy_reps]
  | or s b => rw [Body.greedy, Body.reps, Body.reps, seqn_greedy_reps, body_greedy_reps]

end

mutual

theorem item_greedy_ok (a : Item) : a.greedy.ok ↔ a.ok := by
  cases a with
  | group b => rw [Item.greedy, Item.ok, Item.ok, body_greedy_ok]
  | capture b => rw [Item.greedy, Item.ok, Item.ok, body_greedy_ok]
  | named name b => rw [Item.greedy, Item.ok, Item.ok, body_greedy_ok]
  | _ => rw [Item.greedy] <;> simp

theorem seqn_greedy_ok (q : Seqn) : q.greedy.ok ↔ q.ok := by
  cases q with
  | nil => rw [Seqn.greedy]
  | one a s => rw [Seqn.greedy, Seqn.ok, Seqn.ok, item_greedy_ok, seqn_greedy_ok]
  | many a q s => rw [Seqn.greedy, Seqn.ok, Seqn.ok, item_greedy_ok, seqn_greedy_ok, item_greedy_reps]
  | lazily a q s => rw [Seqn.greedy, Seqn.ok, Seqn.ok, item_greedy_ok, seqn_greedy_ok, item_greedy_reps]

theorem body_greedy_ok (b : Body) : b.greedy.ok ↔ b.ok := by
  cases b with
  | last s => rw [Body.greedy, Body.ok, Body.ok, seqn_greedy_ok]
  | or s b => rw [Body.greedy, Body.ok, Body.ok, seqn_greedy_ok, body_greedy_ok]

end

/-- C145. Whether repetitions are lazy or greedy makes no difference to which patterns are accepted and to which URLs they match. -/
theorem c145_greedy (b : Body) : (b.greedy.ok ↔ b.ok) ∧ (∀ url, b.greedy.Hits url ↔ b.Hits url) := by
  refine ⟨body_greedy_ok b, fun url => ?_⟩
  unfold Body.Hits
  rw [body_greedy_matches]

/-! ### The shortest and the longest -/

/-- The item stands for the rune. -/
def Stands (x : Item) (c : Char) : Prop := Matches (x.re 0) false [c] []

/-- `.`, or a class. -/
def OneRune (x : Item) : Prop := x = .any ∨ ∃ neg rs dash, x = .cls neg rs dash

theorem oneOf_stands {p : Char → Bool} {re : Re} (h : oneOf p re) (c : Char) : p c = true ↔ Matches re false [c] [] := by
  have h1 := agrees_outs (α := Char) re false [c] [c] []
  rw [h] at h1
  constructor
  · intro hp
    exact (h1.1 ⟨⟨[c], [], []⟩, by simp [one, hp], rfl, rfl⟩).2
  · intro hm
    obtain ⟨r, hr, -, -⟩ := h1.2 ⟨by simp, hm⟩
    by_contra hp
    simp [one, hp] at hr

theorem oneRune (x : Item) (h : OneRune x) : ∃ p : Char → Bool, (∀ n, oneOf p (x.re n)) ∧ (∀ n, (x.re n).caps = 0) ∧ x.groups = 0 ∧
    ∀ c, p c = true ↔ Stands x c := by
  rcases h with rfl | ⟨neg, rs, dash, rfl⟩
  · have h1 : ∀ n, oneOf (α := Char) (fun x => !(Sym.code x == 10)) (Item.any.re n) := fun n => by rw [Item.re]; exact fun _ _ => rfl
    exact ⟨_, h1, fun n => by rw [Item.re]; rfl, rfl, fun c => oneOf_stands (h1 0) c⟩
  · have h1 : ∀ n, oneOf (α := Char) (inClass neg (classBounds rs dash)) ((Item.cls neg rs dash).re n) := fun n => by rw [Item.re]; exact fun _ _ => rfl
    exact ⟨_, h1, fun n => by rw [Item.re]; rfl, rfl, fun c => oneOf_stands (h1 0) c⟩

theorem litsRe_caps (s : List Char) (r : Re) : (litsRe s r).caps = r.caps := by
  induction s with
  | nil => rfl
  | cons c s ih =>
    show (Re.seq (.lit c) (litsRe s r)).caps = _
    rw [Re.caps, ih]; simp [Re.caps]

theorem find_mid (pre post : List Char) (x : Re) (h0 : x.caps = 0) (hits : List Char → List (Hit Char)) (hx : ∀ bg s, outs x bg s = hits s)
    (hc : ∀ s, ∀ r ∈ hits s, r.caps = []) (s : List Char) (ps : List (List Char)) :
    findSub (midRe pre post x) s = some ps ↔
      ∃ u r, s = pre ++ u ∧ (hits u).find? (fun r => decide (post <+: r.rest)) = some r ∧ ps = [pre ++ (r.txt ++ post), r.txt] := by
  have hcaps : (midRe pre post x).caps = 1 := by
    show (Re.seq .bol (litsRe pre _)).caps = 1
    simp only [Re.caps, litsRe_caps, h0]
  have hlater : ∀ i, i ≠ 0 → execAt (midRe pre post x) s i = none := by
    intro i hi
    have : (i == 0) = false := by simpa using hi
    unfold execAt
    rw [this]
    rfl
  have hsearch : search (midRe pre post x) s 0 = (execAt (midRe pre post x) s 0).map ((0, ·)) := by
    cases h : execAt (midRe pre post x) s 0 with
    | some r => exact search_here (by omega) h
    | none =>
      refine (searchLoop_none _ _).2 ?_
      intro i _ _
      by_cases hi : i = 0
      · rw [hi]; exact h
      · exact hlater i hi
  have hexec : execAt (midRe pre post x) s 0 = (outs (midRe pre post x) true s).head? := rfl
  unfold findSub
  rw [hsearch, hexec, outs_mid pre post x hits hx hc]
  by_cases hp : pre <+: s
  · obtain ⟨u, rfl⟩ := hp
    rw [if_pos (List.prefix_append _ _), List.drop_left' rfl, List.head?_map, List.head?_filter]
    simp only [List.append_cancel_left_eq, Option.map_map, Option.map_eq_some_iff, Function.comp_apply, parts, hcaps]
    constructor
    · rintro ⟨r, hr, rfl⟩
      exact ⟨u, r, rfl, hr, by simp [List.range_succ, List.lookup]⟩
    · rintro ⟨v, r, rfl, hr, rfl⟩
      exact ⟨r, hr, by simp [List.range_succ, List.lookup]⟩
  · rw [if_neg hp]
    simp only [List.head?_nil, Option.map_none, reduceCtorEq, false_iff]
    rintro ⟨u, r, rfl, -⟩
    exact hp (List.prefix_append _ _)

/-- A text, every rune with a meaning of its own after a backslash, and then more. -/
def textSeqn (s : List Char) (rest : Seqn) : Seqn := s.foldr (fun c r => .one (.lit c (decide (c ∈ "\\.+*?()|[]{}^$".toList))) r) rest

theorem textSeqn_txt (s : List Char) (rest : Seqn) : (textSeqn s rest).txt = s.flatMap quote ++ rest.txt := by
  induction s with
  | nil => rfl
  | cons c s ih =>
    show (Seqn.one _ (textSeqn s rest)).txt = _
    rw [Seqn.txt, ih, Item.txt, List.flatMap_cons, List.append_assoc]
    congr 1
    unfold quote
    simp only [decide_eq_true_eq]

theorem textSeqn_re (s : List Char) (rest : Seqn) (n : Nat) : (textSeqn s rest).re n = litsRe s (rest.re n) := by
  induction s with
  | nil => rfl
  | cons c s ih =>
    show (Seqn.one _ (textSeqn s rest)).re n = Re.seq (.lit c) (litsRe s (rest.re n))
    rw [Seqn.re, Item.re, Item.groups, Nat.add_zero, ih] <;> simp

theorem textSeqn_ok (s : List Char) (rest : Seqn) (h : rest.ok) : (textSeqn s rest).ok := by
  induction s with
  | nil => exact h
  | cons c s ih =>
    show (Seqn.one _ (textSeqn s rest)).ok
    rw [Seqn.ok, Item.ok]
    refine ⟨?_, ih⟩
    by_cases hc : c ∈ "\\.+*?()|[]{}^$".toList
    · rw [if_pos (by simpa using hc)]
      simp at hc
      rcases hc with h | h | h | h | h | h | h | h | h | h | h | h | h | h <;> subst h <;> decide
    · rw [if_neg (by simpa using hc)]
      simp at hc
      simp [hc]

/-- `^`, a text, `(x*?)` or `(x*)`, a text. -/
def between (lz : Bool) (x : Item) (pre post : List Char) : Body :=
  .last (.one .bol (textSeqn pre (.one (.capture (.last (if lz then .lazily x .star .nil else .many x .star .nil))) (textSeqn post .nil))))

theorem between_txt (lz : Bool) (x : Item) (pre post : List Char) : (between lz x pre post).txt =
    '^' :: (pre.flatMap quote ++ '(' :: (x.txt ++ '*' :: ((if lz then ['?'] else []) ++ ')' :: post.flatMap quote))) := by
  cases lz <;> simp [between, Body.txt, Seqn.txt, Item.txt, textSeqn_txt, Quant.txt]

theorem between_re (lz : Bool) (x : Item) (hx : x.groups = 0) (pre post : List Char) : (between lz x pre post).re 0 =
    midRe pre post (if lz then .lazy (x.re 1) 0 none else .rep (x.re 1) 0 none) := by
  cases lz <;> simp [between, Body.re, Seqn.re, Item.re, Item.groups, textSeqn_re, Quant.min, Quant.max, midRe]

theorem between_ok (lz : Bool) (x : Item) (hx : OneRune x) (hok : x.ok) (pre post : List Char) : (between lz x pre post).ok := by
  have hr : x.reps = 1 := by rcases hx with rfl | ⟨neg, rs, dash, rfl⟩ <;> rfl
  rw [between, Body.ok, Seqn.ok, Item.ok]
  · refine ⟨trivial, textSeqn_ok _ _ ?_⟩
    rw [Seqn.ok, Item.ok, Body.ok]
    refine ⟨?_, textSeqn_ok _ _ ?_⟩
    · cases lz
      · simp only [Bool.false_eq_true, if_false]
        rw [Seqn.ok, Seqn.ok]
        exact ⟨hok, trivial, by simp [Quant.reps, Quant.max, Quant.min, hr], trivial⟩
      · simp only [if_true]
        rw [Seqn.ok, Seqn.ok]
        exact ⟨hok, trivial, by simp [Quant.reps, Quant.max, Quant.min, hr], trivial⟩
    · rw [Seqn.ok]; trivial
  all_goals simp

/-- C145. `*?` takes as little as it can: `^pre(x*?)post`, for a `.` or a class x, matches a URL iff it is made of pre, runes that x stands for, post and
anything; it captures what is before the first post. -/
theorem c145_shortest (pre post : List Char) (x : Item) (hx : OneRune x) (hok : x.ok) :
    ∃ re, compile ('^' :: (pre.flatMap quote ++ '(' :: (x.txt ++ '*' :: '?' :: ')' :: post.flatMap quote))) = .ok re ∧
      ∀ url parts, findSub re url = some parts ↔ ∃ g t, url = pre ++ (g ++ (post ++ t)) ∧ (∀ c ∈ g, Stands x c) ∧ parts = [pre ++ (g ++ post), g] ∧
        ∀ g' t', url = pre ++ (g' ++ (post ++ t')) → (∀ c ∈ g', Stands x c) → g.length ≤ g'.length := by
  obtain ⟨p, h1, h2, h3, h4⟩ := oneRune x hx
  have hc := c145_compile _ (between_ok true x hx hok pre post)
  rw [between_txt, between_re true x h3] at hc
  refine ⟨_, by simpa using hc, fun url parts => ?_⟩
  rw [find_mid pre post _ (by rw [Re.caps]; exact h2 1) (lazies p) (fun bg s => lazy_outs (h1 1) bg s)
    (fun s r hr => ((mem_prefixes p s r).1 ((lazies_perm p s r).1 hr)).2.2)]
  constructor
  · rintro ⟨u, r, rfl, hf, rfl⟩
    obtain ⟨hm, hq, hmin⟩ := (find_first (fun a b h => by omega) _ _ (lazies_order p u) r).1 hf
    obtain ⟨rfl, ha, -⟩ := (mem_prefixes p u r).1 ((lazies_perm p u r).1 hm)
    obtain ⟨t, ht⟩ := of_decide_eq_true hq
    refine ⟨r.txt, t, by rw [ht], fun c hc => (h4 c).1 (List.all_eq_true.1 ha c hc), rfl, ?_⟩
    intro g' t' he hg'
    have he' : r.txt ++ r.rest = g' ++ (post ++ t') := List.append_cancel_left he
    have := hmin ⟨g', post ++ t', []⟩ ((lazies_perm p _ _).2 ((mem_prefixes p _ _).2 ⟨he', List.all_eq_true.2 fun c hc => (h4 c).2 (hg' c hc), rfl⟩))
      (decide_eq_true (List.prefix_append _ _))
    rcases this with rfl | h
    · exact Nat.le_refl _
    · exact Nat.le_of_lt h
  · rintro ⟨g, t, rfl, hg, rfl, hmin⟩
    refine ⟨g ++ (post ++ t), ⟨g, post ++ t, []⟩, rfl, ?_, rfl⟩
    refine (find_first (fun a b h => by omega) _ _ (lazies_order p _) _).2 ⟨(lazies_perm p _ _).2 ((mem_prefixes p _ _).2
      ⟨rfl, List.all_eq_true.2 fun c hc => (h4 c).2 (hg c hc), rfl⟩), decide_eq_true (List.prefix_append _ _), ?_⟩
    rintro ⟨v, w, k⟩ hr hq
    obtain ⟨e1, e2, e3⟩ := (mem_prefixes p _ _).1 ((lazies_perm p _ _).1 hr)
    obtain ⟨t', rfl⟩ := of_decide_eq_true hq
    have hle := hmin v t' (by rw [e1]) (fun c hc => (h4 c).1 (List.all_eq_true.1 e2 c hc))
    simp only at e1 e3 ⊢
    rcases Nat.lt_or_eq_of_le hle with h | h
    · exact .inr h
    · left
      obtain ⟨rfl, e⟩ := List.append_inj e1 h
      rw [e3, e]

/-- C145. `*` takes as much as it can: `^pre(x*)post` matches the same URLs, and captures what is before the last post (of those that x lets it reach). -/
theorem c145_longest (pre post : List Char) (x : Item) (hx : OneRune x) (hok : x.ok) :
    ∃ re, compile ('^' :: (pre.flatMap quote ++ '(' :: (x.txt ++ '*' :: ')' :: post.flatMap quote))) = .ok re ∧
      ∀ url parts, findSub re url = some parts ↔ ∃ g t, url = pre ++ (g ++ (post ++ t)) ∧ (∀ c ∈ g, Stands x c) ∧ parts = [pre ++ (g ++ post), g] ∧
        ∀ g' t', url = pre ++ (g' ++ (post ++ t')) → (∀ c ∈ g', Stands x c) → g'.length ≤ g.length := by
  obtain ⟨p, h1, h2, h3, h4⟩ := oneRune x hx
  have hc := c145_compile _ (between_ok false x hx hok pre post)
  rw [between_txt, between_re false x h3] at hc
  refine ⟨_, by simpa using hc, fun url parts => ?_⟩
  rw [find_mid pre post _ (by rw [Re.caps]; exact h2 1) (prefixes p) (fun bg s => star_outs (h1 1) bg s)
    (fun s r hr => ((mem_prefixes p s r).1 hr).2.2)]
  constructor
  · rintro ⟨u, r, rfl, hf, rfl⟩
    obtain ⟨hm, hq, hmin⟩ := (find_first (fun a b h => by omega) _ _ (prefixes_order p u) r).1 hf
    obtain ⟨rfl, ha, -⟩ := (mem_prefixes p u r).1 hm
    obtain ⟨t, ht⟩ := of_decide_eq_true hq
    refine ⟨r.txt, t, by rw [ht], fun c hc => (h4 c).1 (List.all_eq_true.1 ha c hc), rfl, ?_⟩
    intro g' t' he hg'
    have he' : r.txt ++ r.rest = g' ++ (post ++ t') := List.append_cancel_left he
    have := hmin ⟨g', post ++ t', []⟩ ((mem_prefixes p _ _).2 ⟨he', List.all_eq_true.2 fun c hc => (h4 c).2 (hg' c hc), rfl⟩)
      (decide_eq_true (List.prefix_append _ _))
    rcases this with rfl | h
    · exact Nat.le_refl _
    · exact Nat.le_of_lt h
  · rintro ⟨g, t, rfl, hg, rfl, hmin⟩
    refine ⟨g ++ (post ++ t), ⟨g, post ++ t, []⟩, rfl, ?_, rfl⟩
    refine (find_first (fun a b h => by omega) _ _ (prefixes_order p _) _).2 ⟨(mem_prefixes p _ _).2
      ⟨rfl, List.all_eq_true.2 fun c hc => (h4 c).2 (hg c hc), rfl⟩, decide_eq_true (List.prefix_append _ _), ?_⟩
    rintro ⟨v, w, k⟩ hr hq
    obtain ⟨e1, e2, e3⟩ := (mem_prefixes p _ _).1 hr
    obtain ⟨t', rfl⟩ := of_decide_eq_true hq
    have hle := hmin v t' (by rw [e1]) (fun c hc => (h4 c).1 (List.all_eq_true.1 e2 c hc))
    simp only at e1 e3 ⊢
    rcases Nat.lt_or_eq_of_le hle with h | h
    · exact .inr h
    · left
      obtain ⟨rfl, e⟩ := List.append_inj e1 h.symm
      rw [e3, e]

/-! ### Examples -/

/-- `^/a/(.*?)/z` -/
example : (between true .any "/a/".toList "/z".toList).txt = "^/a/(.*?)/z".toList := by decide +kernel
example := c145_shortest "/a/".toList "/z".toList .any (.inl rfl) (by simp [Item.ok])
example := c145_longest "/a/".toList "/z".toList (.cls true [.one (.rune '/' false)] false) (.inr ⟨_, _, _, rfl⟩) (by simp [Item.ok, CRange.ok, CRune.ok])

/-- Of /a/b/z/c/z, `.*?` takes b, and `.*` takes b/z/c. -/
example : (findSub (midRe "/a/".toList "/z".toList (.lazy .any 0 none)) "/a/b/z/c/z".toList = some ["/a/b/z".toList, "b".toList]) ∧
    findSub (midRe "/a/".toList "/z".toList (.rep .any 0 none)) "/a/b/z/c/z".toList = some ["/a/b/z/c/z".toList, "b/z/c".toList] := by
  decide +kernel

/-- `^/(?:a{2,3}?|b)+?c` -/
def lazyPattern : Body := .last (.one .bol (.one (.lit '/' false) (.lazily (.group (.or (.lazily (.lit 'a' false) (.between 2 3) .nil)
  (.last (.one (.lit 'b' false) .nil)))) .plus (.one (.lit 'c' false) .nil))))

theorem lazyPattern_ok : lazyPattern.ok := by
  simp [lazyPattern, Body.ok, Seqn.ok, Item.ok, Quant.ok, Quant.reps, Item.reps, Body.reps, Seqn.reps, Quant.max, Quant.min]

example : lazyPattern.txt = "^/(?:a{2,3}?|b)+?c".toList := by decide +kernel
example := c145_compile lazyPattern lazyPattern_ok
example : lazyPattern.greedy.txt = "^/(?:a{2,3}|b)+c".toList := by decide +kernel
example := (c145_greedy lazyPattern).1.2 lazyPattern_ok

end Micro.Regex
