import Verif.Regex.LazyProps
set_option linter.unusedSimpArgs false
/-
C145: repetitions of something that prefers the empty text.
-/
namespace Micro.Regex
open Micro

section
variable {α : Type} [Sym α]

/-- The empty text comes first. -/
def Shy (f : Bool → List α → List (Hit α)) : Prop := ∀ bg s, ∃ l, f bg s = ⟨[], s, []⟩ :: l

theorem shy_andThen {f g : Bool → List α → List (Hit α)} (hf : Shy f) (hg : Shy g) : Shy (andThen f g) := by
  intro bg s
  obtain ⟨l, hl⟩ := hf bg s
  obtain ⟨m, hm⟩ := hg (bg && ([] : List α).isEmpty) s
  obtain ⟨k, hk⟩ := andThen_cons hl hm
  exact ⟨k, hk⟩

theorem shy_times {f : Bool → List α → List (Hit α)} (hf : Shy f) : ∀ n, Shy (times f n)
  | 0 => fun _ _ => ⟨[], rfl⟩
  | n + 1 => shy_andThen hf (shy_times hf n)

theorem shy_quests {f : Bool → List α → List (Hit α)} (hf : Shy f) : ∀ n, Shy (quests f n)
  | 0 => fun _ _ => ⟨[], rfl⟩
  | n + 1 => fun bg s => by
    obtain ⟨l, hl⟩ := shy_andThen hf (shy_quests hf n) bg s
    exact ⟨l ++ [⟨[], s, []⟩], by rw [quests, hl]; rfl⟩

theorem shy_questsLazy {f : Bool → List α → List (Hit α)} : ∀ n, Shy (questsLazy f n)
  | 0 => fun _ _ => ⟨[], rfl⟩
  | _ + 1 => fun _ _ => ⟨_, rfl⟩

theorem shy_plus {f more : Bool → List α → List (Hit α)} (hf : Shy f) : Shy (plus f more) := by
  intro bg s
  obtain ⟨l, hl⟩ := hf bg s
  exact ⟨_, by rw [plus, hl]; rfl⟩

/-- A repetition, greedy or lazy, of something that prefers the empty text prefers the empty text. -/
theorem shy_rep (a : Re) (h : Shy (outs (α := α) a)) (min : Nat) (max : Option Nat) : Shy (outs (α := α) (.rep a min max)) := by
  intro bg s
  cases max with
  | some m => exact shy_andThen (shy_times h _) (shy_quests h _) bg s
  | none =>
    cases min with
    | zero =>
      obtain ⟨l, hl⟩ := shy_plus (more := fun bg s => upTo (outs a) s.length bg s) h bg s
      exact ⟨l ++ [⟨[], s, []⟩], by rw [outs, hl]; rfl⟩
    | succ n => exact shy_andThen (shy_times h n) (shy_plus h) bg s

theorem shy_lazy (a : Re) (h : Shy (outs (α := α) a)) (min : Nat) (max : Option Nat) : Shy (outs (α := α) (.lazy a min max)) := by
  intro bg s
  cases max with
  | some m => exact shy_andThen (shy_times h _) (shy_questsLazy _) bg s
  | none =>
    cases min with
    | zero => exact ⟨_, by rw [outs]⟩
    | succ n => exact shy_andThen (shy_times h n) (shy_plus h) bg s

end

/-- `^`, a text, and a captured repetition of nothing or b: `^pre((?:|b)q)`, or with a lazy repetition. -/
def shyBody (lz : Bool) (pre : List Char) (b : Body) (q : Quant) : Body :=
  .last (.one .bol (textSeqn pre (.one (.capture (.last (if lz then .lazily (.group (.or .nil b)) q .nil else .many (.group (.or .nil b)) q .nil))) .nil)))

theorem shyBody_txt (lz : Bool) (pre : List Char) (b : Body) (q : Quant) : (shyBody lz pre b q).txt =
    '^' :: (pre.flatMap quote ++ '(' :: '(' :: '?' :: ':' :: '|' :: (b.txt ++ ')' :: (q.txt ++ ((if lz then ['?'] else []) ++ [')'])))) := by
  cases lz <;> simp [shyBody, Body.txt, Seqn.txt, Item.txt, textSeqn_txt]

theorem shyBody_re (lz : Bool) (pre : List Char) (b : Body) (q : Quant) : (shyBody lz pre b q).re 0 =
    .seq .bol (litsRe pre (.seq (.cap 1 (.seq (if lz then .lazy (.grp (.alt .eps (b.re 1))) q.min q.max else .rep (.grp (.alt .eps (b.re 1))) q.min q.max) .eps))
      .eps)) := by
  cases lz <;> simp [shyBody, Body.re, Seqn.re, Item.re, Item.groups, Seqn.groups, Body.groups, textSeqn_re]

theorem shyBody_ok (lz : Bool) (pre : List Char) (b : Body) (q : Quant) (hb : b.ok) (hq : q.ok) (hr : q.reps (Nat.max 1 b.reps) ≤ 1000) :
    (shyBody lz pre b q).ok := by
  have hg : (Item.group (.or .nil b)).ok := by rw [Item.ok, Body.ok, Seqn.ok]; exact ⟨trivial, hb⟩
  have hgr : (Item.group (.or .nil b)).reps = Nat.max 1 b.reps := by rw [Item.reps, Body.reps, Seqn.reps]
  rw [shyBody, Body.ok, Seqn.ok, Item.ok]
  · refine ⟨trivial, textSeqn_ok _ _ ?_⟩
    rw [Seqn.ok, Item.ok, Body.ok]
    refine ⟨?_, by rw [Seqn.ok]; trivial⟩
    cases lz
    · simp only [Bool.false_eq_true, if_false]
      rw [Seqn.ok, Seqn.ok]
      exact ⟨hg, hq, by rw [hgr]; exact hr, trivial⟩
    · simp only [if_true]
      rw [Seqn.ok, Seqn.ok]
      exact ⟨hg, hq, by rw [hgr]; exact hr, trivial⟩
  all_goals simp

/-- C145. A repetition stops at an iteration that matches nothing: `^pre((?:|b)q)`, whatever b and the repetition q are, greedy or lazy, matches exactly the URLs that
begin with pre, and captures nothing after it (although `b*` may match there). -/
theorem c145_empty (pre : List Char) (b : Body) (hb : b.ok) (q : Quant) (hq : q.ok) (hr : q.reps (Nat.max 1 b.reps) ≤ 1000) (lz : Bool) :
    ∃ re, compile ('^' :: (pre.flatMap quote ++ '(' :: '(' :: '?' :: ':' :: '|' :: (b.txt ++ ')' :: (q.txt ++ ((if lz then ['?'] else []) ++ [')'])))))
        = .ok re ∧
      ∀ url, (∀ t, url = pre ++ t → findSub re url = some (pre :: List.replicate (b.groups + 1) [])) ∧ (¬ pre <+: url → findSub re url = none) := by
  have hc := c145_compile _ (shyBody_ok lz pre b q hb hq hr)
  rw [shyBody_txt] at hc
  refine ⟨_, hc, fun url => ?_⟩
  have hcaps : ((shyBody lz pre b q).re 0).caps = b.groups + 1 := by
    rw [shyBody_re]
    cases lz <;> simp [Re.caps, litsRe_caps, body_caps]
  rw [shyBody_re] at hcaps ⊢
  generalize hx : (if lz = true then Re.lazy (.grp (.alt .eps (b.re 1))) q.min q.max else Re.rep (.grp (.alt .eps (b.re 1))) q.min q.max) = x at hcaps ⊢
  have h0 : Shy (outs (α := Char) (.grp (.alt .eps (b.re 1)))) := fun bg s => ⟨_, rfl⟩
  have hshy : Shy (outs (α := Char) x) := by
    subst hx
    cases lz
    · exact shy_rep _ h0 _ _
    · exact shy_lazy _ h0 _ _
  generalize hre : Re.seq .bol (litsRe pre (.seq (.cap 1 (.seq x .eps)) .eps)) = re at hcaps ⊢
  have hexec : execAt re url 0 = (outs (litsRe pre (.seq (.cap 1 (.seq x .eps)) .eps)) true url).head? := by
    subst hre
    show (andThen (outs .bol) (outs (litsRe pre (.seq (.cap 1 (.seq x .eps)) .eps))) true url).head? = _
    simp [andThen, outs]
  have hlater : ∀ i, i ≠ 0 → execAt re url i = none := by
    intro i hi
    subst hre
    have : (i == 0) = false := by simpa using hi
    unfold execAt
    rw [this]
    rfl
  rw [outs_lits] at hexec
  constructor
  · rintro t rfl
    obtain ⟨l, hl⟩ := hshy (true && pre.isEmpty) t
    have e : ∃ m, outs (.seq (.cap 1 (.seq x .eps)) .eps) (true && pre.isEmpty) t = ⟨[], t, [(1, [])]⟩ :: m := by
      simp only [outs, andThen, hl]
      exact ⟨_, rfl⟩
    obtain ⟨m, hm⟩ := e
    rw [if_pos (List.prefix_append _ _), List.drop_left' rfl, hm] at hexec
    have := search_here (p := 0) (by omega) hexec
    unfold findSub
    rw [this]
    simp only [Option.map_some, parts, hcaps, List.append_nil, Option.some.injEq, List.cons.injEq, true_and]
    apply List.ext_getElem
    · simp
    · intro i h1 h2
      cases i <;> simp [List.lookup]
  · intro hp
    rw [if_neg hp] at hexec
    unfold findSub
    have : search re url 0 = none := by
      refine (searchLoop_none _ _).2 ?_
      intro i _ _
      by_cases hi : i = 0
      · rw [hi]; exact hexec
      · exact hlater i hi
    rw [this]
    rfl

/-- `^/a((?:|/(b))+)` -/
example : (shyBody false "/a".toList (.last (.one (.lit '/' false) (.one (.capture (.last (.one (.lit 'b' false) .nil))) .nil))) .plus).txt =
    "^/a((?:|/(b))+)".toList := by decide +kernel
example := c145_empty "/a".toList (.last (.one (.lit '/' false) (.one (.capture (.last (.one (.lit 'b' false) .nil))) .nil)))
  (by simp [Body.ok, Seqn.ok, Item.ok]) .plus (by simp [Quant.ok]) (by decide +kernel) false

/-- An iteration that matches nothing is only possible as the first: `(a|b*)*` captures b of ab, and `(|a)+` nothing of aa. -/
example : findSub (.rep (.cap 1 (.alt (.lit 'a') (.rep (.lit 'b') 0 none))) 0 none) "ab".toList = some ["ab".toList, "b".toList] ∧
    findSub (.rep (.cap 1 (.alt (.rep (.lit 'a') 0 none) (.lit 'b'))) 1 none) "ab".toList = some ["ab".toList, "b".toList] ∧
    findSub (.rep (.cap 1 (.alt .eps (.lit 'a'))) 1 none) "aa".toList = some [[], []] := by decide +kernel

end Micro.Regex
