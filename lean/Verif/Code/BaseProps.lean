import Verif.Code.Props
import Mathlib.Tactic.Tauto
set_option linter.unusedSimpArgs false
/-
C67: when SetBasePath returns, exactly, and what it leaves alone when it does not.
-/
namespace Micro.Code
open Micro

/-- A directory that may be read, searched and written to: one with permission, or any if the user is root. -/
def Usable (root : Bool) (n : Option Node) : Prop := ∃ u, n = some (.dir u) ∧ (u = true ∨ root = true)

/-- All directories that lead to the path are usable. -/
def Reached (root : Bool) (fs : FS) (p : Path) : Prop := ∀ r, r <+: p → r ≠ p → Usable root (fs r)

theorem walk_reached (root : Bool) (fs : FS) : ∀ (rest pre : Path),
    walk root fs pre rest = none ↔ ∀ r, r <+: rest → r ≠ rest → Usable root (fs (pre ++ r)) := by
  intro rest
  induction rest with
  | nil =>
    intro pre
    simp only [walk, true_iff]
    intro r h1 h2
    exact absurd (List.prefix_nil.1 h1) h2
  | cons c rest ih =>
    intro pre
    have hsplit : (∀ r, r <+: c :: rest → r ≠ c :: rest → Usable root (fs (pre ++ r))) ↔
        Usable root (fs pre) ∧ ∀ r, r <+: rest → r ≠ rest → Usable root (fs ((pre ++ [c]) ++ r)) := by
      constructor
      · intro h
        refine ⟨by simpa using h [] (by simp) (by simp), fun r h1 h2 => ?_⟩
        have := h (c :: r) (by simpa using h1) (by simpa using h2)
        simpa using this
      · rintro ⟨h1, h2⟩ r h3 h4
        cases r with
        | nil => simpa using h1
        | cons d r =>
          rw [List.cons_prefix_cons] at h3
          obtain ⟨rfl, h3⟩ := h3
          have := h2 r h3 (fun e => h4 (by rw [e]))
          simpa using this
    rw [hsplit, ← ih]
    rw [walk]
    cases hf : fs pre with
    | none => simp [Usable]
    | some n =>
      cases n with
      | file => simp [Usable]
      | dir u => cases u <;> cases root <;> simp [Usable]

theorem walk_reached0 (root : Bool) (fs : FS) (p : Path) : walk root fs [] p = none ↔ Reached root fs p := by
  have := walk_reached root fs p []
  simpa [Reached] using this

/-- The first directory on the way that is not usable decides the error. -/
theorem walk_stop (root : Bool) (fs : FS) : ∀ (q pre : Path) (c : String) (rest : Path),
    (∀ r, r <+: q → r ≠ q → Usable root (fs (pre ++ r))) → ¬ Usable root (fs (pre ++ q)) →
    walk root fs pre (q ++ c :: rest) = some (match fs (pre ++ q) with | none => .notExist | some .file => .notDir | some (.dir _) => .denied) := by
  intro q
  induction q with
  | nil =>
    intro pre c rest _ h
    simp only [List.append_nil] at h
    simp only [List.nil_append, walk, List.append_nil]
    cases hf : fs pre with
    | none => rfl
    | some n =>
      cases n with
      | file => rfl
      | dir u =>
        rw [hf] at h
        cases u <;> cases root <;> simp [Usable] at h ⊢
  | cons d q ih =>
    intro pre c rest h1 h2
    have h0 : Usable root (fs pre) := by simpa using h1 [] (by simp) (by simp)
    obtain ⟨u, hu, hv⟩ := h0
    have := ih (pre ++ [d]) c rest (fun r h3 h4 => by
      have := h1 (d :: r) (by simpa using h3) (by simpa using h4)
      simpa using this) (by simpa using h2)
    simp only [List.cons_append, walk, hu]
    rw [if_pos (by rcases hv with rfl | rfl <;> simp), this]
    simp

theorem reached_or (root : Bool) (fs : FS) (p : Path) : Reached root fs p ∨
    ∃ q c rest, p = q ++ c :: rest ∧ Reached root fs q ∧ ¬ Usable root (fs q) := by
  induction p using List.reverseRecOn with
  | nil => left; intro r h1 h2; exact absurd (List.prefix_nil.1 h1) h2
  | append_singleton p c ih =>
    rcases ih with ih | ⟨q, d, rest, h1, h2, h3⟩
    · by_cases hu : Usable root (fs p)
      · left
        intro r h1 h2
        rcases List.prefix_concat_iff.1 h1 with h | h
        · exact absurd (by simpa using h) h2
        · by_cases he : r = p
          · rw [he]; exact hu
          · exact ih r h he
      · exact Or.inr ⟨p, c, [], rfl, ih, hu⟩
    · exact Or.inr ⟨q, d, rest ++ [c], by simp [h1], h2, h3⟩

theorem readDir_eq (root : Bool) (fs : FS) (p : Path) (h : Reached root fs p) :
    (readDir root fs p = none ↔ Usable root (fs p)) ∧ (readDir root fs p = some .notExist ↔ fs p = none) := by
  have hw := (walk_reached0 root fs p).2 h
  unfold readDir stat
  rw [hw]
  cases hf : fs p with
  | none => simp [Usable]
  | some n =>
    cases n with
    | file => simp [Usable]
    | dir u => cases u <;> cases root <;> simp [Usable]

theorem readDir_stop (root : Bool) (fs : FS) (q : Path) (c : String) (rest : Path) (h : Reached root fs q) (hu : ¬ Usable root (fs q)) :
    readDir root fs (q ++ c :: rest) ≠ none ∧ (readDir root fs (q ++ c :: rest) = some .notExist ↔ fs q = none) ∧
    (fs q = none → stat root fs (q ++ c :: rest) = .error .notExist) := by
  have hw := walk_stop root fs q [] c rest (by simpa [Reached] using h) (by simpa using hu)
  simp only [List.nil_append] at hw
  unfold readDir stat
  rw [hw]
  cases hf : fs q with
  | none => simp
  | some n => cases n <;> simp

/-- With the leading directories usable and the path missing, MkdirAll makes one directory. -/
theorem mkdirAll_one (root : Bool) (fs : FS) (p : Path) (hp : p ≠ []) (hr : Reached root fs p) (hn : fs p = none) :
    mkdirAll root fs p = (none, Function.update fs p (some (.dir false))) := by
  obtain ⟨up, c, rfl⟩ : ∃ up c, p = up ++ [c] := by
    rcases List.eq_nil_or_concat p with h | ⟨up, c, h⟩
    · exact absurd h hp
    · exact ⟨up, c, by simpa using h⟩
  have hw := (walk_reached0 root fs _).2 hr
  have hup : Usable root (fs up) := hr up (List.prefix_append _ _) (by simp)
  obtain ⟨u, hu, -⟩ := hup
  have hrup : Reached root fs up := fun r h1 h2 => hr r (h1.trans (List.prefix_append _ _)) (by
    rintro rfl
    have := h1.length_le
    simp at this
    omega)
  have hwu := (walk_reached0 root fs _).2 hrup
  have hst : stat root fs up = .ok (.dir u) := by unfold stat; rw [hwu, hu]
  have hmk : mkdirAllR root fs up.reverse = (none, fs) := by
    generalize hrr : up.reverse = rr
    have hrr2 : rr.reverse = up := by rw [← hrr, List.reverse_reverse]
    cases rr with
    | nil => rw [List.reverse_nil] at hrr2; rw [← hrr2] at hst; simp [mkdirAllR, hst]
    | cons x rr => unfold mkdirAllR; rw [hrr2, hst]
  have hst2 : stat root fs (c :: up.reverse).reverse = .error .notExist := by
    simp only [List.reverse_cons, List.reverse_reverse, stat, hw, hn]
  unfold mkdirAll
  rw [List.reverse_append, List.reverse_singleton, List.singleton_append]
  unfold mkdirAllR
  rw [hst2, hmk]
  simp only [List.reverse_cons, List.reverse_reverse, mkdir, hw, hn]

/-- Root makes all missing directories, as long as no file is in the way. -/
theorem mkdirAllR_root (fs : FS) (h0 : ∃ u, fs [] = some (.dir u)) (htree : ∀ p q, fs p = none → p <+: q → fs q = none) : ∀ l : List String,
    (∀ r, r <+: l.reverse → fs r ≠ some .file) → (mkdirAllR true fs l).1 = none := by
  intro l
  induction l with
  | nil =>
    intro _
    obtain ⟨u, hu⟩ := h0
    simp [mkdirAllR, stat, walk, hu]
  | cons c up ih =>
    intro hfile
    have hup := ih (fun r h => hfile r (h.trans (by simp)))
    unfold mkdirAllR
    cases hst : stat true fs (c :: up).reverse with
    | ok n =>
      cases n with
      | dir u => rfl
      | file => exact absurd (stat_dir hst) (hfile _ (List.prefix_refl _))
    | error e =>
      have hn : fs (c :: up).reverse = none := by
        rcases reached_or true fs (c :: up).reverse with h | ⟨q, d, rest, h1, h2, h3⟩
        · have hw := (walk_reached0 true fs _).2 h
          unfold stat at hst
          rw [hw] at hst
          cases hf : fs (c :: up).reverse with
          | none => rfl
          | some n => rw [hf] at hst; cases hst
        · have hq : q <+: (c :: up).reverse := by rw [h1]; exact List.prefix_append _ _
          refine htree q _ ?_ hq
          cases hf : fs q with
          | none => rfl
          | some n =>
            cases n with
            | file => exact absurd hf (hfile q hq)
            | dir u => exact absurd ⟨u, hf, Or.inr rfl⟩ h3
      obtain ⟨⟨u, s1⟩, s2, s3⟩ := mkdirAllR_spec true up fs hup
      cases hm : mkdirAllR true fs up with
      | mk e1 fs1 =>
        rw [hm] at hup s1 s2 s3
        dsimp only at hup s1 s2 s3
        subst hup
        dsimp only
        have hn1 : fs1 (c :: up).reverse = none := by
          rcases s3 _ hn with h | ⟨-, h⟩
          · exact h
          · have := h.length_le; simp at this; omega
        have hw1 : walk true fs1 [] (c :: up).reverse = none := by
          rw [walk_reached0]
          intro r h1 h2
          rw [List.reverse_cons, ] at h1 h2
          rcases List.prefix_concat_iff.1 h1 with h | h
          · exact absurd (by simpa using h) h2
          · by_cases he : r = up.reverse
            · rw [he]; exact ⟨u, stat_dir s1, Or.inr rfl⟩
            · have hwu : walk true fs1 [] up.reverse = none := by
                unfold stat at s1
                cases hc : walk true fs1 [] up.reverse with
                | none => rfl
                | some e => rw [hc] at s1; cases s1
              exact (walk_reached0 true fs1 _).1 hwu r h he
        simp only [mkdir, hw1, hn1]

/-- Another user makes one missing directory and cannot make one inside it. -/
theorem mkdirAllR_user (fs : FS) (q : Path) (hr : Reached false fs q) (hn : fs q = none) : ∀ l : List String, q <+: l.reverse → q ≠ l.reverse →
    (mkdirAllR false fs l).1 ≠ none := by
  intro l
  induction l with
  | nil =>
    intro h1 h2
    exact absurd (List.prefix_nil.1 h1) h2
  | cons c up ih =>
    intro h1 h2
    have hnu : ¬ Usable false (fs q) := by rw [hn]; rintro ⟨u, h, -⟩; cases h
    obtain ⟨t, ht⟩ := h1
    have hst : stat false fs (c :: up).reverse = .error .notExist := by
      cases t with
      | nil => exact absurd (by simpa using ht) h2
      | cons d t => rw [← ht]; exact (readDir_stop false fs q d t hr hnu).2.2 hn
    have hq : q <+: up.reverse := by
      have h1 : q <+: up.reverse ++ [c] := ⟨t, by rw [ht, List.reverse_cons]⟩
      rcases List.prefix_concat_iff.1 h1 with h | h
      · exact absurd (by simpa using h) h2
      · exact h
    unfold mkdirAllR
    rw [hst]
    dsimp only
    by_cases he : q = up.reverse
    · cases hm : mkdirAllR false fs up with
      | mk e1 fs1 =>
        cases e1 with
        | some e => simp
        | none =>
          obtain ⟨⟨u, s1⟩, -, s3⟩ := mkdirAllR_spec false up fs (by rw [hm])
          rw [hm] at s1 s3
          dsimp only at s1 s3 ⊢
          have hd : fs1 q = some (.dir false) := by
            rcases s3 q hn with h | ⟨h, -⟩
            · rw [← he] at s1; rw [stat_dir s1] at h; cases h
            · exact h
          have hw : walk false fs1 [] (c :: up).reverse ≠ none := by
            intro hw
            obtain ⟨v, h1, h2⟩ := (walk_reached0 false fs1 _).1 hw q (by rw [he]; simp) (by rw [he]; simp)
            rw [hd] at h1; cases h1
            simp at h2
          unfold mkdir
          cases hc : walk false fs1 [] (c :: up).reverse with
          | none => exact absurd hc hw
          | some e => simp
    · have := ih hq he
      cases hm : mkdirAllR false fs up with
      | mk e1 fs1 =>
        cases e1 with
        | some e => simp
        | none => rw [hm] at this; exact absurd rfl this

/-- C67. SetBasePath returns exactly in these cases: the path is a usable directory that can be removed, reached through usable directories; or it is missing and the
directory it is missing from is usable - for a user who is not root only if no directory above it is missing too. Hypotheses on the file system: its root is
a directory, and nothing exists below a path that does not exist. -/
theorem c67_returns_iff (os : OS) (g : Gen) (fs : FS) (bp : List Char) (h0 : ∃ u, fs [] = some (.dir u))
    (htree : ∀ p q, fs p = none → p <+: q → fs q = none) :
    (setBasePath os g fs bp).1 = .returned ↔
      (Reached os.root fs (os.resolve bp) ∧ Usable os.root (fs (os.resolve bp)) ∧ os.blocked fs (os.resolve bp) = none) ∨
      ∃ q, q <+: os.resolve bp ∧ Reached os.root fs q ∧ fs q = none ∧ (os.root = true ∨ q = os.resolve bp) := by
  generalize hp : os.resolve bp = p
  have hset : (setBasePath os g fs bp).1 = (match readDir os.root fs p with
      | some .notExist => (match mkdirAll os.root fs p with | (some _, _) => Res.panicked | (none, _) => .returned)
      | some _ => .panicked
      | none => (match removeAll (os.blocked fs p) (os.part fs p) fs p with
        | (some _, _) => .panicked
        | (none, fs) => (match mkdir os.root fs p with | (some _, _) => Res.panicked | (none, _) => .returned))) := by
    unfold setBasePath
    rw [hp]
    dsimp only
    cases readDir os.root fs p with
    | none =>
      dsimp only
      rcases removeAll (os.blocked fs p) (os.part fs p) fs p with ⟨_ | e, fs1⟩
      · dsimp only
        rcases mkdir os.root fs1 p with ⟨_ | e, fs2⟩ <;> rfl
      · rfl
    | some e =>
      cases e <;> first
        | rfl
        | (dsimp only
           rcases mkdirAll os.root fs p with ⟨_ | e, fs1⟩ <;> rfl)
  rw [hset]
  rcases reached_or os.root fs p with hr | ⟨q, c, rest, hpq, hr, hu⟩
  · obtain ⟨r1, r2⟩ := readDir_eq os.root fs p hr
    by_cases hU : Usable os.root (fs p)
    · rw [r1.2 hU]
      have hnone : ¬ ∃ q, q <+: p ∧ Reached os.root fs q ∧ fs q = none ∧ (os.root = true ∨ q = p) := by
        rintro ⟨q, h1, -, h3, -⟩
        obtain ⟨u, hu, -⟩ := hU
        rw [htree q p h3 h1] at hu; cases hu
      simp only [hnone, or_false, hr, hU, true_and]
      cases hb : os.blocked fs p with
      | some e => simp [removeAll]
      | none =>
        have hw : walk os.root (fun q => if p <+: q then none else fs q) [] p = none := by
          rw [walk_reached0]
          intro r h1 h2
          dsimp only
          rw [if_neg]
          · exact hr r h1 h2
          · intro h3; exact h2 (h1.eq_of_length_le h3.length_le)
        simp [removeAll, mkdir, hw]
    · by_cases hn : fs p = none
      · rw [r2.2 hn]
        have hpne : p ≠ [] := by
          rintro rfl
          obtain ⟨u, hu⟩ := h0
          rw [hn] at hu; cases hu
        rw [mkdirAll_one os.root fs p hpne hr hn]
        simp only [true_iff]
        exact Or.inr ⟨p, List.prefix_refl _, hr, hn, Or.inr rfl⟩
      · have h1 : readDir os.root fs p ≠ none := fun h => hU (r1.1 h)
        have h2 : readDir os.root fs p ≠ some .notExist := fun h => hn (r2.1 h)
        have hrhs : ¬ ((Reached os.root fs p ∧ Usable os.root (fs p) ∧ os.blocked fs p = none) ∨
            ∃ q, q <+: p ∧ Reached os.root fs q ∧ fs q = none ∧ (os.root = true ∨ q = p)) := by
          rintro (⟨-, h, -⟩ | ⟨q, h3, -, h4, -⟩)
          · exact hU h
          · exact hn (htree q p h4 h3)
        cases hd : readDir os.root fs p with
        | none => exact absurd hd h1
        | some e =>
          simp only [hrhs, iff_false]
          cases e <;> first | exact absurd hd h2 | simp
  · obtain ⟨s1, s2, s3⟩ := readDir_stop os.root fs q c rest hr hu
    rw [← hpq] at s1 s2 s3
    have hqp : q <+: p := by rw [hpq]; exact List.prefix_append _ _
    have hqne : q ≠ p := by rw [hpq]; simp
    have hnr : ¬ Reached os.root fs p := fun h => hu (h q hqp hqne)
    by_cases hn : fs q = none
    · rw [s2.2 hn]
      simp only [hnr, false_and, false_or]
      cases hroot : os.root with
      | true =>
        rw [hroot] at hr
        have hall : ∀ r, r <+: p.reverse.reverse → fs r ≠ some .file := by
          intro r h1 h2
          rw [List.reverse_reverse] at h1
          rcases List.prefix_or_prefix_of_prefix h1 hqp with h | h
          · by_cases he : r = q
            · rw [he, hn] at h2; cases h2
            · obtain ⟨u, hu, -⟩ := hr r h he
              rw [h2] at hu; cases hu
          · rw [htree q r hn h] at h2; cases h2
        have := mkdirAllR_root fs h0 htree p.reverse hall
        unfold mkdirAll
        cases hm : mkdirAllR true fs p.reverse with
        | mk e1 fs1 =>
          rw [hm] at this
          dsimp only at this
          subst this
          simp only [true_iff]
          exact ⟨q, hqp, hr, hn, Or.inl (by simp)⟩
      | false =>
        rw [hroot] at hr
        have := mkdirAllR_user fs q hr hn p.reverse (by simpa using hqp) (by simpa using hqne)
        have hrhs : ¬ ∃ q, q <+: p ∧ Reached false fs q ∧ fs q = none ∧ (false = true ∨ q = p) := by
          rintro ⟨q', -, h2, h3, h4 | h4⟩
          · cases h4
          · subst h4; rw [hroot] at hnr; exact hnr h2
        simp only [hrhs, iff_false]
        unfold mkdirAll
        cases hm : mkdirAllR false fs p.reverse with
        | mk e1 fs1 =>
          rw [hm] at this
          cases e1 with
          | none => exact absurd rfl this
          | some e => simp
    · have hrhs : ¬ ((Reached os.root fs p ∧ Usable os.root (fs p) ∧ os.blocked fs p = none) ∨
          ∃ q, q <+: p ∧ Reached os.root fs q ∧ fs q = none ∧ (os.root = true ∨ q = p)) := by
        rintro (⟨h, -⟩ | ⟨q', h3, h5, h4, -⟩)
        · exact hnr h
        · rcases List.prefix_or_prefix_of_prefix h3 hqp with h | h
          · exact hn (htree q' q h4 h)
          · by_cases he : q = q'
            · rw [he] at hn; exact hn h4
            · exact hu (h5 q h he)
      cases hd : readDir os.root fs p with
      | none => exact absurd hd s1
      | some e =>
        simp only [hrhs, iff_false]
        cases e <;> first | exact absurd (s2.1 hd) hn | simp

/-- In the demo file system nothing exists below a path that does not exist. -/
theorem demoFS_tree : ∀ p q, demoFS p = none → p <+: q → demoFS q = none := by
  intro p q h1 h2
  cases hq : demoFS q with
  | none => rfl
  | some n =>
    have h3 : q = [] ∨ q = ["a"] ∨ q = ["b"] ∨ q = ["b", "f"] := by
      unfold demoFS at hq
      by_cases a1 : q = []
      · exact Or.inl a1
      by_cases a2 : q = ["a"]
      · exact Or.inr (Or.inl a2)
      by_cases a3 : q = ["b"]
      · exact Or.inr (Or.inr (Or.inl a3))
      by_cases a4 : q = ["b", "f"]
      · exact Or.inr (Or.inr (Or.inr a4))
      simp [a1, a2, a3, a4] at hq
    have h4 : p ∈ [[], ["a"], ["b"], ["b", "f"]] := by
      have h5 := (List.mem_inits p q).2 h2
      rcases h3 with rfl | rfl | rfl | rfl <;> simp [List.inits] at h5 ⊢ <;> tauto
    simp only [List.mem_cons, List.not_mem_nil, or_false] at h4
    rcases h4 with rfl | rfl | rfl | rfl <;> exact absurd h1 (by decide)

/-- The demo file system meets the hypotheses and both sides. -/
example : (∃ u, demoFS [] = some (.dir u)) ∧ (∀ p q, demoFS p = none → p <+: q → demoFS q = none) ∧ (setBasePath demoOS Gen.zero demoFS ['/', 'b']).1 = .returned := by
  exact ⟨⟨true, rfl⟩, demoFS_tree, by decide⟩

/-- C67. If the path, or a directory leading to it, is a file or a directory the user may not use, SetBasePath panics and the file system is as before. -/
theorem c67_kept (os : OS) (g : Gen) (fs : FS) (bp : List Char) (q : Path) (hq : q <+: os.resolve bp) (hr : Reached os.root fs q)
    (hb : fs q = some .file ∨ (fs q = some (.dir false) ∧ os.root = false)) :
    (setBasePath os g fs bp).1 = .panicked ∧ (setBasePath os g fs bp).2.2 = fs := by
  have hu : ¬ Usable os.root (fs q) := by
    rintro ⟨u, h1, h2⟩
    rcases hb with h | ⟨h, h3⟩
    · rw [h] at h1; cases h1
    · rw [h] at h1; cases h1; rw [h3] at h2; simp at h2
  have hn : fs q ≠ none := by rcases hb with h | ⟨h, -⟩ <;> rw [h] <;> simp
  have key : readDir os.root fs (os.resolve bp) ≠ none ∧ readDir os.root fs (os.resolve bp) ≠ some .notExist := by
    obtain ⟨t, ht⟩ := hq
    cases t with
    | nil =>
      rw [List.append_nil] at ht
      rw [← ht]
      obtain ⟨r1, r2⟩ := readDir_eq os.root fs q hr
      exact ⟨fun h => hu (r1.1 h), fun h => hn (r2.1 h)⟩
    | cons c t =>
      rw [← ht]
      obtain ⟨s1, s2, -⟩ := readDir_stop os.root fs q c t hr hu
      exact ⟨s1, fun h => hn (s2.1 h)⟩
  unfold setBasePath
  dsimp only
  cases hd : readDir os.root fs (os.resolve bp) with
  | none => exact absurd hd key.1
  | some e => cases e <;> first | exact absurd hd key.2 | exact ⟨rfl, rfl⟩

/-- The base path /b/f is a file. -/
example : let os : OS := { demoOS with resolve := fun _ => ["b", "f"] }
    (["b", "f"] : Path) <+: os.resolve ['/', 'b', '/', 'f'] ∧ demoFS ["b", "f"] = some .file ∧ Reached os.root demoFS ["b", "f"] ∧
    (setBasePath os Gen.zero demoFS ['/', 'b', '/', 'f']).1 = .panicked := by
  refine ⟨by decide, by decide, (walk_reached0 _ _ _).1 (by decide), by decide⟩

theorem mkdirAllR_left (fs : FS) (q : Path) (hq0 : q ≠ []) (hr : Reached false fs q) (hn : fs q = none) : ∀ l : List String, q <+: l.reverse → q ≠ l.reverse →
    (mkdirAllR false fs l).2 = Function.update fs q (some (.dir false)) := by
  intro l
  induction l with
  | nil =>
    intro h1 h2
    exact absurd (List.prefix_nil.1 h1) h2
  | cons c up ih =>
    intro h1 h2
    have hnu : ¬ Usable false (fs q) := by rw [hn]; rintro ⟨u, h, -⟩; cases h
    obtain ⟨t, ht⟩ := h1
    have hst : stat false fs (c :: up).reverse = .error .notExist := by
      cases t with
      | nil => exact absurd (by simpa using ht) h2
      | cons d t => rw [← ht]; exact (readDir_stop false fs q d t hr hnu).2.2 hn
    have hq : q <+: up.reverse := by
      have h1 : q <+: up.reverse ++ [c] := ⟨t, by rw [ht, List.reverse_cons]⟩
      rcases List.prefix_concat_iff.1 h1 with h | h
      · exact absurd (by simpa using h) h2
      · exact h
    unfold mkdirAllR
    rw [hst]
    dsimp only
    by_cases he : q = up.reverse
    · have hone := mkdirAll_one false fs q hq0 hr hn
      unfold mkdirAll at hone
      rw [he, List.reverse_reverse, ← he] at hone
      rw [hone]
      dsimp only
      have hw : walk false (Function.update fs q (some (.dir false))) [] (c :: up).reverse ≠ none := by
        intro hw
        obtain ⟨v, h1, h2⟩ := (walk_reached0 false _ _).1 hw q (by rw [he]; simp) (by rw [he]; simp)
        rw [Function.update_self] at h1; cases h1
        simp at h2
      unfold mkdir
      cases hc : walk false (Function.update fs q (some (.dir false))) [] (c :: up).reverse with
      | none => exact absurd hc hw
      | some e => rfl
    · have h1 := ih hq he
      have h2 := mkdirAllR_user fs q hr hn up hq he
      cases hm : mkdirAllR false fs up with
      | mk e1 fs1 =>
        rw [hm] at h1 h2
        cases e1 with
        | some e => exact h1
        | none => exact absurd rfl h2

/-- C67. What a user who is not root is left with if more than one directory is missing: SetBasePath panics, after making the first missing
directory, which nobody may use. -/
theorem c67_left (os : OS) (hroot : os.root = false) (g : Gen) (fs : FS) (bp : List Char) (q : Path) (hq0 : q ≠ []) (hq : q <+: os.resolve bp)
    (hne : q ≠ os.resolve bp) (hr : Reached false fs q) (hn : fs q = none) :
    (setBasePath os g fs bp).1 = .panicked ∧ (setBasePath os g fs bp).2.2 = Function.update fs q (some (.dir false)) := by
  have hnu : ¬ Usable false (fs q) := by rw [hn]; rintro ⟨u, h, -⟩; cases h
  have hrd : readDir false fs (os.resolve bp) = some .notExist := by
    obtain ⟨t, ht⟩ := hq
    cases t with
    | nil => exact absurd (by simpa using ht) hne
    | cons d t => rw [← ht]; exact (readDir_stop false fs q d t hr hnu).2.1.2 hn
  have h1 := mkdirAllR_left fs q hq0 hr hn (os.resolve bp).reverse (by simpa using hq) (by simpa using hne)
  have h2 := mkdirAllR_user fs q hr hn (os.resolve bp).reverse (by simpa using hq) (by simpa using hne)
  unfold setBasePath
  simp only [hroot, hrd, mkdirAll]
  cases hm : mkdirAllR false fs (os.resolve bp).reverse with
  | mk e1 fs1 =>
    rw [hm] at h1 h2
    cases e1 with
    | some e => exact ⟨rfl, h1⟩
    | none => exact absurd rfl h2

/-- /c/x/y, of which nothing exists, for a user who is not root. -/
example := c67_left { demoOS with root := false, resolve := fun _ => ["c", "x", "y"] } rfl Gen.zero demoFS ['c'] ["c"] (by decide) (by decide) (by decide)
  ((walk_reached0 _ _ _).1 (by decide)) (by decide)

end Micro.Code
