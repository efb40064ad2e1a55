import Verif.Regex.RoundSpec
import Verif.Regex.SyntaxProps
set_option linter.unusedSimpArgs false
/-
C145: patterns of any shape are read as what they stand for.
-/
namespace Micro.Regex
open Micro Micro.Rest

/-! ### Numbers -/

theorem digitVal_digitChar (d : Nat) (h : d < 10) : digitVal (Nat.digitChar d) = some d := by
  have : ∀ d < 10, digitVal (Nat.digitChar d) = some d := by decide
  exact this d h

theorem digitsAt_append (a b : List Char) (ha : ∀ c ∈ a, digitVal c ≠ none) (v : Nat) :
    digitsAt v (a ++ b) = ((digitsAt (digitsAt v a).1 b).1, (digitsAt v a).2 + (digitsAt (digitsAt v a).1 b).2) := by
  induction a generalizing v with
  | nil => simp [digitsAt]
  | cons c a ih =>
    obtain ⟨d, hd⟩ := Option.ne_none_iff_exists'.mp (ha c (by simp))
    simp only [List.cons_append, digitsAt, hd, ih (fun c hc => ha c (by simp [hc]))]
    simp only [Prod.mk.injEq, true_and]
    omega

theorem toDigits_spec (n : Nat) : (∀ c ∈ Nat.toDigits 10 n, digitVal c ≠ none) ∧ digitsAt 0 (Nat.toDigits 10 n) = (n, (Nat.toDigits 10 n).length) ∧
    ∃ c l, Nat.toDigits 10 n = c :: l ∧ (c = '0' → l = [] ∧ n = 0) := by
  induction n using Nat.strongRecOn with
  | ind n ih =>
    by_cases h : n < 10
    · rw [Nat.toDigits_of_lt_base h]
      have hd := digitVal_digitChar n h
      refine ⟨by simp [hd], by simp [digitsAt, hd], _, [], rfl, fun h0 => ⟨rfl, ?_⟩⟩
      rw [h0] at hd
      have : digitVal '0' = some 0 := by decide
      rw [this] at hd
      exact (Option.some.inj hd).symm
    · have hlt : n / 10 < n := by omega
      obtain ⟨h1, h2, c, l, h3, h4⟩ := ih (n / 10) hlt
      rw [Nat.toDigits_of_base_le (by omega) (by omega)]
      have hd := digitVal_digitChar (n % 10) (by omega)
      refine ⟨?_, ?_, c, l ++ [Nat.digitChar (n % 10)], by rw [h3]; rfl, fun h0 => ?_⟩
      · intro c hc
        simp only [List.mem_append, List.mem_singleton] at hc
        rcases hc with hc | rfl
        · exact h1 c hc
        · simp [hd]
      · rw [digitsAt_append _ _ h1, h2]
        simp only [digitsAt, hd, List.length_append, List.length_singleton, Prod.mk.injEq, Nat.zero_add, and_true]
        omega
      · obtain ⟨-, h5⟩ := h4 h0
        omega

theorem digitsAt_stop (v : Nat) (a rest : List Char) (ha : ∀ c ∈ a, digitVal c ≠ none) (hr : ∀ c, rest.head? = some c → digitVal c = none) :
    digitsAt v (a ++ rest) = digitsAt v a := by
  rw [digitsAt_append a rest ha]
  cases rest with
  | nil => simp [digitsAt]
  | cons c l => simp [digitsAt, hr c rfl]

theorem intAt_num (n : Nat) (rest : List Char) (hr : ∀ c, rest.head? = some c → digitVal c = none) :
    intAt (Nat.toDigits 10 n ++ rest) = some (n, (Nat.toDigits 10 n).length) := by
  obtain ⟨h1, h2, c, l, h3, h4⟩ := toDigits_spec n
  rw [h3] at h1 h2 ⊢
  obtain ⟨d, hd⟩ := Option.ne_none_iff_exists'.mp (h1 c (by simp))
  have hl : ∀ x ∈ l, digitVal x ≠ none := fun x hx => h1 x (by simp [hx])
  simp only [digitsAt, hd, Nat.zero_mul, Nat.zero_add, List.length_cons, Prod.mk.injEq] at h2
  have h6 : ¬ (c = '0' ∧ (digitsAt d l).2 ≠ 0) := by
    rintro ⟨h0, h5⟩
    rw [(h4 h0).1] at h5
    simp [digitsAt] at h5
  simp only [List.cons_append, intAt, hd, digitsAt_stop d l rest hl hr, List.length_cons, if_neg h6, h2]

theorem brace_exactly (n : Nat) (s : List Char) :
    braceAt (Nat.toDigits 10 n ++ '}' :: s) = some (n, some n, (Nat.toDigits 10 n).length + 1) := by
  unfold braceAt
  rw [intAt_num n _ (by intro c hc; simp at hc; subst hc; decide)]
  simp

theorem brace_atLeast (n : Nat) (s : List Char) :
    braceAt (Nat.toDigits 10 n ++ ',' :: '}' :: s) = some (n, none, (Nat.toDigits 10 n).length + 2) := by
  unfold braceAt
  rw [intAt_num n _ (by intro c hc; simp at hc; subst hc; decide)]
  simp

theorem brace_between (n m : Nat) (s : List Char) :
    braceAt (Nat.toDigits 10 n ++ ',' :: (Nat.toDigits 10 m ++ '}' :: s)) =
      some (n, some m, (Nat.toDigits 10 n).length + 1 + (Nat.toDigits 10 m).length + 1) := by
  unfold braceAt
  rw [intAt_num n _ (by intro c hc; simp at hc; subst hc; decide)]
  have hi := intAt_num m ('}' :: s) (by intro c hc; simp at hc; subst hc; decide)
  obtain ⟨h1, -, c, l, h3, -⟩ := toDigits_spec m
  simp only [List.drop_left']
  have hc : c ≠ '}' := by
    rintro rfl
    exact h1 '}' (by rw [h3]; simp) (by decide)
  rw [h3] at hi ⊢
  simp only [List.cons_append] at hi ⊢
  split
  · rename_i h; simp at h
  · rename_i h; simp at h; exact absurd h.1 hc
  · rename_i h
    simp only [List.cons.injEq, true_and] at h
    subst h
    simp only [hi]
    simp
  · rename_i h1 h2 h3
    exact absurd rfl (h3 _)

/-! ### Reading the parts -/

theorem lex_skip (k : Nat) (s : List Char) : lexRe k s = lexRe 0 (s.drop k) := by
  induction k generalizing s with
  | zero => rfl
  | succ k ih =>
    cases s with
    | nil => simp [lexRe]
    | cons c s => rw [lexRe, ih]; rfl

theorem lex_tok (c : Char) (s : List Char) (t : Tok) (n : Nat) (h : tokAt c s = .ok (t, n)) :
    lexRe 0 (c :: s) = (lexRe 0 (s.drop n)).map (t :: ·) := by
  rw [lexRe, h]
  simp only
  rw [lex_skip]

theorem lex_quant (q : Quant) (hq : q.ok) (s : List Char) (hs : s.head? ≠ some '?') :
    lexRe 0 (q.txt ++ s) = (lexRe 0 s).map (.rep q.min q.max :: ·) := by
  cases q with
  | star => exact lex_tok '*' s _ 0 (by simp [tokAt, repTok, hs, Quant.min, Quant.max])
  | plus => exact lex_tok '+' s _ 0 (by simp [tokAt, repTok, hs, Quant.min, Quant.max])
  | opt => exact lex_tok '?' s _ 0 (by simp [tokAt, repTok, hs, Quant.min, Quant.max])
  | exactly n =>
    simp only [Quant.ok] at hq
    simp only [Quant.txt, List.cons_append, List.append_assoc, List.nil_append]
    rw [lex_tok '{' _ (.rep n (some n)) ((Nat.toDigits 10 n).length + 1)]
    · rw [← List.drop_drop, List.drop_left' rfl]; rfl
    · have : ¬ 1000 < n := by omega
      simp [tokAt, brace_exactly, repTok, ← List.drop_drop, hs, this]
  | atLeast n =>
    simp only [Quant.ok] at hq
    simp only [Quant.txt, List.cons_append, List.append_assoc, List.nil_append]
    rw [lex_tok '{' _ (.rep n none) ((Nat.toDigits 10 n).length + 2)]
    · rw [← List.drop_drop, List.drop_left' rfl]; rfl
    · have : ¬ 1000 < n := by omega
      simp [tokAt, brace_atLeast, repTok, ← List.drop_drop, hs, this]
  | between n m =>
    simp only [Quant.ok] at hq
    simp only [Quant.txt, List.cons_append, List.append_assoc, List.nil_append]
    have hdrop : (Nat.toDigits 10 n ++ ',' :: (Nat.toDigits 10 m ++ '}' :: s)).drop
        ((Nat.toDigits 10 n).length + 1 + (Nat.toDigits 10 m).length + 1) = s := by
      rw [Nat.add_assoc, Nat.add_assoc, ← List.drop_drop, List.drop_left', Nat.add_comm, ]
      · rw [show (Nat.toDigits 10 m).length + 1 + 1 = ((Nat.toDigits 10 m).length + 1) + 1 by omega, List.drop_succ_cons, ← List.drop_drop, List.drop_left' rfl]
        rfl
      · rfl
    rw [lex_tok '{' _ (.rep n (some m)) ((Nat.toDigits 10 n).length + 1 + (Nat.toDigits 10 m).length + 1)]
    · rw [hdrop]; rfl
    · have h1 : ¬ 1000 < n := by omega
      have h2 : ¬ 1000 < m := by omega
      have h3 : ¬ m < n := by omega
      simp only [tokAt, brace_between, repTok, hdrop, hs]
      simp [h1, h2, h3]

theorem lex_quant_lazy (q : Quant) (hq : q.ok) (s : List Char) :
    lexRe 0 (q.txt ++ '?' :: s) = (lexRe 0 s).map (.lazy q.min q.max :: ·) := by
  cases q with
  | star => exact lex_tok '*' ('?' :: s) _ 1 (by simp [tokAt, repTok, Quant.min, Quant.max])
  | plus => exact lex_tok '+' ('?' :: s) _ 1 (by simp [tokAt, repTok, Quant.min, Quant.max])
  | opt => exact lex_tok '?' ('?' :: s) _ 1 (by simp [tokAt, repTok, Quant.min, Quant.max])
  | exactly n =>
    simp only [Quant.ok] at hq
    simp only [Quant.txt, List.cons_append, List.append_assoc, List.nil_append]
    rw [lex_tok '{' _ (.lazy n (some n)) ((Nat.toDigits 10 n).length + 1 + 1)]
    · rw [← List.drop_drop, ← List.drop_drop, List.drop_left' rfl]; rfl
    · have : ¬ 1000 < n := by omega
      simp [tokAt, brace_exactly, repTok, ← List.drop_drop, this]
  | atLeast n =>
    simp only [Quant.ok] at hq
    simp only [Quant.txt, List.cons_append, List.append_assoc, List.nil_append]
    rw [lex_tok '{' _ (.lazy n none) ((Nat.toDigits 10 n).length + 2 + 1)]
    · rw [← List.drop_drop, ← List.drop_drop, List.drop_left' rfl]; rfl
    · have : ¬ 1000 < n := by omega
      simp [tokAt, brace_atLeast, repTok, ← List.drop_drop, this]
  | between n m =>
    simp only [Quant.ok] at hq
    simp only [Quant.txt, List.cons_append, List.append_assoc, List.nil_append]
    have hdrop : (Nat.toDigits 10 n ++ ',' :: (Nat.toDigits 10 m ++ '}' :: '?' :: s)).drop
        ((Nat.toDigits 10 n).length + 1 + (Nat.toDigits 10 m).length + 1) = '?' :: s := by
      rw [Nat.add_assoc, Nat.add_assoc, ← List.drop_drop, List.drop_left', Nat.add_comm, ]
      · rw [show (Nat.toDigits 10 m).length + 1 + 1 = ((Nat.toDigits 10 m).length + 1) + 1 by omega, List.drop_succ_cons, ← List.drop_drop, List.drop_left' rfl]
        rfl
      · rfl
    rw [lex_tok '{' _ (.lazy n (some m)) ((Nat.toDigits 10 n).length + 1 + (Nat.toDigits 10 m).length + 1 + 1)]
    · rw [← List.drop_drop, hdrop]; rfl
    · have h1 : ¬ 1000 < n := by omega
      have h2 : ¬ 1000 < m := by omega
      have h3 : ¬ m < n := by omega
      simp only [tokAt, brace_between, repTok, hdrop]
      simp [h1, h2, h3]

theorem class_skip (first : Bool) (k : Nat) (s : List Char) (hk : k ≤ s.length) :
    classAt first k s = (classAt first 0 (s.drop k)).map fun r => (r.1, r.2 + k) := by
  induction k generalizing s with
  | zero => cases h : classAt first 0 s <;> simp [Compiled.map, h]
  | succ k ih =>
    cases s with
    | nil => simp at hk
    | cons c s =>
      rw [classAt, ih s (by simpa using hk), Compiled.map_map]
      simp only [List.drop_succ_cons]
      congr 1

/-! ### Runes by number -/

theorem hexVal_digit (c : Char) (h : c ∈ "0123456789abcdefABCDEF".toList) :
    hexVal c = some ("0123456789abcdef".toList.idxOf c.toLower) ∧ c ≠ '}' := by
  simp at h
  rcases h with h | h | h | h | h | h | h | h | h | h | h | h | h | h | h | h | h | h | h | h | h | h <;> subst h <;> decide

theorem octVal_digit (c : Char) (h : c ∈ "01234567".toList) : octVal c = some ("01234567".toList.idxOf c) ∧ c ≠ 'x' := by
  simp at h
  rcases h with h | h | h | h | h | h | h | h <;> subst h <;> decide

theorem hexNum_from (ds : List Char) (v : Nat) : v ≤ ds.foldl (fun v c => v * 16 + "0123456789abcdef".toList.idxOf c.toLower) v := by
  induction ds generalizing v with
  | nil => exact Nat.le_refl _
  | cons c ds ih => exact Nat.le_trans (by show v ≤ v * 16 + _; omega) (ih _)

theorem hexRun_digits (ds : List Char) (s : List Char) (v : Nat) (h : ∀ d ∈ ds, d ∈ "0123456789abcdefABCDEF".toList)
    (hv : ds.foldl (fun v c => v * 16 + "0123456789abcdef".toList.idxOf c.toLower) v ≤ 0x10FFFF) :
    hexRun v (ds ++ '}' :: s) = some (ds.foldl (fun v c => v * 16 + "0123456789abcdef".toList.idxOf c.toLower) v, ds.length + 1) := by
  induction ds generalizing v with
  | nil => simp [hexRun]
  | cons c ds ih =>
    obtain ⟨h1, h2⟩ := hexVal_digit c (h c (by simp))
    rw [List.foldl_cons] at hv
    have := hexNum_from ds (v * 16 + "0123456789abcdef".toList.idxOf c.toLower)
    rw [List.cons_append, hexRun, if_neg h2, h1]
    simp only
    rw [if_neg (by omega), ih _ (fun d hd => h d (by simp [hd])) hv]
    rfl

/-- A number begins with a backslash. -/
theorem numTxt (n : Num) : ∃ l, n.txt = '\\' :: l := by cases n <;> exact ⟨_, rfl⟩

theorem validChar_le {n : Nat} (h : n.isValidChar) : n ≤ 0x10FFFF := by
  unfold Nat.isValidChar at h; omega

theorem escNum_txt (n : Num) (h : n.ok) (s : List Char) : ∃ l, n.txt = '\\' :: l ∧ escNum (l ++ s) = .ok (n.c, l.length) ∧
    ∃ c t, l = c :: t ∧ (c = 'x' ∨ c ∈ "01234567".toList) := by
  cases n with
  | two a b =>
    refine ⟨_, rfl, ?_, _, _, rfl, .inl rfl⟩
    obtain ⟨h1, h2⟩ := hexVal_digit a (h a (by simp))
    obtain ⟨h3, h4⟩ := hexVal_digit b (h b (by simp))
    have ha : a ≠ '{' := by rintro rfl; exact absurd (h '{' (by simp)) (by decide)
    have e : numAt ('x' :: a :: b :: s) = some (hexNum [a, b], 3) := by
      rw [numAt, if_pos rfl, hexAt, h1, h3]
      · show some ((_ * 16 + _), 3) = some ((0 * 16 + _) * 16 + _, 3)
        rw [Nat.zero_mul, Nat.zero_add]
      · exact ha
    have hle : hexNum [a, b] < 256 := by
      have := List.idxOf_le_length (a := a.toLower) (l := "0123456789abcdef".toList)
      have ga : "0123456789abcdef".toList.idxOf a.toLower < 16 := by
        have := h a (by simp)
        simp at this
        rcases this with h | h | h | h | h | h | h | h | h | h | h | h | h | h | h | h | h | h | h | h | h | h <;> subst h <;> decide
      have gb : "0123456789abcdef".toList.idxOf b.toLower < 16 := by
        have := h b (by simp)
        simp at this
        rcases this with h | h | h | h | h | h | h | h | h | h | h | h | h | h | h | h | h | h | h | h | h | h <;> subst h <;> decide
      show (0 * 16 + _) * 16 + _ < 256
      omega
    simp only [escNum, List.cons_append, List.nil_append, e]
    rw [if_pos (by unfold Nat.isValidChar; omega)]
    rfl
  | braces ds =>
    refine ⟨_, rfl, ?_, _, _, rfl, .inl rfl⟩
    obtain ⟨hne, hd, hv⟩ := h
    have e : numAt ('x' :: '{' :: (ds ++ '}' :: s)) = some (hexNum ds, ds.length + 3) := by
      cases ds with
      | nil => exact absurd rfl hne
      | cons c ds =>
        have hc := (hexVal_digit c (hd c (by simp))).2
        have hr := hexRun_digits (c :: ds) s 0 hd (validChar_le hv)
        simp only [List.cons_append] at hr ⊢
        rw [numAt, if_pos rfl, hexAt, if_neg (by simpa using hc), hr]
        rfl
    simp only [escNum, List.cons_append, List.append_assoc, List.nil_append, e]
    rw [if_pos hv]
    simp [Num.c]
  | octal a b c =>
    refine ⟨_, rfl, ?_, _, _, rfl, .inr (h a (by simp))⟩
    obtain ⟨h1, hx⟩ := octVal_digit a (h a (by simp))
    obtain ⟨h2, -⟩ := octVal_digit b (h b (by simp))
    obtain ⟨h3, -⟩ := octVal_digit c (h c (by simp))
    have e : numAt (a :: b :: c :: s) = some (octNum [a, b, c], 3) := by
      rw [numAt, if_neg hx, h1]
      simp only [List.head?_cons, Option.bind_some, h2, reduceCtorEq, and_false, if_false, octRun, h3]
      show some ((_ * 8 + _) * 8 + _, 3) = some (((0 * 8 + _) * 8 + _) * 8 + _, 3)
      rw [Nat.zero_mul, Nat.zero_add]
    have g : ∀ d ∈ "01234567".toList, "01234567".toList.idxOf d < 8 := by decide
    have ga := g a (h a (by simp)); have gb := g b (h b (by simp)); have gc := g c (h c (by simp))
    have hle : octNum [a, b, c] < 512 := by
      show ((0 * 8 + _) * 8 + _) * 8 + _ < 512
      omega
    simp only [escNum, List.cons_append, List.nil_append, e]
    rw [if_pos (by unfold Nat.isValidChar; omega)]
    rfl

/-- What a number begins with is no other escape. -/
theorem num_first {c : Char} (h : c = 'x' ∨ c ∈ "01234567".toList) :
    isPunct c = false ∧ ctlChar c = none ∧ perlClass c = none ∧ escRe c = none ∧ unread c = false ∧ c ≠ 'b' ∧ c ≠ 'B' ∧ c ≠ 'Q' := by
  rcases h with rfl | h
  · decide
  · simp at h
    rcases h with h | h | h | h | h | h | h | h <;> subst h <;> decide

theorem classChar_txt (c : CRune) (hc : c.ok) (s : List Char) : classChar (c.txt ++ s) = .ok (c.c, c.txt.length) := by
  cases c with
  | num n =>
    obtain ⟨l, hl, he, c, t, rfl, hf⟩ := escNum_txt n hc s
    obtain ⟨h1, h2, -, -, h5, -⟩ := num_first hf
    simp only [CRune.txt, CRune.c, hl, List.cons_append] at he ⊢
    simp [classChar, h1, h2, h5, he, Compiled.map]
  | rune c esc =>
  cases esc with
  | true =>
    simp only [CRune.ok, if_true] at hc
    simp [CRune.txt, CRune.c, classChar, isPunct, hc.1, hc.2]
  | false =>
    simp only [CRune.ok, Bool.false_eq_true, if_false, List.mem_cons, List.not_mem_nil, or_false, not_or] at hc
    simp only [CRune.txt, CRune.c, Bool.false_eq_true, if_false, List.cons_append, List.nil_append, List.length_singleton]
    unfold classChar
    split <;> simp_all

/-- The first rune of a rune of a class. -/
theorem classTxt_head (c : CRune) (hc : c.ok) : ∃ d l, c.txt = d :: l ∧ d ≠ ']' ∧ d ≠ '[' ∧ d ≠ '-' ∧ d ≠ '^' := by
  cases c with
  | num n =>
    obtain ⟨l, hl⟩ := numTxt n
    exact ⟨_, l, hl, by decide⟩
  | rune c esc =>
  cases esc with
  | true => exact ⟨_, _, rfl, by decide⟩
  | false =>
    simp only [CRune.ok, Bool.false_eq_true, if_false, List.mem_cons, List.not_mem_nil, or_false, not_or] at hc
    exact ⟨_, _, rfl, hc.2.1, hc.2.2.1, hc.2.2.2.2, hc.2.2.2.1⟩

theorem perlClass_punct (c : Char) (h : c.isAlphanum = false) : perlClass c = none := by
  unfold perlClass
  rw [if_neg, if_neg, if_neg]
  all_goals rintro (rfl | rfl) <;> exact absurd h (by decide)

/-- A rune of a class is no class of its own. -/
theorem perlAt_txt (c : CRune) (hc : c.ok) (s : List Char) : perlAt (c.txt ++ s) = none := by
  cases c with
  | num n =>
    obtain ⟨l, hl, he, c, t, rfl, hf⟩ := escNum_txt n hc s
    obtain ⟨-, -, h3, -⟩ := num_first hf
    simp [CRune.txt, hl, perlAt, h3]
  | rune c esc =>
  cases esc with
  | true =>
    simp only [CRune.ok, if_true] at hc
    simp [CRune.txt, perlAt, perlClass_punct c hc.2]
  | false =>
    simp only [CRune.ok, Bool.false_eq_true, if_false, List.mem_cons, List.not_mem_nil, or_false, not_or] at hc
    simp only [CRune.txt, Bool.false_eq_true, if_false, List.cons_append, List.nil_append]
    unfold perlAt
    split <;> simp_all

/-- Letters in a class: a class of its own, or a rune. -/
theorem class_letter_cases (l : Char) (h : (CRange.letter l).ok) :
    (∃ g, perlClass l = some g ∧ (if g.1 then gaps 0 g.2 else g.2) = (CRange.letter l).bounds) ∨
    (∃ d, perlClass l = none ∧ isPunct l = false ∧ ctlChar l = some d ∧ (CRange.letter l).bounds = [(d, d)]) := by
  simp only [CRange.ok, classLetters, List.map_cons, List.map_nil, List.mem_cons, List.not_mem_nil, or_false] at h
  rcases h with rfl | rfl | rfl | rfl | rfl | rfl | rfl | rfl | rfl | rfl | rfl | rfl
  · exact .inl ⟨_, rfl, by decide⟩
  · exact .inl ⟨_, rfl, by decide⟩
  · exact .inl ⟨_, rfl, by decide⟩
  · exact .inl ⟨_, rfl, by decide⟩
  · exact .inl ⟨_, rfl, by decide⟩
  · exact .inl ⟨_, rfl, by decide⟩
  · exact .inr ⟨_, by decide, by decide, rfl, by decide⟩
  · exact .inr ⟨_, by decide, by decide, rfl, by decide⟩
  · exact .inr ⟨_, by decide, by decide, rfl, by decide⟩
  · exact .inr ⟨_, by decide, by decide, rfl, by decide⟩
  · exact .inr ⟨_, by decide, by decide, rfl, by decide⟩
  · exact .inr ⟨_, by decide, by decide, rfl, by decide⟩

/-- Letters outside of a class. -/
theorem letter_esc (l : Char) (h : (Item.letter l).ok) :
    isPunct l = false ∧ escRe l = some ((letters.lookup l).getD .eps) := by
  simp only [Item.ok, letters, List.map_cons, List.map_nil, List.mem_cons, List.not_mem_nil, or_false] at h
  rcases h with rfl | rfl | rfl | rfl | rfl | rfl | rfl | rfl | rfl | rfl | rfl | rfl | rfl | rfl <;> exact ⟨by decide, by decide⟩

theorem lookup_mem {A B : Type} [BEq A] [LawfulBEq A] (l : List (A × B)) (a : A) (b : B) (h : l.lookup a = some b) : (a, b) ∈ l := by
  induction l with
  | nil => simp at h
  | cons x l ih =>
    obtain ⟨k, v⟩ := x
    simp only [List.lookup] at h
    split at h
    · rename_i hk
      simp only [Option.some.injEq] at h
      simp [h, eq_of_beq hk]
    · exact List.mem_cons_of_mem _ (ih h)

/-- What a letter stands for is one rune, or an end of the text. -/
theorem letter_re (l : Char) :
    (∃ neg rs, (letters.lookup l).getD .eps = .cls neg rs) ∨ (∃ c, (letters.lookup l).getD .eps = .lit c) ∨
    (letters.lookup l).getD .eps = .bol ∨ (letters.lookup l).getD .eps = .eol ∨ (letters.lookup l).getD .eps = .eps := by
  cases h : letters.lookup l with
  | none => simp
  | some r =>
    have := lookup_mem _ _ _ h
    simp only [letters, List.mem_cons, Prod.mk.injEq, List.not_mem_nil, or_false] at this
    rcases this with ⟨-, rfl⟩ | ⟨-, rfl⟩ | ⟨-, rfl⟩ | ⟨-, rfl⟩ | ⟨-, rfl⟩ | ⟨-, rfl⟩ | ⟨-, rfl⟩ | ⟨-, rfl⟩ | ⟨-, rfl⟩ | ⟨-, rfl⟩ | ⟨-, rfl⟩ | ⟨-, rfl⟩ |
      ⟨-, rfl⟩ | ⟨-, rfl⟩ <;> simp

theorem class_rune (first : Bool) (t : List Char) (c : Char) (s : List Char)
    (ht : ∃ d l, t = d :: l ∧ d ≠ ']' ∧ d ≠ '[') (hc : classChar (t ++ s) = .ok (c, t.length)) (hp : perlAt (t ++ s) = none)
    (hs : s.head? ≠ some '-' ∨ ∃ s', s = '-' :: ']' :: s') :
    classAt first 0 (t ++ s) = (classAt false 0 s).map fun x => ((c, c) :: x.1, x.2 + t.length) := by
  obtain ⟨d, l, h1, h2, h3⟩ := ht
  rw [h1] at hc hp ⊢
  simp only [List.cons_append] at hc hp ⊢
  have hskip : (classAt false l.length (l ++ s)).map (fun x => ((c, c) :: x.1, x.2 + 1)) =
      (classAt false 0 s).map fun x => ((c, c) :: x.1, x.2 + (l.length + 1)) := by
    rw [class_skip _ _ _ (by simp), List.drop_left' rfl, Compiled.map_map]
    rfl
  rw [classAt, if_neg (by simp [h2]), if_neg (by simp [h3]), hp, hc]
  simp only [List.length_cons, List.drop_succ_cons, List.drop_left', Nat.add_sub_cancel]
  rcases hs with hs | ⟨s', rfl⟩
  · split
    · simp at hs
    · exact hskip
  · simp only [if_true]
    exact hskip

theorem class_letter (first : Bool) (l : Char) (h : (CRange.letter l).ok) (s : List Char) (hs : s.head? ≠ some '-' ∨ ∃ s', s = '-' :: ']' :: s') :
    classAt first 0 ('\\' :: l :: s) = (classAt false 0 s).map fun x => ((CRange.letter l).bounds ++ x.1, x.2 + 2) := by
  rcases class_letter_cases l h with ⟨g, h1, h2⟩ | ⟨d, h1, h2, h3, h4⟩
  · rw [classAt, if_neg (by simp), if_neg (by simp)]
    simp only [perlAt, h1, Option.map_some, h2]
    rw [class_skip _ 1 _ (by simp), Compiled.map_map]
    simp only [List.drop_succ_cons, List.drop_zero]
    rfl
  · rw [h4]
    exact class_rune first ['\\', l] d s ⟨_, _, rfl, by decide, by decide⟩ (by simp [classChar, h2, h3]) (by simp [perlAt, h1]) hs

theorem class_one (first : Bool) (r : CRune) (hr : r.ok) (s : List Char) (hs : s.head? ≠ some '-' ∨ ∃ s', s = '-' :: ']' :: s') :
    classAt first 0 (r.txt ++ s) = (classAt false 0 s).map fun x => ((r.c, r.c) :: x.1, x.2 + r.txt.length) := by
  obtain ⟨d, l, h1, h2, h3, h4, h5⟩ := classTxt_head r hr
  exact class_rune first r.txt r.c s ⟨d, l, h1, h2, h3⟩ (classChar_txt r hr s) (perlAt_txt r hr s) hs

theorem class_span (first : Bool) (lo hi : CRune) (hlo : lo.ok) (hhi : hi.ok) (hr : lo.c ≤ hi.c) (s : List Char) :
    classAt first 0 (lo.txt ++ '-' :: (hi.txt ++ s)) = (classAt false 0 s).map fun x => ((lo.c, hi.c) :: x.1, x.2 + (lo.txt ++ '-' :: hi.txt).length) := by
  obtain ⟨d, l, h1, h2, h3, h4, h5⟩ := classTxt_head lo hlo
  obtain ⟨d', l', g1, g2, g3, g4, g5⟩ := classTxt_head hi hhi
  have hc := classChar_txt lo hlo ('-' :: (hi.txt ++ s))
  have hp := perlAt_txt lo hlo ('-' :: (hi.txt ++ s))
  have hc' := classChar_txt hi hhi s
  rw [h1] at hc hp ⊢
  rw [g1] at hc' hc hp ⊢
  simp only [List.cons_append] at hc hc' hp ⊢
  rw [classAt, if_neg (by simp [h2]), if_neg (by simp [h3]), hp, hc]
  simp only [List.length_cons, List.drop_succ_cons, List.drop_left', g2, if_false, hc']
  rw [if_neg (by simpa using hr), class_skip _ _ _ (by simp; omega)]
  have hdrop : (l ++ '-' :: d' :: (l' ++ s)).drop (l.length + 1 + (l'.length + 1)) = s := by
    rw [Nat.add_assoc, ← List.drop_drop, List.drop_left' rfl, show 1 + (l'.length + 1) = l'.length + 1 + 1 by omega]
    simp
  rw [hdrop, Compiled.map_map]
  congr 1
  funext x
  simp only [Function.comp, List.length_append, List.length_cons, Prod.mk.injEq, true_and]
  omega

theorem class_range (first : Bool) (r : CRange) (hr : r.ok) (s : List Char) (hs : s.head? ≠ some '-' ∨ ∃ s', s = '-' :: ']' :: s') :
    classAt first 0 (r.txt ++ s) = (classAt false 0 s).map fun x => (r.bounds ++ x.1, x.2 + r.txt.length) := by
  cases r with
  | one r => exact class_one first r hr s hs
  | letter l => exact class_letter first l hr s hs
  | span lo hi =>
    simp only [CRange.txt, CRange.bounds, List.append_assoc, List.cons_append]
    exact class_span first lo hi hr.1 hr.2.1 hr.2.2 s

theorem rangeTxt_head (r : CRange) (hr : r.ok) : ∃ d l, r.txt = d :: l ∧ d ≠ '-' ∧ d ≠ '^' := by
  cases r with
  | one r =>
    obtain ⟨d, l, h1, h2, h3, h4, h5⟩ := classTxt_head r hr
    exact ⟨d, l, h1, h4, h5⟩
  | span lo hi =>
    obtain ⟨d, l, h1, h2, h3, h4, h5⟩ := classTxt_head lo hr.1
    exact ⟨d, l ++ '-' :: hi.txt, by simp [CRange.txt, h1], h4, h5⟩
  | letter l => exact ⟨_, _, rfl, by decide, by decide⟩

/-- The end of a class. -/
def classEnd (dash : Bool) : List Char := (if dash then ['-'] else []) ++ [']']

theorem class_ranges (dash : Bool) (rs : List CRange) (hr : ∀ r ∈ rs, r.ok) (s : List Char) (first : Bool) (hf : first = true → rs ≠ [] ∨ dash = true) :
    classAt first 0 (rs.flatMap CRange.txt ++ (classEnd dash ++ s)) = .ok (classBounds rs dash, (rs.flatMap CRange.txt ++ classEnd dash).length) := by
  induction rs generalizing first with
  | nil =>
    cases dash with
    | true => simp [classEnd, classBounds, classAt, classChar, perlAt, Compiled.map]
    | false =>
      have : first = false := by cases first <;> simp_all
      subst this
      simp [classEnd, classBounds, classAt]
  | cons r rs ih =>
    simp only [List.flatMap_cons, List.append_assoc]
    rw [class_range first r (hr r (by simp)) _ ?_, ih (fun q hq => hr q (by simp [hq])) false (by simp)]
    · simp [Compiled.map, classBounds]; omega
    · cases rs with
      | nil => cases dash <;> simp [classEnd]
      | cons q rs =>
        obtain ⟨d, l, h1, h2, -⟩ := rangeTxt_head q (hr q (by simp))
        simp [h1, h2]

theorem tok_class (t : List Char) (ht : t.head? ≠ some '^') : tokAt '[' t = (classAt true 0 t).map fun r => (.atom (.cls false r.1), r.2) := by
  cases t with
  | nil => rfl
  | cons c t =>
    have hc : c ≠ '^' := by simpa using ht
    unfold tokAt
    simp only [Char.reduceEq, if_false, if_true]
    split
    · simp_all
    · rfl

theorem tok_negated (t : List Char) : tokAt '[' ('^' :: t) = (classAt true 0 t).map fun r => (.atom (.cls true r.1), r.2 + 1) := rfl

mutual

/-- The parts of a pattern. -/
def Item.toks : Item → List Tok
  | .lit c _ => [.atom (.lit c)]
  | .num n => [.atom (.lit n.c)]
  | .letter l => [.atom ((letters.lookup l).getD .eps)]
  | .any => [.atom .any]
  | .cls neg rs dash => [.atom (.cls neg (classBounds rs dash))]
  | .bol => [.atom .bol]
  | .eol => [.atom .eol]
  | .group b => .openGrp :: (b.toks ++ [.close])
  | .capture b => .open :: (b.toks ++ [.close])
  | .named _ b => .open :: (b.toks ++ [.close])

def Seqn.toks : Seqn → List Tok
  | .nil => []
  | .one a s => a.toks ++ s.toks
  | .many a q s => a.toks ++ (.rep q.min q.max :: s.toks)
  | .lazily a q s => a.toks ++ (.lazy q.min q.max :: s.toks)

def Body.toks : Body → List Tok
  | .last s => s.toks
  | .or s b => s.toks ++ .bar :: b.toks

end

/-- No pattern begins with `?`. -/
theorem item_head (a : Item) (h : a.ok) : ∃ c l, a.txt = c :: l ∧ c ≠ '?' := by
  cases a with
  | lit c esc =>
    simp only [Item.txt, Item.ok] at h ⊢
    cases esc with
    | true => exact ⟨_, _, rfl, by decide⟩
    | false =>
      simp only [Bool.false_eq_true, if_false, List.mem_cons, List.not_mem_nil, or_false, not_or] at h
      exact ⟨_, _, rfl, h.2.2.2.2.1⟩
  | num n => rw [Item.txt]; obtain ⟨l, hl⟩ := numTxt n; exact ⟨_, _, hl, by decide⟩
  | letter l => exact ⟨_, _, by rw [Item.txt], by decide⟩
  | any => exact ⟨_, _, by rw [Item.txt], by decide⟩
  | cls neg rs dash => exact ⟨_, _, by rw [Item.txt], by decide⟩
  | bol => exact ⟨_, _, by rw [Item.txt], by decide⟩
  | eol => exact ⟨_, _, by rw [Item.txt], by decide⟩
  | group b => exact ⟨_, _, by rw [Item.txt], by decide⟩
  | capture b => exact ⟨_, _, by rw [Item.txt], by decide⟩
  | named name b => exact ⟨_, _, by rw [Item.txt], by decide⟩

theorem seqn_head (q : Seqn) (h : q.ok) (s : List Char) (hs : s.head? ≠ some '?') : (q.txt ++ s).head? ≠ some '?' := by
  cases q with
  | nil => simpa [Seqn.txt] using hs
  | one a r =>
    rw [Seqn.ok] at h
    obtain ⟨c, l, h1, h2⟩ := item_head a h.1
    rw [Seqn.txt, h1]; simpa using h2
  | many a q r =>
    rw [Seqn.ok] at h
    obtain ⟨c, l, h1, h2⟩ := item_head a h.1
    rw [Seqn.txt, h1]; simpa using h2
  | lazily a q r =>
    rw [Seqn.ok] at h
    obtain ⟨c, l, h1, h2⟩ := item_head a h.1
    rw [Seqn.txt, h1]; simpa using h2

theorem body_head (b : Body) (h : b.ok) (s : List Char) (hs : s.head? ≠ some '?') : (b.txt ++ s).head? ≠ some '?' := by
  cases b with
  | last q => rw [Body.ok] at h; rw [Body.txt]; exact seqn_head q h s hs
  | or q b =>
    rw [Body.ok] at h; rw [Body.txt, List.append_assoc]
    exact seqn_head q h.1 _ (by simp)

theorem map_append (x : Compiled (List Tok)) (l m : List Tok) : ((x.map (m ++ ·)).map (l ++ ·)) = x.map (l ++ m ++ ·) := by
  rw [Compiled.map_map]; congr 1; funext t; simp

theorem map_nil (x : Compiled (List Tok)) : x = x.map ([] ++ ·) := by cases x <;> rfl

theorem map_cons (x : Compiled (List Tok)) (t : Tok) (m : List Tok) : ((x.map (m ++ ·)).map (t :: ·)) = x.map (t :: m ++ ·) := by
  rw [Compiled.map_map]; congr 1

theorem name_tok (name : List Char) (h1 : name ≠ []) (h2 : ∀ c ∈ name, c.isAlphanum = true ∨ c = '_') (t : List Char) :
    nameTok (name ++ '>' :: t) = .ok (.open, 3 + name.length + 1) := by
  have hne : ∀ c ∈ name, decide (c ≠ '>') = true := by
    intro c hc
    rcases h2 c hc with h | rfl
    · simp only [decide_eq_true_eq]; rintro rfl; exact absurd h (by decide)
    · decide
  have e1 : (name ++ '>' :: t).takeWhile (· ≠ '>') = name := by
    rw [List.takeWhile_append_of_pos hne]; simp
  have e2 : (name ++ '>' :: t).dropWhile (· ≠ '>') = '>' :: t := by
    rw [List.dropWhile_append_of_pos hne]; simp
  have e3 : (name.all fun c => c.isAlphanum || decide (c = '_')) = true := by
    rw [List.all_eq_true]; intro c hc; simpa using h2 c hc
  unfold nameTok
  simp only [e1, e2, e3, h1]
  simp

mutual

theorem lex_item (a : Item) (h : a.ok) (s : List Char) : lexRe 0 (a.txt ++ s) = (lexRe 0 s).map (a.toks ++ ·) := by
  cases a with
  | lit c esc =>
    simp only [Item.ok] at h
    rw [Item.txt, Item.toks]
    cases esc with
    | true =>
      simp only [if_true] at h
      have hp : isPunct c = true := by simp [isPunct, h.1, h.2]
      exact lex_tok '\\' (c :: s) _ 1 (by simp [tokAt, hp])
    | false =>
      simp only [Bool.false_eq_true, if_false, List.mem_cons, List.not_mem_nil, or_false, not_or] at h
      obtain ⟨h1, h2, h3, h4, h5, h6, h7, h8, h9, h10, h11, h12⟩ := h
      exact lex_tok c s _ 0 (by simp [tokAt, h1, h2, h3, h4, h5, h6, h7, h8, h9, h10, h11, h12])
  | num n =>
    obtain ⟨l, hl, he, c, t, rfl, hf⟩ := escNum_txt n h s
    obtain ⟨h1, -, -, h4, h5, h6, h7, h8⟩ := num_first hf
    rw [Item.txt, Item.toks, hl]
    simp only [List.cons_append] at he
    have := lex_tok '\\' ((c :: t) ++ s) (.atom (.lit n.c)) (c :: t).length (by simp [tokAt, h1, h4, h5, h6, h7, h8, he, Compiled.map])
    rw [List.drop_left' rfl] at this
    exact this
  | letter l =>
    obtain ⟨h1, h2⟩ := letter_esc l h
    rw [Item.txt, Item.toks]
    exact lex_tok '\\' (l :: s) _ 1 (by simp [tokAt, h1, h2])
  | any => rw [Item.txt, Item.toks]; exact lex_tok '.' s _ 0 (by simp [tokAt])
  | bol => rw [Item.txt, Item.toks]; exact lex_tok '^' s _ 0 (by simp [tokAt])
  | eol => rw [Item.txt, Item.toks]; exact lex_tok '$' s _ 0 (by simp [tokAt])
  | cls neg rs dash =>
    simp only [Item.ok] at h
    obtain ⟨h1, h2⟩ := h
    rw [Item.txt, Item.toks]
    have hcl := class_ranges dash rs h2 s true (fun _ => h1)
    cases neg with
    | true =>
      simp only [if_true, List.cons_append, List.nil_append, List.append_assoc]
      rw [lex_tok '[' _ (.atom (.cls true (classBounds rs dash))) ((rs.flatMap CRange.txt ++ classEnd dash).length + 1)]
      · have : rs.flatMap CRange.txt ++ ((if dash then ['-'] else []) ++ ']' :: s) = (rs.flatMap CRange.txt ++ classEnd dash) ++ s := by simp [classEnd]
        rw [List.drop_succ_cons, this, List.drop_left' rfl]
      · have : rs.flatMap CRange.txt ++ ((if dash then ['-'] else []) ++ ']' :: s) = rs.flatMap CRange.txt ++ (classEnd dash ++ s) := by simp [classEnd]
        rw [this, tok_negated, hcl]; rfl
    | false =>
      simp only [Bool.false_eq_true, if_false, List.cons_append, List.nil_append, List.append_assoc]
      have e1 : rs.flatMap CRange.txt ++ ((if dash then ['-'] else []) ++ ']' :: s) = (rs.flatMap CRange.txt ++ classEnd dash) ++ s := by simp [classEnd]
      have e2 : rs.flatMap CRange.txt ++ ((if dash then ['-'] else []) ++ ']' :: s) = rs.flatMap CRange.txt ++ (classEnd dash ++ s) := by simp [classEnd]
      rw [lex_tok '[' _ (.atom (.cls false (classBounds rs dash))) ((rs.flatMap CRange.txt ++ classEnd dash).length)]
      · rw [e1, List.drop_left' rfl]
      · rw [e2, tok_class, hcl]
        · rfl
        · cases rs with
          | nil =>
            cases dash with
            | true => simp [classEnd]
            | false => simp at h1
          | cons r rs =>
            obtain ⟨d, l, g1, -, g2⟩ := rangeTxt_head r (h2 r (by simp))
            simpa [g1] using g2
  | group b =>
    rw [Item.ok] at h
    rw [Item.txt, Item.toks]
    simp only [List.cons_append, List.append_assoc, List.nil_append]
    rw [lex_tok '(' _ .openGrp 2 (by simp [tokAt])]
    simp only [List.drop_succ_cons, List.drop_zero]
    rw [lex_body b h (')' :: s) (by simp), lex_tok ')' s .close 0 (by simp [tokAt]), Compiled.map_map, Compiled.map_map]
    congr 1
  | capture b =>
    rw [Item.ok] at h
    rw [Item.txt, Item.toks]
    simp only [List.cons_append, List.append_assoc, List.nil_append]
    have hh := body_head b h (')' :: s) (by simp)
    rw [lex_tok '(' _ .open 0 (by
      unfold tokAt
      simp only [if_true]
      split
      · rename_i he; rw [he] at hh; simp at hh
      · rename_i he; rw [he] at hh; simp at hh
      · rename_i he; rw [he] at hh; simp at hh
      · rfl)]
    simp only [List.drop_zero]
    rw [lex_body b h (')' :: s) (by simp), lex_tok ')' s .close 0 (by simp [tokAt]), Compiled.map_map, Compiled.map_map]
    congr 1
  | named name b =>
    rw [Item.ok] at h
    obtain ⟨hn1, hn2, h⟩ := h
    rw [Item.txt, Item.toks]
    simp only [List.cons_append, List.append_assoc, List.nil_append]
    rw [lex_tok '(' _ .open (3 + name.length + 1) (by
      unfold tokAt
      simp only [if_true]
      exact name_tok name hn1 hn2 _)]
    rw [show List.drop (3 + name.length + 1) ('?' :: 'P' :: '<' :: (name ++ '>' :: (b.txt ++ ')' :: s))) = b.txt ++ ')' :: s by
      rw [show 3 + name.length + 1 = ((name.length + 1) + 1 + 1) + 1 by omega]
      simp only [List.drop_succ_cons]
      rw [← List.drop_drop, List.drop_left' rfl]; rfl]
    rw [lex_body b h (')' :: s) (by simp), lex_tok ')' s .close 0 (by simp [tokAt]), Compiled.map_map, Compiled.map_map]
    congr 1

theorem lex_seqn (q : Seqn) (h : q.ok) (s : List Char) (hs : s.head? ≠ some '?') : lexRe 0 (q.txt ++ s) = (lexRe 0 s).map (q.toks ++ ·) := by
  cases q with
  | nil => rw [Seqn.txt, Seqn.toks]; exact map_nil _
  | one a r =>
    rw [Seqn.ok] at h
    rw [Seqn.txt, Seqn.toks, List.append_assoc, lex_item a h.1, lex_seqn r h.2 s hs, map_append]
  | many a q r =>
    rw [Seqn.ok] at h
    rw [Seqn.txt, Seqn.toks, List.append_assoc, List.append_assoc, lex_item a h.1, lex_quant q h.2.1 _ (seqn_head r h.2.2.2 s hs),
      lex_seqn r h.2.2.2 s hs, map_cons, map_append]
  | lazily a q r =>
    rw [Seqn.ok] at h
    rw [Seqn.txt, Seqn.toks, List.append_assoc, List.append_assoc, lex_item a h.1, List.cons_append, lex_quant_lazy q h.2.1,
      lex_seqn r h.2.2.2 s hs, map_cons, map_append]

theorem lex_body (b : Body) (h : b.ok) (s : List Char) (hs : s.head? ≠ some '?') : lexRe 0 (b.txt ++ s) = (lexRe 0 s).map (b.toks ++ ·) := by
  cases b with
  | last q => rw [Body.ok] at h; rw [Body.txt, Body.toks, lex_seqn q h s hs]
  | or q b =>
    rw [Body.ok] at h
    rw [Body.txt, Body.toks, List.append_assoc, lex_seqn q h.1 _ (by simp), List.cons_append, lex_tok '|' _ .bar 0 (by simp [tokAt]), List.drop_zero,
      lex_body b h.2 s hs, map_cons, map_append]

end

/-! ### Repetitions of repetitions -/

/-- `reps`, of an expression. -/
def Re.reps : Re → Nat
  | .seq a b | .alt a b => Nat.max a.reps b.reps
  | .grp a | .cap _ a => a.reps
  | .rep a min max => if max = some 0 then 1 else Nat.max 1 (max.getD min) * a.reps
  | .lazy a min max => if max = some 0 then 1 else Nat.max 1 (max.getD min) * a.reps
  | _ => 1

theorem Re.reps_pos (a : Re) : 1 ≤ a.reps := by
  induction a with
  | seq a b ha hb => simp only [Re.reps, Nat.max_def]; split <;> omega
  | alt a b ha hb => simp only [Re.reps, Nat.max_def]; split <;> omega
  | rep a min max ih =>
    simp only [Re.reps]
    split
    · omega
    · exact Nat.mul_pos (by simp only [Nat.max_def]; split <;> omega) ih
  | lazy a min max ih =>
    simp only [Re.reps]
    split
    · omega
    · exact Nat.mul_pos (by simp only [Nat.max_def]; split <;> omega) ih
  | grp a ih => exact ih
  | cap i a ih => exact ih
  | _ => simp [Re.reps]

/-- The check for repetitions of repetitions is that their product is at most n. -/
theorem repValid_iff (a : Re) (n : Nat) (hn : 1 ≤ n) : repValid a n = true ↔ a.reps ≤ n := by
  induction a generalizing n with
  | seq a b ha hb => simp only [repValid, Re.reps, Bool.and_eq_true, ha n hn, hb n hn]; exact (Nat.max_le).symm
  | alt a b ha hb => simp only [repValid, Re.reps, Bool.and_eq_true, ha n hn, hb n hn]; exact (Nat.max_le).symm
  | grp a ih => simp only [repValid, Re.reps, ih n hn]
  | cap i a ih => simp only [repValid, Re.reps, ih n hn]
  | rep a min max ih =>
    have hp := Re.reps_pos a
    simp only [repValid, Re.reps]
    by_cases h0 : max = some 0
    · simp only [h0, if_true]; simpa using hn
    · simp only [if_neg h0]
      generalize max.getD min = m
      by_cases h1 : n < m
      · simp only [if_pos h1, Bool.false_eq_true, false_iff]
        have : Nat.max 1 m = m := by simp only [Nat.max_def]; split <;> omega
        rw [this]
        have := Nat.le_mul_of_pos_right m hp
        omega
      · simp only [if_neg h1]
        by_cases h2 : 0 < m
        · have : Nat.max 1 m = m := by simp only [Nat.max_def]; split <;> omega
          rw [if_pos h2, ih _ (Nat.div_pos (by omega) h2), this, Nat.le_div_iff_mul_le h2, Nat.mul_comm]
        · have hm : m = 0 := by omega
          subst hm
          have : Nat.max 1 0 = 1 := rfl
          rw [if_neg h2, ih n hn, this, Nat.one_mul]
  | lazy a min max ih =>
    have hp := Re.reps_pos a
    simp only [repValid, Re.reps]
    by_cases h0 : max = some 0
    · simp only [h0, if_true]; simpa using hn
    · simp only [if_neg h0]
      generalize max.getD min = m
      by_cases h1 : n < m
      · simp only [if_pos h1, Bool.false_eq_true, false_iff]
        have : Nat.max 1 m = m := by simp only [Nat.max_def]; split <;> omega
        rw [this]
        have := Nat.le_mul_of_pos_right m hp
        omega
      · simp only [if_neg h1]
        by_cases h2 : 0 < m
        · have : Nat.max 1 m = m := by simp only [Nat.max_def]; split <;> omega
          rw [if_pos h2, ih _ (Nat.div_pos (by omega) h2), this, Nat.le_div_iff_mul_le h2, Nat.mul_comm]
        · have hm : m = 0 := by omega
          subst hm
          have : Nat.max 1 0 = 1 := rfl
          rw [if_neg h2, ih n hn, this, Nat.one_mul]
  | _ => simp [repValid, Re.reps, hn]

mutual

theorem item_reps (a : Item) (n : Nat) : (a.re n).reps = a.reps := by
  cases a with
  | group b => rw [Item.re, Item.reps, Re.reps, body_reps]
  | capture b => rw [Item.re, Item.reps, Re.reps, body_reps]
  | named name b => rw [Item.re, Item.reps, Re.reps, body_reps]
  | letter l =>
    rw [Item.re]
    rcases letter_re l with ⟨neg, rs, h⟩ | ⟨c, h⟩ | h | h | h <;> simp [h, Item.reps, Re.reps]
  | _ => simp [Item.re, Item.reps, Re.reps]

theorem seqn_reps (q : Seqn) (n : Nat) : (q.re n).reps = q.reps := by
  cases q with
  | nil => simp [Seqn.re, Seqn.reps, Re.reps]
  | one a r => rw [Seqn.re, Seqn.reps, Re.reps, item_reps, seqn_reps]
  | many a q r => rw [Seqn.re, Seqn.reps, Re.reps, Re.reps, item_reps, seqn_reps, Quant.reps]
  | lazily a q r => rw [Seqn.re, Seqn.reps, Re.reps, Re.reps, item_reps, seqn_reps, Quant.reps]

theorem body_reps (b : Body) (n : Nat) : (b.re n).reps = b.reps := by
  cases b with
  | last q => rw [Body.re, Body.reps, seqn_reps]
  | or q b => rw [Body.re, Body.reps, Re.reps, seqn_reps, body_reps]

end

/-! ### Putting the parts together -/

/-- The expressions of a sequence. -/
def Seqn.list (n : Nat) : Seqn → List Re
  | .nil => []
  | .one a s => a.re n :: s.list (n + a.groups)
  | .many a q s => .rep (a.re n) q.min q.max :: s.list (n + a.groups)
  | .lazily a q s => .lazy (a.re n) q.min q.max :: s.list (n + a.groups)

theorem Seqn.list_re (q : Seqn) (n : Nat) : seqRe (q.list n) = q.re n := by
  match q with
  | .nil => rw [Seqn.re]; rfl
  | .one a s => rw [Seqn.re, ← Seqn.list_re s]; rfl
  | .many a q s => rw [Seqn.re, ← Seqn.list_re s]; rfl
  | .lazily a q s => rw [Seqn.re, ← Seqn.list_re s]; rfl

/-- The alternatives. -/
def Body.alts (n : Nat) : Body → List Re
  | .last s => [s.re n]
  | .or s b => s.re n :: b.alts (n + s.groups)

theorem Body.alts_ne (b : Body) (n : Nat) : b.alts n ≠ [] := by cases b <;> simp [Body.alts]

theorem Body.alts_re (b : Body) (n : Nat) : altRe (b.alts n) = b.re n := by
  match b with
  | .last s => rw [Body.re]; rfl
  | .or s b =>
    rw [Body.re, ← Body.alts_re b, Body.alts]
    cases h : b.alts (n + s.groups) with
    | nil => exact absurd h (b.alts_ne _)
    | cons x l => rfl

mutual

theorem build_item (a : Item) (h : a.ok) (f : Frame) (stack : List Frame) (n : Nat) (r : Bool) (ts : List Tok) :
    build f stack n r (a.toks ++ ts) = build { f with cur := a.re n :: f.cur } stack (n + a.groups) false ts := by
  cases a with
  | lit c esc => simp [Item.toks, Item.re, Item.groups, build]
  | num n => simp [Item.toks, Item.re, Item.groups, build]
  | letter l => simp [Item.toks, Item.re, Item.groups, build]
  | any => simp [Item.toks, Item.re, Item.groups, build]
  | cls neg rs dash => simp [Item.toks, Item.re, Item.groups, build]
  | bol => simp [Item.toks, Item.re, Item.groups, build]
  | eol => simp [Item.toks, Item.re, Item.groups, build]
  | group b =>
    rw [Item.ok] at h
    rw [Item.toks, Item.re, Item.groups]
    simp only [List.cons_append, List.append_assoc, List.nil_append]
    obtain ⟨f', r', h1, h2, h3⟩ := build_body b h ⟨none, [], []⟩ rfl (f :: stack) n false (.close :: ts)
    rw [build, h1, build]
    simp only at h2 h3
    simp only [h2, Frame.body, h3, List.reverse_nil, List.nil_append, Body.alts_re]
  | capture b =>
    rw [Item.ok] at h
    rw [Item.toks, Item.re, Item.groups]
    simp only [List.cons_append, List.append_assoc, List.nil_append]
    obtain ⟨f', r', h1, h2, h3⟩ := build_body b h ⟨some (n + 1), [], []⟩ rfl (f :: stack) (n + 1) false (.close :: ts)
    rw [build, h1, build]
    simp only at h2 h3
    simp only [h2, Frame.body, h3, List.reverse_nil, List.nil_append, Body.alts_re]
    rw [show n + 1 + b.groups = n + (b.groups + 1) by omega]
  | named name b =>
    rw [Item.ok] at h
    replace h := h.2.2
    rw [Item.toks, Item.re, Item.groups]
    simp only [List.cons_append, List.append_assoc, List.nil_append]
    obtain ⟨f', r', h1, h2, h3⟩ := build_body b h ⟨some (n + 1), [], []⟩ rfl (f :: stack) (n + 1) false (.close :: ts)
    rw [build, h1, build]
    simp only at h2 h3
    simp only [h2, Frame.body, h3, List.reverse_nil, List.nil_append, Body.alts_re]
    rw [show n + 1 + b.groups = n + (b.groups + 1) by omega]

theorem build_seqn (q : Seqn) (h : q.ok) (f : Frame) (stack : List Frame) (n : Nat) (r : Bool) (ts : List Tok) :
    ∃ r', build f stack n r (q.toks ++ ts) =
      build { f with cur := (q.list n).reverse ++ f.cur } stack (n + q.groups) r' ts := by
  cases q with
  | nil => exact ⟨r, by simp [Seqn.toks, Seqn.list, Seqn.groups]⟩
  | one a s =>
    rw [Seqn.ok] at h
    obtain ⟨r', h1⟩ := build_seqn s h.2 { f with cur := a.re n :: f.cur } stack (n + a.groups) false ts
    refine ⟨r', ?_⟩
    rw [Seqn.toks, Seqn.groups, List.append_assoc, build_item a h.1, h1, Seqn.list, Nat.add_assoc]
    simp
  | many a q s =>
    rw [Seqn.ok] at h
    obtain ⟨h1, h2, h3, h4⟩ := h
    obtain ⟨r', h5⟩ := build_seqn s h4 { f with cur := .rep (a.re n) q.min q.max :: f.cur } stack (n + a.groups) true ts
    refine ⟨r', ?_⟩
    have hv : repValid (.rep (a.re n) q.min q.max) 1000 = true := by
      rw [repValid_iff _ _ (by omega), Re.reps, item_reps]
      exact h3
    rw [Seqn.toks, Seqn.groups, List.append_assoc, build_item a h1, List.cons_append, build]
    simp only [Bool.false_eq_true, if_false, hv, and_false, reduceCtorEq]
    rw [h5, Seqn.list, Nat.add_assoc]
    simp
  | lazily a q s =>
    rw [Seqn.ok] at h
    obtain ⟨h1, h2, h3, h4⟩ := h
    obtain ⟨r', h5⟩ := build_seqn s h4 { f with cur := .lazy (a.re n) q.min q.max :: f.cur } stack (n + a.groups) true ts
    refine ⟨r', ?_⟩
    have hv : repValid (.lazy (a.re n) q.min q.max) 1000 = true := by
      rw [repValid_iff _ _ (by omega), Re.reps, item_reps]
      exact h3
    rw [Seqn.toks, Seqn.groups, List.append_assoc, build_item a h1, List.cons_append, build]
    simp only [Bool.false_eq_true, if_false, hv, and_false, reduceCtorEq]
    rw [h5, Seqn.list, Nat.add_assoc]
    simp

theorem build_body (b : Body) (h : b.ok) (f : Frame) (hf : f.cur = []) (stack : List Frame) (n : Nat) (r : Bool) (ts : List Tok) :
    ∃ f' r', build f stack n r (b.toks ++ ts) = build f' stack (n + b.groups) r' ts ∧ f'.cap = f.cap ∧
      f'.alts.reverse ++ [seqRe f'.cur.reverse] = f.alts.reverse ++ b.alts n := by
  cases b with
  | last q =>
    rw [Body.ok] at h
    obtain ⟨r', h1⟩ := build_seqn q h f stack n r ts
    refine ⟨{ f with cur := (q.list n).reverse ++ f.cur }, r', by rw [Body.toks, Body.groups, h1], rfl, ?_⟩
    simp [hf, Body.alts, Seqn.list_re]
  | or q b =>
    rw [Body.ok] at h
    obtain ⟨r', h1⟩ := build_seqn q h.1 f stack n r (.bar :: (b.toks ++ ts))
    obtain ⟨f', r'', h2, h3, h4⟩ := build_body b h.2 { f with alts := seqRe ((q.list n).reverse ++ f.cur).reverse :: f.alts, cur := [] } rfl stack
      (n + q.groups) false ts
    refine ⟨f', r'', ?_, h3, ?_⟩
    · rw [Body.toks, Body.groups, List.append_assoc, List.cons_append, h1, build, h2, Nat.add_assoc]
    · rw [h4]; simp [hf, Body.alts, Seqn.list_re]

end

/-! ### C145 -/

/-- C145. Every pattern is read as what it stands for. -/
theorem c145_compile (b : Body) (h : b.ok) : compile b.txt = .ok (b.re 0) := by
  have hl := lex_body b h [] (by simp)
  rw [List.append_nil] at hl
  have h0 : lexRe 0 [] = .ok [] := rfl
  rw [h0] at hl
  simp only [Compiled.map, List.append_nil] at hl
  obtain ⟨f', r', h1, -, h3⟩ := build_body b h ⟨none, [], []⟩ rfl [] 0 false []
  rw [List.append_nil] at h1
  unfold compile
  rw [hl]
  simp only
  rw [h1, build]
  simp only [Frame.body, h3, List.reverse_nil, List.nil_append, Body.alts_re]

/-- C145. Parentheses that do not match are refused: one that closes nothing, and one that is not closed. -/
theorem c145_unbalanced (b c : Body) (hb : b.ok) (hc : c.ok) :
    compile (b.txt ++ ')' :: c.txt) = .bad ∧ compile (b.txt ++ '(' :: c.txt) = .bad ∧ compile (b.txt ++ '(' :: '?' :: ':' :: c.txt) = .bad := by
  have hl := lex_body c hc [] (by simp)
  rw [List.append_nil, show lexRe 0 [] = .ok [] from rfl] at hl
  simp only [Compiled.map, List.append_nil] at hl
  obtain ⟨f', r', h1, -, -⟩ := build_body c hc ⟨none, [], []⟩ rfl [] 0 false []
  refine ⟨?_, ?_, ?_⟩
  · unfold compile
    rw [lex_body b hb _ (by simp), lex_tok ')' _ .close 0 (by simp [tokAt]), List.drop_zero, hl]
    simp only [Compiled.map]
    obtain ⟨f1, r1, h1, -, -⟩ := build_body b hb ⟨none, [], []⟩ rfl [] 0 false (.close :: c.toks)
    rw [h1, build]
  · unfold compile
    have hh := body_head c hc [] (by simp)
    rw [List.append_nil] at hh
    rw [lex_body b hb _ (by simp), lex_tok '(' _ .open 0 (by
      unfold tokAt
      simp only [if_true]
      split
      · rename_i he; rw [he] at hh; simp at hh
      · rename_i he; rw [he] at hh; simp at hh
      · rename_i he; rw [he] at hh; simp at hh
      · rfl), List.drop_zero, hl]
    simp only [Compiled.map]
    obtain ⟨f1, r1, h1, -, -⟩ := build_body b hb ⟨none, [], []⟩ rfl [] 0 false (.open :: c.toks)
    obtain ⟨f2, r2, h2, -, -⟩ := build_body c hc ⟨some (0 + b.groups + 1), [], []⟩ rfl [f1] (0 + b.groups + 1) false []
    rw [List.append_nil] at h2
    rw [h1, build, h2, build]
  · unfold compile
    rw [lex_body b hb _ (by simp), lex_tok '(' _ .openGrp 2 (by simp [tokAt])]
    simp only [List.drop_succ_cons, List.drop_zero]
    rw [hl]
    simp only [Compiled.map]
    obtain ⟨f1, r1, h1, -, -⟩ := build_body b hb ⟨none, [], []⟩ rfl [] 0 false (.openGrp :: c.toks)
    obtain ⟨f2, r2, h2, -, -⟩ := build_body c hc ⟨none, [], []⟩ rfl [f1] (0 + b.groups) false []
    rw [List.append_nil] at h2
    rw [h1, build, h2, build]

/-- What begins with a rune that cannot begin anything there makes the pattern an error. -/
theorem lex_bad (b : Body) (hb : b.ok) (d : Char) (t : List Char) (h : tokAt d t = .bad) (hd : d ≠ '?') : compile (b.txt ++ d :: t) = .bad := by
  unfold compile
  rw [lex_body b hb (d :: t) (by simpa using hd), lexRe, h]
  rfl

/-- C145. The name of a group is not empty, is made of letters, digits and `_`, and ends with `>`: otherwise the pattern is refused. -/
theorem c145_name (b : Body) (hb : b.ok) (name s : List Char) (hn : '>' ∉ name) :
    compile (b.txt ++ '(' :: '?' :: 'P' :: '<' :: name) = .bad ∧
    ((name = [] ∨ ∃ c ∈ name, c.isAlphanum = false ∧ c ≠ '_') → compile (b.txt ++ '(' :: '?' :: 'P' :: '<' :: (name ++ '>' :: s)) = .bad) := by
  have hne : ∀ c ∈ name, decide (c ≠ '>') = true := by
    intro c hc
    simp only [decide_eq_true_eq]; rintro rfl; exact hn hc
  constructor
  · refine lex_bad b hb _ _ ?_ (by decide)
    unfold tokAt
    simp only [if_true]
    have : name.dropWhile (· ≠ '>') = [] := by rw [List.dropWhile_eq_nil_iff]; exact hne
    unfold nameTok
    simp only [this]
    simp
  · intro h
    refine lex_bad b hb _ _ ?_ (by decide)
    unfold tokAt
    simp only [if_true]
    have e1 : (name ++ '>' :: s).takeWhile (· ≠ '>') = name := by
      rw [List.takeWhile_append_of_pos hne]; simp
    have e2 : (name ++ '>' :: s).dropWhile (· ≠ '>') = '>' :: s := by
      rw [List.dropWhile_append_of_pos hne]; simp
    unfold nameTok
    simp only [e1, e2]
    rw [if_neg (by simp), if_pos]
    rcases h with h | ⟨c, hc, h3, h4⟩
    · exact .inl h
    · refine .inr ?_
      rw [List.all_eq_false]
      exact ⟨c, hc, by simp [h3, h4]⟩

/-- C145. A repetition with nothing before it is refused, and so is a repetition directly after a repetition, be they greedy or lazy (but a `?` after a
greedy one makes it lazy). -/
theorem c145_dangling (b : Body) (hb : b.ok) (a : Item) (ha : a.ok) (q q' : Quant) (hq : q.ok) (hq' : q'.ok) :
    compile (q.txt ++ b.txt) = .bad ∧ compile (q.txt ++ '?' :: b.txt) = .bad ∧
    (q'.txt ≠ ['?'] → compile (a.txt ++ (q.txt ++ (q'.txt ++ b.txt))) = .bad ∧ compile (a.txt ++ (q.txt ++ (q'.txt ++ '?' :: b.txt))) = .bad) ∧
    compile (a.txt ++ (q.txt ++ '?' :: (q'.txt ++ b.txt))) = .bad ∧ compile (a.txt ++ (q.txt ++ '?' :: (q'.txt ++ '?' :: b.txt))) = .bad := by
  have hl := lex_body b hb [] (by simp)
  rw [List.append_nil, show lexRe 0 [] = .ok [] from rfl] at hl
  simp only [Compiled.map, List.append_nil] at hl
  have hh := body_head b hb [] (by simp)
  rw [List.append_nil] at hh
  have stack1 : ∀ ts, build ⟨none, [], []⟩ [] 0 false (a.toks ++ (.rep q.min q.max :: .rep q'.min q'.max :: ts)) = .bad := by
    intro ts
    rw [build_item a ha, build]
    simp only [Bool.false_eq_true, if_false]
    split
    · rfl
    · rw [build]; simp
  have stack2 : ∀ ts, build ⟨none, [], []⟩ [] 0 false (a.toks ++ (.rep q.min q.max :: .lazy q'.min q'.max :: ts)) = .bad := by
    intro ts
    rw [build_item a ha, build]
    simp only [Bool.false_eq_true, if_false]
    split
    · rfl
    · rw [build]; simp
  have stack3 : ∀ ts, build ⟨none, [], []⟩ [] 0 false (a.toks ++ (.lazy q.min q.max :: .rep q'.min q'.max :: ts)) = .bad := by
    intro ts
    rw [build_item a ha, build]
    simp only [Bool.false_eq_true, if_false]
    split
    · rfl
    · rw [build]; simp
  have stack4 : ∀ ts, build ⟨none, [], []⟩ [] 0 false (a.toks ++ (.lazy q.min q.max :: .lazy q'.min q'.max :: ts)) = .bad := by
    intro ts
    rw [build_item a ha, build]
    simp only [Bool.false_eq_true, if_false]
    split
    · rfl
    · rw [build]; simp
  have head' : q'.txt ≠ ['?'] → ∀ t : List Char, (q'.txt ++ t).head? ≠ some '?' := by
    intro hn t
    cases q' <;> simp [Quant.txt] at hn ⊢
  refine ⟨?_, ?_, fun hn => ⟨?_, ?_⟩, ?_, ?_⟩
  · unfold compile
    rw [lex_quant q hq _ hh, hl]
    simp only [Compiled.map]
    rw [build]
  · unfold compile
    rw [lex_quant_lazy q hq, hl]
    simp only [Compiled.map]
    rw [build]
  · unfold compile
    rw [lex_item a ha, lex_quant q hq _ (head' hn _), lex_quant q' hq' _ hh, hl]
    exact stack1 _
  · unfold compile
    rw [lex_item a ha, lex_quant q hq _ (head' hn _), lex_quant_lazy q' hq', hl]
    exact stack2 _
  · unfold compile
    rw [lex_item a ha, lex_quant_lazy q hq, lex_quant q' hq' _ hh, hl]
    exact stack3 _
  · unfold compile
    rw [lex_item a ha, lex_quant_lazy q hq, lex_quant_lazy q' hq', hl]
    exact stack4 _

/-- Other runes after a backslash are no number. -/
theorem escNum_bad (c : Char) (s : List Char) (h1 : c ≠ 'x') (h2 : c ∉ "01234567".toList) : escNum (c :: s) = .bad := by
  have ho : octVal c = none := by
    unfold octVal
    rw [if_neg]
    rintro ⟨a, b⟩
    apply h2
    have ha : 48 ≤ c.toNat := a
    have hb : c.toNat ≤ 55 := b
    have : ∀ k : Fin 8, Char.ofNat (48 + k.val) ∈ "01234567".toList := by decide
    have h3 := this ⟨c.toNat - 48, by omega⟩
    rw [show 48 + (c.toNat - 48) = c.toNat by omega, Char.ofNat_toNat] at h3
    exact h3
  have e : numAt (c :: s) = none := by
    rw [numAt, if_neg h1, ho]
  simp [escNum, e]

/-- C145. A letter or digit after a backslash never stands for itself, in a class or outside of one, nor does a rune beyond ASCII: except for those
which mean something (`letters`, `classLetters`, those numbers begin with, and some that are not in this model) the pattern is refused, wherever it is found. A backslash at the
end of a pattern is refused. -/
theorem c145_escape (b : Body) (hb : b.ok) (c : Char) (hc : c.isAlphanum = true ∨ 128 ≤ c.toNat) (hx : c ∉ "01234567xpP".toList) (s : List Char) :
    (c ∉ letters.map Prod.fst → c ∉ "bBQ".toList → compile (b.txt ++ '\\' :: c :: s) = .bad) ∧
    (c ∉ classLetters.map Prod.fst → compile (b.txt ++ '[' :: '\\' :: c :: s) = .bad ∧ compile (b.txt ++ '[' :: '^' :: '\\' :: c :: s) = .bad) ∧
    compile (b.txt ++ ['\\']) = .bad := by
  have hp : isPunct c = false := by
    unfold isPunct
    rcases hc with hc | hc
    · simp [hc]
    · simp [show ¬ c.toNat < 128 by omega]
  have hu : unread c = false := by simp at hx; simp [unread, hx]
  have hn : escNum (c :: s) = .bad := escNum_bad c s (by rintro rfl; exact hx (by decide)) (fun h => hx ((by decide : ∀ d ∈ "01234567".toList, d ∈ "01234567xpP".toList) c h))
  have hbad : ∀ d t, tokAt d t = .bad → d ≠ '?' → compile (b.txt ++ d :: t) = .bad := by
    intro d t h hd
    unfold compile
    rw [lex_body b hb _ (by simpa using hd), lexRe, h]
    simp [Compiled.map]
  refine ⟨fun h1 h2 => hbad _ _ ?_ (by decide), fun h1 => ?_, hbad _ _ (by simp [tokAt]) (by decide)⟩
  · have he : escRe c = none := by
      simp only [letters, List.map_cons, List.map_nil, List.mem_cons, List.not_mem_nil, or_false, not_or] at h1
      obtain ⟨a1, a2, a3, a4, a5, a6, a7, a8, a9, a10, a11, a12, a13, a14⟩ := h1
      simp [escRe, perlClass, ctlChar, a1, a2, a3, a4, a5, a6, a7, a8, a9, a10, a11, a12, a13, a14]
    simp at h2
    simp [tokAt, hp, he, hu, h2, hn, Compiled.map]
  · have hcl : classAt true 0 ('\\' :: c :: s) = .bad := by
      simp only [classLetters, List.map_cons, List.map_nil, List.mem_cons, List.not_mem_nil, or_false, not_or] at h1
      obtain ⟨a1, a2, a3, a4, a5, a6, a7, a8, a9, a10, a11, a12⟩ := h1
      have h2 : perlAt ('\\' :: c :: s) = none := by simp [perlAt, perlClass, a1, a2, a3, a4, a5, a6]
      have h3 : classChar ('\\' :: c :: s) = .bad := by
        simp [classChar, hp, ctlChar, hu, a7, a8, a9, a10, a11, a12, hn, Compiled.map]
      rw [classAt, if_neg (by simp), if_neg (by simp), h2, h3]
    exact ⟨hbad _ _ (by simp [tokAt, hcl, Compiled.map]) (by decide), hbad _ _ (by simp [tokAt, hcl, Compiled.map]) (by decide)⟩

/-- Non-vacuity: `/\y` and `/[\Z`. -/
example := (c145_escape (.last (.one (.lit '/' false) .nil)) (by simp [Body.ok, Seqn.ok, Item.ok]) 'y' (by decide) (by decide) []).1 (by decide) (by decide)
example := (c145_escape (.last (.one (.lit '/' false) .nil)) (by simp [Body.ok, Seqn.ok, Item.ok]) 'Z' (by decide) (by decide) []).2.1 (by decide)

mutual

theorem item_caps (a : Item) (n : Nat) : (a.re n).caps = a.groups := by
  cases a with
  | group b => rw [Item.re, Item.groups, Re.caps, body_caps]
  | capture b => rw [Item.re, Item.groups, Re.caps, body_caps]
  | named name b => rw [Item.re, Item.groups, Re.caps, body_caps]
  | letter l =>
    rw [Item.re]
    rcases letter_re l with ⟨neg, rs, h⟩ | ⟨c, h⟩ | h | h | h <;> simp [h, Item.groups, Re.caps]
  | _ => simp [Item.re, Item.groups, Re.caps]

theorem seqn_caps (q : Seqn) (n : Nat) : (q.re n).caps = q.groups := by
  cases q with
  | nil => simp [Seqn.re, Seqn.groups, Re.caps]
  | one a r => rw [Seqn.re, Seqn.groups, Re.caps, item_caps, seqn_caps]
  | many a q r => rw [Seqn.re, Seqn.groups, Re.caps, Re.caps, item_caps, seqn_caps]
  | lazily a q r => rw [Seqn.re, Seqn.groups, Re.caps, Re.caps, item_caps, seqn_caps]

theorem body_caps (b : Body) (n : Nat) : (b.re n).caps = b.groups := by
  cases b with
  | last q => rw [Body.re, Body.groups, seqn_caps]
  | or q b => rw [Body.re, Body.groups, Re.caps, seqn_caps, body_caps]

end

mutual

theorem item_small (a : Item) (h : a.ok) : a.reps ≤ 1000 := by
  cases a with
  | group b => rw [Item.ok] at h; rw [Item.reps]; exact body_small b h
  | capture b => rw [Item.ok] at h; rw [Item.reps]; exact body_small b h
  | named name b => rw [Item.ok] at h; rw [Item.reps]; exact body_small b h.2.2
  | _ => simp [Item.reps]

theorem seqn_small (q : Seqn) (h : q.ok) : q.reps ≤ 1000 := by
  cases q with
  | nil => simp [Seqn.reps]
  | one a r => rw [Seqn.ok] at h; rw [Seqn.reps]; exact Nat.max_le.mpr ⟨item_small a h.1, seqn_small r h.2⟩
  | many a q r => rw [Seqn.ok] at h; rw [Seqn.reps]; exact Nat.max_le.mpr ⟨h.2.2.1, seqn_small r h.2.2.2⟩
  | lazily a q r => rw [Seqn.ok] at h; rw [Seqn.reps]; exact Nat.max_le.mpr ⟨h.2.2.1, seqn_small r h.2.2.2⟩

theorem body_small (b : Body) (h : b.ok) : b.reps ≤ 1000 := by
  cases b with
  | last q => rw [Body.ok] at h; rw [Body.reps]; exact seqn_small q h
  | or q b => rw [Body.ok] at h; rw [Body.reps]; exact Nat.max_le.mpr ⟨seqn_small q h.1, body_small b h.2⟩

end

theorem lex_quant_bad (q : Quant) (hq : ¬ q.ok) (t : List Char) : lexRe 0 (q.txt ++ t) = .bad := by
  have key : ∀ s, tokAt '{' s = .bad → lexRe 0 ('{' :: s) = .bad := by intro s h; rw [lexRe, h]
  cases q with
  | star => exact absurd trivial hq
  | plus => exact absurd trivial hq
  | opt => exact absurd trivial hq
  | exactly n =>
    simp only [Quant.ok] at hq
    simp only [Quant.txt, List.cons_append, List.append_assoc, List.nil_append]
    refine key _ ?_
    have : 1000 < n := by omega
    have hb := brace_exactly n t
    simp [tokAt, hb, repTok, this]
  | atLeast n =>
    simp only [Quant.ok] at hq
    simp only [Quant.txt, List.cons_append, List.append_assoc, List.nil_append]
    refine key _ ?_
    have : 1000 < n := by omega
    have hb := brace_atLeast n t
    simp [tokAt, hb, repTok, this]
  | between n m =>
    simp only [Quant.ok] at hq
    simp only [Quant.txt, List.cons_append, List.append_assoc, List.nil_append]
    refine key _ ?_
    have hb := brace_between n m t
    have h3 : 1000 < n ∨ 1000 < m ∨ m < n := by omega
    simp only [tokAt, hb, repTok]
    simp [h3]

/-- C145. A `]` directly at the beginning of a class (after `^`, if there is one) is a rune of the class; `[]` and `[^]` alone, and classes that do not end, are errors; so is a range that is not in
order. -/
theorem c145_class (neg dash : Bool) (rs : List CRange) (hr : ∀ r ∈ rs, r.ok) (lo hi : CRune) (hlo : lo.ok) (hhi : hi.ok) (hlt : hi.c < lo.c) (s : List Char) :
    compile ('[' :: ((if neg then ['^'] else []) ++ (']' :: (rs.flatMap CRange.txt ++ ((if dash then ['-'] else []) ++ [']']))))) =
      .ok (.seq (.cls neg ((']', ']') :: classBounds rs dash)) .eps) ∧
    compile ('[' :: ((if neg then ['^'] else []) ++ [']'])) = .bad ∧
    compile ('[' :: ((if neg then ['^'] else []) ++ rs.flatMap CRange.txt)) = .bad ∧
    compile ('[' :: ((if neg then ['^'] else []) ++ (lo.txt ++ '-' :: (hi.txt ++ s)))) = .bad := by
  have hend : ∀ (rs : List CRange), (∀ r ∈ rs, r.ok) → ∀ first, classAt first 0 (rs.flatMap CRange.txt) = .bad := by
    intro rs
    induction rs with
    | nil => intro _ first; rfl
    | cons r rs ih =>
      intro hr first
      rw [List.flatMap_cons, class_range first r (hr r (by simp)), ih (fun q hq => hr q (by simp [hq])) false]
      · rfl
      · cases rs with
        | nil => simp
        | cons q rs =>
          obtain ⟨d, l, h1, h2, -⟩ := rangeTxt_head q (hr q (by simp))
          simp [h1, h2]
  have hfirst : classAt true 0 (']' :: (rs.flatMap CRange.txt ++ (classEnd dash ++ []))) =
      .ok ((']', ']') :: classBounds rs dash, (rs.flatMap CRange.txt ++ classEnd dash).length + 1) := by
    have hcl := class_ranges dash rs hr [] false (by simp)
    rw [classAt, if_neg (by simp), if_neg (by simp)]
    have hc : classChar (']' :: (rs.flatMap CRange.txt ++ (classEnd dash ++ []))) = .ok (']', 1) := rfl
    have hp : perlAt (']' :: (rs.flatMap CRange.txt ++ (classEnd dash ++ []))) = none := rfl
    rw [hp, hc]
    simp only [List.drop_succ_cons, List.drop_zero, Nat.sub_self]
    cases rs with
    | nil => cases dash <;> rfl
    | cons r rs =>
      obtain ⟨d, l, g1, g2, -⟩ := rangeTxt_head r (hr r (by simp))
      split
      · rename_i heq
        simp only [List.flatMap_cons, g1, List.cons_append, List.cons.injEq] at heq
        exact absurd heq.1 g2
      · rw [hcl]; rfl
  have horder : classAt true 0 (lo.txt ++ '-' :: (hi.txt ++ s)) = .bad := by
    obtain ⟨d, l, h1, h2, h3, h4, h5⟩ := classTxt_head lo hlo
    obtain ⟨d', l', g1, g2, g3, g4, g5⟩ := classTxt_head hi hhi
    have hc := classChar_txt lo hlo ('-' :: (hi.txt ++ s))
    have hc' := classChar_txt hi hhi s
    have hp := perlAt_txt lo hlo ('-' :: (hi.txt ++ s))
    rw [h1] at hc hp ⊢
    rw [g1] at hc' hc hp ⊢
    simp only [List.cons_append] at hc hc' hp ⊢
    rw [classAt, if_neg (by simp [h2]), if_neg (by simp [h3]), hp, hc]
    simp only [List.length_cons, List.drop_succ_cons, List.drop_left', g2, if_false, hc']
    rw [if_pos hlt]
  have hbad : ∀ t : List Char, t.head? ≠ some '^' → classAt true 0 t = .bad → compile ('[' :: ((if neg then ['^'] else []) ++ t)) = .bad := by
    intro t ht hb
    unfold compile
    cases neg with
    | true =>
      simp only [if_true, List.cons_append, List.nil_append]
      rw [lexRe, tok_negated, hb]; rfl
    | false =>
      simp only [Bool.false_eq_true, if_false, List.nil_append]
      rw [lexRe, tok_class t ht, hb]; rfl
  have hhead : ∀ rs : List CRange, (∀ r ∈ rs, r.ok) → (rs.flatMap CRange.txt).head? ≠ some '^' := by
    intro rs hr
    cases rs with
    | nil => simp
    | cons r rs =>
      obtain ⟨d, l, g1, -, g2⟩ := rangeTxt_head r (hr r (by simp))
      simp [g1, g2]
  refine ⟨?_, hbad _ (by simp) rfl, hbad _ (hhead rs hr) (hend rs hr true), hbad _ ?_ horder⟩
  · have e : ']' :: (rs.flatMap CRange.txt ++ ((if dash then ['-'] else []) ++ [']'])) = ']' :: (rs.flatMap CRange.txt ++ (classEnd dash ++ [])) := by simp [classEnd]
    have hd : (']' :: (rs.flatMap CRange.txt ++ (classEnd dash ++ []))).drop ((rs.flatMap CRange.txt ++ classEnd dash).length + 1) = [] := by simp
    rw [e]
    unfold compile
    cases neg with
    | true =>
      simp only [if_true, List.cons_append, List.nil_append]
      rw [lex_tok '[' _ (.atom (.cls true ((']', ']') :: classBounds rs dash))) ((rs.flatMap CRange.txt ++ classEnd dash).length + 1 + 1) (by rw [tok_negated, hfirst]; rfl),
        List.drop_succ_cons, hd]
      rfl
    | false =>
      simp only [Bool.false_eq_true, if_false, List.nil_append]
      rw [lex_tok '[' _ (.atom (.cls false ((']', ']') :: classBounds rs dash))) ((rs.flatMap CRange.txt ++ classEnd dash).length + 1)
        (by rw [tok_class _ (by simp), hfirst]; rfl), hd]
      rfl
  · obtain ⟨d, l, h1, h2, h3, h4, h5⟩ := classTxt_head lo hlo
    simp [h1, h5]

/-- Non-vacuity: `[^]a-z\.-]`, and `[z-a`. -/
example := c145_class true true [.span (.rune 'a' false) (.rune 'z' false), .one (.rune '.' true)] (by simp [CRange.ok, CRune.ok, CRune.c]) (.rune 'z' false) (.rune 'a' false)
  (by simp [CRune.ok]) (by simp [CRune.ok]) (by decide) []

/-- C145. A repetition of an item, greedy or lazy, is accepted iff its bounds are in order and at most 1000, also multiplied with those of the repetitions
inside of the item; otherwise there is an error. -/
theorem c145_bounds (a : Item) (ha : a.ok) (q : Quant) :
    (q.ok ∧ q.reps a.reps ≤ 1000 → compile (a.txt ++ q.txt) = .ok (.seq (.rep (a.re 0) q.min q.max) .eps) ∧
      compile (a.txt ++ (q.txt ++ ['?'])) = .ok (.seq (.lazy (a.re 0) q.min q.max) .eps)) ∧
    (¬ (q.ok ∧ q.reps a.reps ≤ 1000) → compile (a.txt ++ q.txt) = .bad ∧ compile (a.txt ++ (q.txt ++ ['?'])) = .bad) := by
  constructor
  · rintro ⟨h1, h2⟩
    have := c145_compile (.last (.many a q .nil)) ⟨ha, h1, h2, trivial⟩
    have h3 := c145_compile (.last (.lazily a q .nil)) ⟨ha, h1, h2, trivial⟩
    exact ⟨by simpa [Body.txt, Seqn.txt, Body.re, Seqn.re] using this, by simpa [Body.txt, Seqn.txt, Body.re, Seqn.re] using h3⟩
  · intro h
    unfold compile
    by_cases hq : q.ok
    · have h2 : ¬ q.reps a.reps ≤ 1000 := fun h' => h ⟨hq, h'⟩
      have hl := lex_quant q hq [] (by simp)
      have hl2 := lex_quant_lazy q hq []
      rw [List.append_nil] at hl
      have h0 : lexRe 0 [] = .ok [] := rfl
      have hs := item_small a ha
      have hv : repValid (.rep (a.re 0) q.min q.max) 1000 = false := by
        rw [Bool.eq_false_iff, Ne, repValid_iff _ _ (by omega), Re.reps, item_reps]
        exact h2
      have hv2 : repValid (.lazy (a.re 0) q.min q.max) 1000 = false := by
        rw [Bool.eq_false_iff, Ne, repValid_iff _ _ (by omega), Re.reps, item_reps]
        exact h2
      have h2' : 2 ≤ q.min ∨ 2 ≤ q.max.getD 0 := by
        unfold Quant.reps at h2
        by_cases hm0 : q.max = some 0
        · rw [if_pos hm0] at h2; omega
        · rw [if_neg hm0] at h2
          by_contra hn
          have hle : q.max.getD q.min ≤ 1 := by
            cases hmx : q.max with
            | none => simp only [Option.getD_none]; omega
            | some m => simp only [hmx, Option.getD_some] at hn ⊢; omega
          have : Nat.max 1 (q.max.getD q.min) = 1 := by simp only [Nat.max_def]; split <;> omega
          rw [this, Nat.one_mul] at h2
          exact h2 hs
      refine ⟨?_, ?_⟩
      · rw [lex_item a ha, hl, h0]
        simp only [Compiled.map]
        rw [build_item a ha, build]
        simp only [Bool.false_eq_true, if_false]
        rw [if_pos ⟨h2', hv⟩]
      · rw [lex_item a ha, hl2, h0]
        simp only [Compiled.map]
        rw [build_item a ha, build]
        simp only [Bool.false_eq_true, if_false]
        rw [if_pos ⟨h2', hv2⟩]
    · have h1 := lex_quant_bad q hq []
      rw [List.append_nil] at h1
      rw [lex_item a ha, h1, lex_item a ha, lex_quant_bad q hq]
      exact ⟨rfl, rfl⟩

/-! ### A ServeMux with any patterns -/

variable {H : Type}

/-- The URL contains a text the pattern stands for. -/
def Body.Hits (b : Body) (url : List Char) : Prop := ∃ a u t, url = a ++ u ++ t ∧ Matches (b.re 0) a.isEmpty u t

/-- The Handle calls for patterns. -/
def bodyCalls (rs : List (List Char × Body × H)) : List (HCall H) := rs.map fun r => ⟨r.1, r.2.1.txt, some r.2.2⟩

/-- C145. Handle, called with a method, a pattern and a handler, returns nil whatever was registered before. -/
theorem c145_handle (m : List Char) (b : Body) (hb : b.ok) (hne : b.txt ≠ []) (h : H) (hm : m ≠ []) (hs : List (Reg Re H)) :
    handle compileOpt ⟨m, b.txt, some h⟩ hs = (none, hs ++ [⟨m, b.re 0, h⟩]) := by
  simp [handle, prepare, hm, hne, compileOpt, c145_compile b hb]

theorem handleAll_bodies (rs : List (List Char × Body × H)) (hrs : ∀ r ∈ rs, r.1 ≠ [] ∧ r.2.1.ok ∧ r.2.1.txt ≠ []) :
    handleAll compileOpt (bodyCalls rs) = rs.map fun r => ⟨r.1, r.2.1.re 0, r.2.2⟩ := by
  unfold handleAll
  have : ∀ (rs : List (List Char × Body × H)) (acc : List (Reg Re H)), (∀ r ∈ rs, r.1 ≠ [] ∧ r.2.1.ok ∧ r.2.1.txt ≠ []) →
      (bodyCalls rs).foldl (fun hs c => (handle compileOpt c hs).2) acc = acc ++ rs.map fun r => ⟨r.1, r.2.1.re 0, r.2.2⟩ := by
    intro rs
    induction rs with
    | nil => intro acc _; simp [bodyCalls]
    | cons r rs ih =>
      intro acc hrs
      obtain ⟨h1, h2, h3⟩ := hrs r (by simp)
      simp only [bodyCalls, List.map_cons, List.foldl_cons]
      rw [c145_handle _ _ h2 h3 _ h1]
      have := ih (acc ++ [⟨r.1, r.2.1.re 0, r.2.2⟩]) (fun x hx => hrs x (by simp [hx]))
      simp only [bodyCalls] at this
      rw [this]
      simp
  simpa using this rs [] hrs

theorem find_none (b : Body) (url : List Char) : findSub (b.re 0) url = none ↔ ¬ b.Hits url := (c136_leftmost (b.re 0) url).2

/-- C145. A zero ServeMux on which Handle was called with any patterns: the handler of the first pattern with the method of the request that the URL contains
a text of is called, with that text (the leftmost one) and as many more as the pattern has capturing groups. If there is none, the answer is 405 if
the URL contains a text of any pattern, and 404 otherwise. -/
theorem c145_serve (rs : List (List Char × Body × H)) (hrs : ∀ r ∈ rs, r.1 ≠ [] ∧ r.2.1.ok ∧ r.2.1.txt ≠ []) (method url : List Char) :
    (∃ pre b h post parts, rs = pre ++ (method, b, h) :: post ∧ (∀ x ∈ pre, x.1 = method → ¬ x.2.1.Hits url) ∧
      serve findSub (handleAll compileOpt (bodyCalls rs)) method url = .called h parts ∧
      ∃ a u t, url = a ++ u ++ t ∧ Matches (b.re 0) a.isEmpty u t ∧ parts.head? = some u ∧ parts.length = b.groups + 1 ∧
        ∀ a' u' t', url = a' ++ u' ++ t' → Matches (b.re 0) a'.isEmpty u' t' → a.length ≤ a'.length) ∨
    ((∀ x ∈ rs, x.1 = method → ¬ x.2.1.Hits url) ∧
      ((∃ x ∈ rs, x.2.1.Hits url) → serve findSub (handleAll compileOpt (bodyCalls rs)) method url = .httpError 405 "Method Not Allowed") ∧
      ((∀ x ∈ rs, ¬ x.2.1.Hits url) → serve findSub (handleAll compileOpt (bodyCalls rs)) method url = .httpError 404 "Not Found")) := by
  rw [handleAll_bodies rs hrs]
  unfold serve
  have gen : ∀ (rs : List (List Char × Body × H)) (um : Bool),
      (∃ pre b h post parts, rs = pre ++ (method, b, h) :: post ∧ (∀ x ∈ pre, x.1 = method → ¬ x.2.1.Hits url) ∧
        serveLoop findSub method url um (rs.map fun r => (⟨r.1, r.2.1.re 0, r.2.2⟩ : Reg Re H)) = .called h parts ∧ findSub (b.re 0) url = some parts) ∨
      ((∀ x ∈ rs, x.1 = method → ¬ x.2.1.Hits url) ∧
        ((um = true ∨ ∃ x ∈ rs, x.2.1.Hits url) →
          serveLoop findSub method url um (rs.map fun r => (⟨r.1, r.2.1.re 0, r.2.2⟩ : Reg Re H)) = .httpError 405 "Method Not Allowed") ∧
        ((um = false ∧ ∀ x ∈ rs, ¬ x.2.1.Hits url) →
          serveLoop findSub method url um (rs.map fun r => (⟨r.1, r.2.1.re 0, r.2.2⟩ : Reg Re H)) = .httpError 404 "Not Found")) := by
    intro rs
    induction rs with
    | nil =>
      intro um
      right
      refine ⟨by simp, fun h => ?_, fun h => ?_⟩
      · rcases h with h | h
        · simp [serveLoop, h]
        · simp at h
      · simp [serveLoop, h.1]
    | cons r rs ih =>
      obtain ⟨m, b, h⟩ := r
      intro um
      simp only [List.map_cons, serveLoop]
      cases hf : findSub (b.re 0) url with
      | none =>
        have hno := (find_none b url).mp hf
        rcases ih um with ⟨pre, b', h', post, parts, h1, h2, h3, h4⟩ | ⟨h1, h2, h3⟩
        · left
          refine ⟨(m, b, h) :: pre, b', h', post, parts, by rw [h1]; rfl, ?_, h3, h4⟩
          intro x hx hxm
          simp only [List.mem_cons] at hx
          rcases hx with rfl | hx
          · exact hno
          · exact h2 x hx hxm
        · right
          refine ⟨?_, fun h => h2 ?_, fun h => h3 ⟨h.1, fun x hx => h.2 x (by simp [hx])⟩⟩
          · intro x hx hxm
            simp only [List.mem_cons] at hx
            rcases hx with rfl | hx
            · exact hno
            · exact h1 x hx hxm
          · rcases h with h | ⟨x, hx, hh⟩
            · exact .inl h
            · simp only [List.mem_cons] at hx
              rcases hx with rfl | hx
              · exact absurd hh hno
              · exact .inr ⟨x, hx, hh⟩
      | some parts =>
        have hyes : b.Hits url := by
          by_contra hn
          rw [(find_none b url).mpr hn] at hf
          simp at hf
        simp only
        by_cases hm : method = m
        · subst hm
          left
          exact ⟨[], b, h, rs, parts, rfl, by simp, by simp, hf⟩
        · rw [if_neg hm]
          rcases ih true with ⟨pre, b', h', post, parts', h1, h2, h3, h4⟩ | ⟨h1, h2, h3⟩
          · left
            refine ⟨(m, b, h) :: pre, b', h', post, parts', by rw [h1]; rfl, ?_, h3, h4⟩
            intro x hx hxm
            simp only [List.mem_cons] at hx
            rcases hx with rfl | hx
            · exact absurd hxm.symm hm
            · exact h2 x hx hxm
          · right
            refine ⟨?_, fun _ => h2 (.inl rfl), fun h' => absurd hyes (h'.2 (m, b, h) (by simp))⟩
            intro x hx hxm
            simp only [List.mem_cons] at hx
            rcases hx with rfl | hx
            · exact absurd hxm.symm hm
            · exact h1 x hx hxm
  rcases gen rs false with ⟨pre, b, h, post, parts, h1, h2, h3, h4⟩ | ⟨h1, h2, h3⟩
  · left
    obtain ⟨a, u, t, g1, g2, g3, g4, g5⟩ := (c136_leftmost (b.re 0) url).1 parts h4
    exact ⟨pre, b, h, post, parts, h1, h2, h3, a, u, t, g1, g4, g2, by rw [g3, body_caps], g5⟩
  · right
    exact ⟨h1, fun h => h2 (.inr h), fun h => h3 ⟨rfl, h⟩⟩

/-! ### Examples -/

/-- `^/(a|b\.c)/[^/\]-]{2,10}$` -/
def samplePattern : Body :=
  .last (.one .bol (.one (.lit '/' false) (.one (.capture (.or (.one (.lit 'a' false) .nil) (.last (.one (.lit 'b' false) (.one (.lit '.' true) (.one (.lit 'c' false) .nil))))))
    (.one (.lit '/' false) (.many (.cls true [.one (.rune '/' false), .one (.rune ']' true)] true) (.between 2 10) (.one .eol .nil))))))

example : samplePattern.txt = "^/(a|b\\.c)/[^/\\]-]{2,10}$".toList := by decide +kernel

theorem samplePattern_ok : samplePattern.ok := by
  simp only [samplePattern, Body.ok, Seqn.ok, Item.ok, Quant.ok, Quant.reps, Item.reps, Quant.max, Quant.min, List.forall_mem_cons, List.not_mem_nil, false_implies, implies_true,
    CRange.ok, CRune.ok]
  decide

/-- Non-vacuity. -/
example := c145_compile samplePattern samplePattern_ok
example : (handle compileOpt ⟨"GET".toList, samplePattern.txt, some 1⟩ []).1 = none := by
  rw [c145_handle _ samplePattern samplePattern_ok (by decide +kernel) 1 (by decide)]
example := c145_serve [("GET".toList, samplePattern, 1)] (by
  intro r hr
  simp only [List.mem_singleton] at hr
  subst hr
  exact ⟨by decide, samplePattern_ok, by decide +kernel⟩) "GET".toList "/b.c/xyz".toList
example : compile "(?:a{500}){3}".toList = .bad := ((c145_bounds (.group (.last (.many (.lit 'a' false) (.exactly 500) .nil)))
  (by simp [Item.ok, Body.ok, Seqn.ok, Quant.ok, Quant.reps, Item.reps, Quant.max, Quant.min]) (.exactly 3)).2 (by
    simp [Quant.reps, Item.reps, Body.reps, Seqn.reps, Quant.max, Quant.min])).1
example : compile "x{1001}?".toList = .bad := ((c145_bounds (.lit 'x' false) (by simp [Item.ok]) (.exactly 1001)).2 (by simp [Quant.ok])).2
example := (c145_bounds (.lit 'x' false) (by simp [Item.ok]) (.between 10 1000)).1 (by simp [Quant.ok, Quant.reps, Item.reps, Quant.max, Quant.min])

example := c145_unbalanced samplePattern samplePattern samplePattern_ok samplePattern_ok
example := (c145_dangling samplePattern samplePattern_ok (.lit 'x' false) (by simp [Item.ok]) (.exactly 3) .star (by simp [Quant.ok]) (by simp [Quant.ok])).2.2.1
  (by decide)
example := (c145_escape samplePattern samplePattern_ok 'é' (Or.inr (by decide)) (by decide) "x".toList).1 (by decide) (by decide)

example := (c145_name samplePattern samplePattern_ok "a-b".toList ")".toList (by decide)).2 (.inr ⟨'-', by decide, by decide, by decide⟩)

/-- Non-vacuity: `^/users/(\d+)/[\w.-]+$`. -/
def letterPattern : Body := .last (.one .bol (.one (.lit '/' false) (.one (.lit 'u' false) (.one (.lit '/' false)
  (.one (.capture (.last (.many (.letter 'd') .plus .nil))) (.one (.lit '/' false)
  (.many (.cls false [.letter 'w', .one (.rune '.' false)] true) .plus (.one .eol .nil))))))))

theorem letterPattern_ok : letterPattern.ok := by
  simp [letterPattern, Body.ok, Seqn.ok, Item.ok, Quant.ok, Quant.reps, Item.reps, Body.reps, Seqn.reps, Quant.max, Quant.min, CRange.ok, CRune.ok, letters, classLetters]

example := c145_serve [("GET".toList, letterPattern, 1)] (by
  intro r hr
  simp only [List.mem_singleton] at hr
  subst hr
  exact ⟨by decide, letterPattern_ok, by decide +kernel⟩) "GET".toList "/u/123/a-b.c".toList
example : letterPattern.txt = "^/u/(\\d+)/[\\w.-]+$".toList := by decide +kernel

/-- The pattern of the letter l after a backslash is matched by exactly the texts of one rune with P; a class with it only, too; a negated class by
exactly those of one rune without P. -/
def Means (l : Char) (P : Char → Prop) : Prop :=
  (∃ re, compile ['\\', l] = .ok re ∧ ∀ (bg : Bool) (u t : List Char), Matches re bg u t ↔ ∃ x, u = [x] ∧ P x) ∧
  (∃ re, compile ['[', '\\', l, ']'] = .ok re ∧ ∀ (bg : Bool) (u t : List Char), Matches re bg u t ↔ ∃ x, u = [x] ∧ P x) ∧
  (∃ re, compile ['[', '^', '\\', l, ']'] = .ok re ∧ ∀ (bg : Bool) (u t : List Char), Matches re bg u t ↔ ∃ x, u = [x] ∧ ¬ P x)

theorem matches_seq_eps (a : Re) (bg : Bool) (u t : List Char) : Matches (.seq a .eps) bg u t ↔ Matches a bg u t := by
  simp only [Matches]
  constructor
  · rintro ⟨v, w, rfl, h, rfl⟩
    simpa using h
  · intro h
    exact ⟨u, [], by simp, by simpa using h, rfl⟩

theorem matches_cls (neg : Bool) (rs : List (Char × Char)) (bg : Bool) (u t : List Char) :
    Matches (.cls neg rs) bg u t ↔ ∃ x : Char, u = [x] ∧ ((∃ r ∈ rs, r.1 ≤ x ∧ x ≤ r.2) ↔ neg = false) := by
  simp only [Matches, ← toNat_le]
  rfl

/-- The meaning of a letter from its tables. -/
theorem means_of (l : Char) (P : Char → Prop) (r : Re) (rs : List (Char × Char)) (h1 : letters.lookup l = some r) (h2 : classLetters.lookup l = some rs)
    (h3 : ∀ (bg : Bool) (u t : List Char), Matches r bg u t ↔ ∃ x, u = [x] ∧ P x)
    (h4 : ∀ x : Char, (∃ r ∈ rs, r.1 ≤ x ∧ x ≤ r.2) ↔ P x) : Means l P := by
  have m1 : l ∈ letters.map Prod.fst := List.mem_map_of_mem (lookup_mem _ _ _ h1)
  have m2 : l ∈ classLetters.map Prod.fst := List.mem_map_of_mem (lookup_mem _ _ _ h2)
  have c1 := c145_compile (.last (.one (.letter l) .nil)) (by simp only [Body.ok, Seqn.ok, Item.ok]; exact ⟨m1, trivial⟩)
  have c2 := c145_compile (.last (.one (.cls false [.letter l] false) .nil)) (by
    simp only [Body.ok, Seqn.ok, Item.ok]; exact ⟨⟨by simp, by simpa [CRange.ok] using m2⟩, trivial⟩)
  have c3 := c145_compile (.last (.one (.cls true [.letter l] false) .nil)) (by
    simp only [Body.ok, Seqn.ok, Item.ok]; exact ⟨⟨by simp, by simpa [CRange.ok] using m2⟩, trivial⟩)
  have hb : classBounds [.letter l] false = rs := by simp [classBounds, CRange.bounds, h2]
  simp only [Body.txt, Seqn.txt, Item.txt, Body.re, Seqn.re, Item.re, h1, hb, Option.getD_some] at c1 c2 c3
  refine ⟨⟨_, c1, fun bg u t => ?_⟩, ⟨_, c2, fun bg u t => ?_⟩, ⟨_, c3, fun bg u t => ?_⟩⟩
  · rw [matches_seq_eps, h3]
  · rw [matches_seq_eps, matches_cls]; simp only [h4, iff_true]
  · rw [matches_seq_eps, matches_cls]; simp only [h4, Bool.true_eq_false, iff_false]

/-- C145. What the letters after a backslash mean, alone and in classes: digits, runes of words, blanks, all others, and control runes. -/
theorem c145_letters :
    Means 'd' (fun x => '0' ≤ x ∧ x ≤ '9') ∧ Means 'D' (fun x => ¬ ('0' ≤ x ∧ x ≤ '9')) ∧
    Means 'w' (fun x => ('0' ≤ x ∧ x ≤ '9') ∨ ('A' ≤ x ∧ x ≤ 'Z') ∨ x = '_' ∨ ('a' ≤ x ∧ x ≤ 'z')) ∧
    Means 'W' (fun x => ¬ (('0' ≤ x ∧ x ≤ '9') ∨ ('A' ≤ x ∧ x ≤ 'Z') ∨ x = '_' ∨ ('a' ≤ x ∧ x ≤ 'z'))) ∧
    Means 's' (fun x => x = '\t' ∨ x = '\n' ∨ x = '\x0c' ∨ x = '\r' ∨ x = ' ') ∧
    Means 'S' (fun x => ¬ (x = '\t' ∨ x = '\n' ∨ x = '\x0c' ∨ x = '\r' ∨ x = ' ')) ∧
    Means 'a' (· = '\x07') ∧ Means 'f' (· = '\x0c') ∧ Means 'n' (· = '\n') ∧ Means 'r' (· = '\r') ∧ Means 't' (· = '\t') ∧ Means 'v' (· = '\x0b') := by
  have lit : ∀ (l c : Char), letters.lookup l = some (.lit c) → classLetters.lookup l = some [(c, c)] → Means l (· = c) := by
    intro l c h1 h2
    refine means_of l _ _ _ h1 h2 (fun bg u t => ?_) (fun x => ?_)
    · simp only [Matches]
      constructor
      · rintro ⟨x, rfl, h⟩; exact ⟨x, rfl, toNat_eq.1 h⟩
      · rintro ⟨x, rfl, h⟩; exact ⟨x, rfl, toNat_eq.2 h⟩
    · simp only [List.mem_singleton, exists_eq_left]
      rw [← toNat_le, ← toNat_le, ← toNat_eq]
      omega
  have hlast : ∀ x : Char, x.toNat ≤ 0x10FFFF := by
    intro x
    have := x.valid
    simp only [UInt32.isValidChar, Nat.isValidChar] at this
    have e : x.toNat = x.val.toNat := rfl
    omega
  have hmax : lastRune.toNat = 0x10FFFF := by decide
  refine ⟨means_of _ _ _ _ rfl rfl (fun bg u t => ?_) (fun x => ?_), means_of _ _ _ _ rfl rfl (fun bg u t => ?_) (fun x => ?_),
    means_of _ _ _ _ rfl rfl (fun bg u t => ?_) (fun x => ?_), means_of _ _ _ _ rfl rfl (fun bg u t => ?_) (fun x => ?_),
    means_of _ _ _ _ rfl rfl (fun bg u t => ?_) (fun x => ?_), means_of _ _ _ _ rfl rfl (fun bg u t => ?_) (fun x => ?_),
    lit _ _ rfl rfl, lit _ _ rfl rfl, lit _ _ rfl rfl, lit _ _ rfl rfl, lit _ _ rfl rfl, lit _ _ rfl rfl⟩
  all_goals first
    | (rw [matches_cls]
       refine exists_congr fun x => and_congr_right fun _ => ?_
       simp only [iff_true, iff_false, Bool.true_eq_false, List.mem_cons, List.not_mem_nil, or_false, exists_eq_or_imp, exists_eq_left, ← toNat_le,
         ← toNat_eq, Char.reduceToNat] <;> omega)
    | (simp only [List.mem_cons, List.not_mem_nil, or_false, exists_eq_or_imp, exists_eq_left, ← toNat_le, ← toNat_eq, hmax, Char.reduceToNat] <;>
       (have := hlast x; omega))

/-- Non-vacuity: `/(?P<id>\d+)`. -/
def namedPattern : Body := .last (.one (.lit '/' false) (.one (.named "id".toList (.last (.many (.letter 'd') .plus .nil))) .nil))

theorem namedPattern_ok : namedPattern.ok := by
  simp [namedPattern, Body.ok, Seqn.ok, Item.ok, Quant.ok, Quant.reps, Item.reps, Quant.max, Quant.min, letters]

example : namedPattern.txt = "/(?P<id>\\d+)".toList := by decide +kernel
example := c145_compile namedPattern namedPattern_ok

/-! ### Runes by number -/

/-- C145. A rune written by its number is that rune, outside of a class and in one: `\x41`, `\x{41}` and `\101` match A and nothing else. -/
theorem c145_number (n : Num) (hn : n.ok) :
    (∃ re, compile n.txt = .ok re ∧ ∀ bg u t, Matches (α := Char) re bg u t ↔ u = [n.c]) ∧
    (∃ re, compile ('[' :: (n.txt ++ [']'])) = .ok re ∧ ∀ bg u t, Matches (α := Char) re bg u t ↔ u = [n.c]) ∧
    (∃ re, compile ('[' :: '^' :: (n.txt ++ [']'])) = .ok re ∧ ∀ bg u t, Matches (α := Char) re bg u t ↔ ∃ c, u = [c] ∧ c ≠ n.c) := by
  have c1 := c145_compile (.last (.one (.num n) .nil)) (by simp only [Body.ok, Seqn.ok, Item.ok]; exact ⟨hn, trivial⟩)
  have hc : ∀ neg, (Body.last (.one (.cls neg [.one (.num n)] false) .nil)).ok := by
    intro neg
    simp only [Body.ok, Seqn.ok, Item.ok]
    exact ⟨⟨.inl (by simp), by simpa [CRange.ok, CRune.ok] using hn⟩, trivial⟩
  have c2 := c145_compile _ (hc false)
  have c3 := c145_compile _ (hc true)
  simp only [Body.txt, Seqn.txt, Item.txt, List.append_nil, Body.re, Seqn.re, Item.re] at c1
  simp [Body.txt, Seqn.txt, Item.txt, Body.re, Seqn.re, Item.re, CRange.txt, CRune.txt, classBounds, CRange.bounds, CRune.c] at c2 c3
  refine ⟨⟨_, c1, fun bg u t => ?_⟩, ⟨_, c2, fun bg u t => ?_⟩, ⟨_, c3, fun bg u t => ?_⟩⟩
  · rw [matches_seq_eps]
    simp only [Matches, Sym.code, Char.toNat_inj]
    exact ⟨fun ⟨x, h1, h2⟩ => h2 ▸ h1, fun h => ⟨_, h, rfl⟩⟩
  · rw [matches_seq_eps]
    simp only [Matches, Sym.code, List.mem_singleton, exists_eq_left, iff_true]
    exact ⟨fun ⟨x, h1, h2, h3⟩ => (Char.toNat_inj.1 (Nat.le_antisymm h2 h3)) ▸ h1, fun h => ⟨_, h, Nat.le_refl _, Nat.le_refl _⟩⟩
  · rw [matches_seq_eps]
    simp only [Matches, Sym.code, List.mem_singleton, exists_eq_left, Bool.true_eq_false, iff_false]
    constructor
    · rintro ⟨x, h1, h2⟩; exact ⟨x, h1, by rintro rfl; exact h2 ⟨Nat.le_refl _, Nat.le_refl _⟩⟩
    · rintro ⟨x, h1, h2⟩; exact ⟨x, h1, fun ⟨a, b⟩ => h2 (Char.toNat_inj.1 (Nat.le_antisymm b a))⟩

theorem hexVal_none (c : Char) (h : c ∉ "0123456789abcdefABCDEF".toList) : hexVal c = none := by
  have key : ∀ k : Fin 128, (48 ≤ k.val ∧ k.val ≤ 57 ∨ 97 ≤ k.val ∧ k.val ≤ 102 ∨ 65 ≤ k.val ∧ k.val ≤ 70) →
      Char.ofNat k.val ∈ "0123456789abcdefABCDEF".toList := by decide +kernel
  have h' : ¬ (48 ≤ c.toNat ∧ c.toNat ≤ 57 ∨ 97 ≤ c.toNat ∧ c.toNat ≤ 102 ∨ 65 ≤ c.toNat ∧ c.toNat ≤ 70) := by
    intro hk
    have := key ⟨c.toNat, by omega⟩ hk
    rw [Char.ofNat_toNat] at this
    exact h this
  unfold hexVal
  have e1 : ¬ ('0' ≤ c ∧ c ≤ '9') := fun a => h' (.inl a)
  have e2 : ¬ ('a' ≤ c ∧ c ≤ 'f') := fun a => h' (.inr (.inl a))
  have e3 : ¬ ('A' ≤ c ∧ c ≤ 'F') := fun a => h' (.inr (.inr a))
  rw [if_neg e1, if_neg e2, if_neg e3]

theorem octVal_none (c : Char) (h : c ∉ "01234567".toList) : octVal c = none := by
  have key : ∀ k : Fin 128, (48 ≤ k.val ∧ k.val ≤ 55) → Char.ofNat k.val ∈ "01234567".toList := by decide +kernel
  unfold octVal
  rw [if_neg]
  rintro hk
  have hk' : 48 ≤ c.toNat ∧ c.toNat ≤ 55 := hk
  have := key ⟨c.toNat, by omega⟩ hk'
  rw [Char.ofNat_toNat] at this
  exact h this

/-- Braces with digits of a number that is too great, or without a `}` after the digits. -/
theorem hexRun_bad (ds s : List Char) (v : Nat) (hv : v ≤ 0x10FFFF) (h : ∀ d ∈ ds, d ∈ "0123456789abcdefABCDEF".toList)
    (hb : 0x10FFFF < ds.foldl (fun v c => v * 16 + "0123456789abcdef".toList.idxOf c.toLower) v ∨
      ∀ c, s.head? = some c → c ≠ '}' ∧ c ∉ "0123456789abcdefABCDEF".toList) : hexRun v (ds ++ s) = none := by
  induction ds generalizing v with
  | nil =>
    rcases hb with hb | hb
    · simp only [List.foldl_nil] at hb; omega
    · cases s with
      | nil => rfl
      | cons c s =>
        obtain ⟨h1, h2⟩ := hb c rfl
        rw [List.nil_append, hexRun, if_neg h1, hexVal_none c h2]
  | cons c ds ih =>
    obtain ⟨h1, h2⟩ := hexVal_digit c (h c (by simp))
    rw [List.cons_append, hexRun, if_neg h2, h1]
    simp only
    split
    · rfl
    · rename_i hle
      rw [ih _ (Nat.le_of_not_lt hle) (fun d hd => h d (by simp [hd])) hb]
      rfl

/-- What is no number is refused, outside of a class and in one. -/
theorem number_bad (b : Body) (hb : b.ok) (c : Char) (s : List Char) (hc : c = 'x' ∨ c ∈ "01234567".toList) (h : numAt (c :: s) = none) :
    compile (b.txt ++ '\\' :: c :: s) = .bad ∧ compile (b.txt ++ '[' :: '\\' :: c :: s) = .bad ∧
    compile (b.txt ++ '[' :: '^' :: '\\' :: c :: s) = .bad := by
  obtain ⟨h1, h2, h3, h4, h5, h6, h7, h8⟩ := num_first hc
  have he : escNum (c :: s) = .bad := by simp [escNum, h]
  have hbad : ∀ d t, tokAt d t = .bad → d ≠ '?' → compile (b.txt ++ d :: t) = .bad := by
    intro d t h hd
    unfold compile
    rw [lex_body b hb _ (by simpa using hd), lexRe, h]
    simp [Compiled.map]
  have hcl : classAt true 0 ('\\' :: c :: s) = .bad := by
    have h2' : perlAt ('\\' :: c :: s) = none := by simp [perlAt, h3]
    have h3' : classChar ('\\' :: c :: s) = .bad := by simp [classChar, h1, h2, h5, he, Compiled.map]
    rw [classAt, if_neg (by simp), if_neg (by simp), h2', h3']
  exact ⟨hbad _ _ (by simp [tokAt, h1, h4, h5, h6, h7, h8, he, Compiled.map]) (by decide), hbad _ _ (by simp [tokAt, hcl, Compiled.map]) (by decide),
    hbad _ _ (by simp [tokAt, hcl, Compiled.map]) (by decide)⟩

/-- C145. Numbers that are none are refused, outside of a class and in one: references to groups such as `\1`; an `x` without two hexadecimal digits or a `{`
after it; braces that are empty, that have no `}` after their digits, or whose number is greater than that of the last rune. -/
theorem c145_number_bad (b : Body) (hb : b.ok) (t : List Char)
    (ht : (∃ c s, t = c :: s ∧ c ∈ "1234567".toList ∧ ∀ d, s.head? = some d → d ∉ "01234567".toList) ∨
      t = ['x'] ∨ (∃ c s, t = 'x' :: c :: s ∧ c ≠ '{' ∧ (c ∉ "0123456789abcdefABCDEF".toList ∨ ∀ d, s.head? = some d → d ∉ "0123456789abcdefABCDEF".toList)) ∨
      (∃ s, t = 'x' :: '{' :: '}' :: s) ∨
      (∃ ds s, t = 'x' :: '{' :: (ds ++ s) ∧ (∀ d ∈ ds, d ∈ "0123456789abcdefABCDEF".toList) ∧
        (0x10FFFF < hexNum ds ∨ ∀ c, s.head? = some c → c ≠ '}' ∧ c ∉ "0123456789abcdefABCDEF".toList))) :
    compile (b.txt ++ '\\' :: t) = .bad ∧ compile (b.txt ++ '[' :: '\\' :: t) = .bad ∧ compile (b.txt ++ '[' :: '^' :: '\\' :: t) = .bad := by
  rcases ht with ⟨c, s, rfl, hc, hs⟩ | rfl | ⟨c, s, rfl, hc, hs⟩ | ⟨s, rfl⟩ | ⟨ds, s, rfl, hd, hs⟩
  · have hm : c ∈ "01234567".toList ∧ c ≠ 'x' ∧ c ≠ '0' := by
      revert c; decide
    refine number_bad b hb c s (.inr hm.1) ?_
    rw [numAt, if_neg hm.2.1, (octVal_digit c hm.1).1]
    simp only
    rw [if_pos]
    refine ⟨hm.2.2, ?_⟩
    cases s with
    | nil => rfl
    | cons d s => exact octVal_none d (hs d rfl)
  · exact number_bad b hb 'x' [] (.inl rfl) rfl
  · refine number_bad b hb 'x' _ (.inl rfl) ?_
    rw [numAt, if_pos rfl]
    cases s with
    | nil =>
      unfold hexAt
      split
      · simp_all
      · simp_all
      · rfl
    | cons d s =>
      rw [hexAt]
      · rcases hs with hs | hs
        · rw [hexVal_none c hs]
        · rw [hexVal_none d (hs d rfl)]
          split <;> simp_all
      · exact hc
  · exact number_bad b hb 'x' _ (.inl rfl) (by rw [numAt, if_pos rfl, hexAt, if_pos (by rfl)])
  · refine number_bad b hb 'x' _ (.inl rfl) ?_
    rw [numAt, if_pos rfl, hexAt, hexRun_bad ds s 0 (by omega) hd hs]
    split <;> rfl

/-- `/\1`, `/\x{110000}` and `/\x4-`. -/
example := c145_number_bad (.last (.one (.lit '/' false) .nil)) (by simp [Body.ok, Seqn.ok, Item.ok]) "1".toList (.inl ⟨'1', [], rfl, by decide, by simp⟩)
example := c145_number_bad (.last (.one (.lit '/' false) .nil)) (by simp [Body.ok, Seqn.ok, Item.ok]) "x{110000}".toList
  (.inr (.inr (.inr (.inr ⟨"110000".toList, ['}'], by decide, by decide, .inl (by decide)⟩))))
example := c145_number_bad (.last (.one (.lit '/' false) .nil)) (by simp [Body.ok, Seqn.ok, Item.ok]) "x4-".toList
  (.inr (.inr (.inl ⟨'4', ['-'], by decide, by decide, .inr (by simp)⟩)))

/-- `\x41`, `\x{1F600}` and `\101`; the first and the last are A. -/
example := c145_number (.two '4' '1') (by simp [Num.ok])
example := c145_number (.braces "1F600".toList) (by refine ⟨by simp, by decide, by decide⟩)
example : (Num.two '4' '1').c = 'A' ∧ (Num.octal '1' '0' '1').c = 'A' ∧ (Num.braces "1F600".toList).c = '😀' := by decide
example := c145_number (.octal '1' '0' '1') (by simp [Num.ok])

end Micro.Regex
