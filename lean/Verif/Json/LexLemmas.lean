import Verif.Json.NumExact
import Verif.Json.StrLemmas
set_option linter.unusedSimpArgs false
namespace Micro.Json
open Micro Micro.Iter

def NoLower (rest : List Char) : Prop := ∀ c, rest.head? = some c → isLower c = false

/-- tok is the token of text s when rest follows. -/
inductive TokText (fin : Err) (rest : List Char) : Tok → List Char → Prop
  | oBracket : TokText fin rest .oBracket ['[']
  | cBracket : TokText fin rest .cBracket [']']
  | oBrace : TokText fin rest .oBrace ['{']
  | cBrace : TokText fin rest .cBrace ['}']
  | comma : TokText fin rest .comma [',']
  | colon : TokText fin rest .colon [':']
  | str (s v) : StrLit code s v → TokText fin rest (.str v) s
  | num (s) : NumLit code s → NumStop s rest → EndOk fin rest → TokText fin rest (.num s) s
  | tru : NoLower rest → EndOk fin rest → TokText fin rest (.bool true) ['t', 'r', 'u', 'e']
  | fals : NoLower rest → EndOk fin rest → TokText fin rest (.bool false) ['f', 'a', 'l', 's', 'e']
  | null : NoLower rest → EndOk fin rest → TokText fin rest .null ['n', 'u', 'l', 'l']

theorem lexBooleanNull_iff (fin : Err) (t : List Char) (tok : Tok) (rest : List Char) :
    lexBooleanNull fin t = .ok (tok, rest) ↔
      ∃ s, t = s ++ rest ∧ NoLower rest ∧ EndOk fin rest ∧
        ((s = ['t', 'r', 'u', 'e'] ∧ tok = .bool true) ∨ (s = ['f', 'a', 'l', 's', 'e'] ∧ tok = .bool false) ∨
          (s = ['n', 'u', 'l', 'l'] ∧ tok = .null)) := by
  have hsplit : t.takeWhile isLower ++ t.dropWhile isLower = t := List.takeWhile_append_dropWhile
  constructor
  · intro h
    unfold lexBooleanNull at h
    simp only at h
    have hno : NoLower (t.dropWhile isLower) := by
      intro c hc
      have := List.head?_dropWhile_not (p := isLower) (l := t)
      rw [hc] at this
      simpa using this
    by_cases h0 : t.dropWhile isLower = [] ∧ fin ≠ .eoi
    · rw [if_pos h0] at h; cases h
    rw [if_neg h0] at h
    have hend : EndOk fin (t.dropWhile isLower) := by
      intro hr
      exact Decidable.byContradiction fun hf => h0 ⟨hr, hf⟩
    by_cases h1 : t.takeWhile isLower = ['t', 'r', 'u', 'e']
    · rw [if_pos h1] at h; cases h
      exact ⟨_, hsplit.symm, hno, hend, .inl ⟨h1, rfl⟩⟩
    rw [if_neg h1] at h
    by_cases h2 : t.takeWhile isLower = ['f', 'a', 'l', 's', 'e']
    · rw [if_pos h2] at h; cases h
      exact ⟨_, hsplit.symm, hno, hend, .inr (.inl ⟨h2, rfl⟩)⟩
    rw [if_neg h2] at h
    by_cases h3 : t.takeWhile isLower = ['n', 'u', 'l', 'l']
    · rw [if_pos h3] at h; cases h
      exact ⟨_, hsplit.symm, hno, hend, .inr (.inr ⟨h3, rfl⟩)⟩
    rw [if_neg h3] at h; cases h
  · rintro ⟨s, rfl, hno, hend, h⟩
    have hall : ∀ c ∈ s, isLower c = true := by
      rcases h with ⟨rfl, _⟩ | ⟨rfl, _⟩ | ⟨rfl, _⟩ <;> decide
    have htr : rest.takeWhile isLower = [] := by
      cases rest with
      | nil => rfl
      | cons c r => rw [List.takeWhile_cons, hno c rfl]; simp
    have hdr : rest.dropWhile isLower = rest := by
      cases rest with
      | nil => rfl
      | cons c r => rw [List.dropWhile_cons, hno c rfl]; simp
    have h1 : (s ++ rest).takeWhile isLower = s := by
      rw [List.takeWhile_append_of_pos hall, htr]; simp
    have h2 : (s ++ rest).dropWhile isLower = rest := by
      rw [List.dropWhile_append_of_pos hall, hdr]
    unfold lexBooleanNull
    simp only
    rw [h1, h2, if_neg (by rintro ⟨a, b⟩; exact b (hend a))]
    rcases h with ⟨rfl, rfl⟩ | ⟨rfl, rfl⟩ | ⟨rfl, rfl⟩ <;> simp

theorem tokText_head {fin : Err} {rest : List Char} {tok : Tok} {s : List Char} (h : TokText fin rest tok s) :
    ∃ c t, s = c :: t ∧ isWs c = false := by
  cases h with
  | str s v hs =>
    obtain ⟨b, q, _, _, rfl⟩ := hs
    exact ⟨'"', b ++ q, rfl, by decide⟩
  | num s hn =>
    obtain ⟨c, t, h, hc⟩ := numLit_head hn
    refine ⟨c, t, h, ?_⟩
    rcases hc with rfl | hc
    · decide
    · unfold isWs
      have h1 := digit_ne hc (d := ' ') (by decide)
      have h2 := digit_ne hc (d := '\n') (by decide)
      have h3 := digit_ne hc (d := '\r') (by decide)
      have h4 := digit_ne hc (d := '\t') (by decide)
      simp [h1, h2, h3, h4]
  | oBracket => exact ⟨_, _, rfl, by decide⟩
  | cBracket => exact ⟨_, _, rfl, by decide⟩
  | oBrace => exact ⟨_, _, rfl, by decide⟩
  | cBrace => exact ⟨_, _, rfl, by decide⟩
  | comma => exact ⟨_, _, rfl, by decide⟩
  | colon => exact ⟨_, _, rfl, by decide⟩
  | tru => exact ⟨_, _, rfl, by decide⟩
  | fals => exact ⟨_, _, rfl, by decide⟩
  | null => exact ⟨_, _, rfl, by decide⟩

theorem dropWs {w s : List Char} (hw : Ws w) {c : Char} {t : List Char} (hs : s = c :: t) (hc : isWs c = false) :
    (w ++ s).dropWhile isWs = c :: t := by
  rw [List.dropWhile_append_of_pos hw, hs, List.dropWhile_cons, hc]
  simp

theorem ws_takeWhile (t : List Char) : Ws (t.takeWhile isWs) := by
  induction t with
  | nil => intro c hc; cases hc
  | cons x t ih =>
    intro c hc
    rw [List.takeWhile_cons] at hc
    split at hc
    · rcases List.mem_cons.mp hc with rfl | h
      · assumption
      · exact ih c h
    · cases hc

/-- The lexer skips white space and reads one token. -/
theorem lex_iff (fin : Err) (t : List Char) (tok : Tok) (rest : List Char) :
    lex fin t = .ok (tok, rest) ↔ ∃ w s, Ws w ∧ t = w ++ s ++ rest ∧ TokText fin rest tok s := by
  constructor
  · intro h
    unfold lex at h
    have hsplit : t.takeWhile isWs ++ t.dropWhile isWs = t := List.takeWhile_append_dropWhile
    have hw : Ws (t.takeWhile isWs) := ws_takeWhile t
    generalize t.takeWhile isWs = w at *
    generalize t.dropWhile isWs = u at *
    subst hsplit
    suffices hh : ∃ s, u = s ++ rest ∧ TokText fin rest tok s by
      obtain ⟨s, rfl, h'⟩ := hh
      exact ⟨w, s, hw, by simp, h'⟩
    cases u with
    | nil => cases h
    | cons c u =>
      simp only at h
      by_cases h1 : c = '['
      · rw [if_pos h1] at h; cases h; exact ⟨[c], rfl, h1 ▸ .oBracket⟩
      rw [if_neg h1] at h
      by_cases h1 : c = ']'
      · rw [if_pos h1] at h; cases h; exact ⟨[c], rfl, h1 ▸ .cBracket⟩
      rw [if_neg h1] at h
      by_cases h1 : c = '{'
      · rw [if_pos h1] at h; cases h; exact ⟨[c], rfl, h1 ▸ .oBrace⟩
      rw [if_neg h1] at h
      by_cases h1 : c = '}'
      · rw [if_pos h1] at h; cases h; exact ⟨[c], rfl, h1 ▸ .cBrace⟩
      rw [if_neg h1] at h
      by_cases h1 : c = ','
      · rw [if_pos h1] at h; cases h; exact ⟨[c], rfl, h1 ▸ .comma⟩
      rw [if_neg h1] at h
      by_cases h1 : c = ':'
      · rw [if_pos h1] at h; cases h; exact ⟨[c], rfl, h1 ▸ .colon⟩
      rw [if_neg h1] at h
      by_cases h1 : c = '"'
      · rw [if_pos h1, lexString_iff] at h
        obtain ⟨s, v, rfl, hs, heq⟩ := h
        exact ⟨s, by rw [h1]; exact heq, .str s v hs⟩
      rw [if_neg h1] at h
      by_cases h1 : c = '-' ∨ isDigit c = true
      · rw [if_pos h1, lexNumber_iff _ _ h1] at h
        obtain ⟨s, rfl, h2, h3, h4, h5⟩ := h
        exact ⟨s, h2, .num s h3 h4 h5⟩
      rw [if_neg h1] at h
      by_cases h1 : c = 't' ∨ c = 'f' ∨ c = 'n'
      · rw [if_pos h1, lexBooleanNull_iff] at h
        obtain ⟨s, h2, h3, h4, ⟨rfl, rfl⟩ | ⟨rfl, rfl⟩ | ⟨rfl, rfl⟩⟩ := h
        · exact ⟨_, h2, .tru h3 h4⟩
        · exact ⟨_, h2, .fals h3 h4⟩
        · exact ⟨_, h2, .null h3 h4⟩
      rw [if_neg h1] at h; cases h
  · rintro ⟨w, s, hw, rfl, h⟩
    obtain ⟨c, t, hs, hc⟩ := tokText_head h
    have hd : (w ++ s ++ rest).dropWhile isWs = c :: (t ++ rest) := by
      rw [List.append_assoc]
      exact dropWs hw (by rw [hs]; rfl) hc
    unfold lex
    rw [hd]
    simp only
    cases h with
    | oBracket => cases hs; simp
    | cBracket => cases hs; simp
    | oBrace => cases hs; simp
    | cBrace => cases hs; simp
    | comma => cases hs; simp
    | colon => cases hs; simp
    | str s v h =>
      have h' := h
      obtain ⟨b, q, _, _, rfl⟩ := h
      simp only [List.cons_append, List.cons.injEq] at hs
      obtain ⟨rfl, rfl⟩ := hs
      rw [if_neg (by decide), if_neg (by decide), if_neg (by decide), if_neg (by decide), if_neg (by decide), if_neg (by decide), if_pos rfl]
      rw [lexString_iff]
      exact ⟨_, v, rfl, h', by simp⟩
    | num s h1 h2 h3 =>
      obtain ⟨c', t', h', hc'⟩ := numLit_head h1
      rw [hs] at h'
      simp only [List.cons.injEq] at h'
      obtain ⟨rfl, rfl⟩ := h'
      have ne : ∀ d, d ≠ '-' → isDigit d = false → c ≠ d := by
        rintro d h1 h2 rfl
        rcases hc' with h | h
        · exact h1 h
        · rw [h] at h2; cases h2
      rw [if_neg (ne _ (by decide) (by decide)), if_neg (ne _ (by decide) (by decide)), if_neg (ne _ (by decide) (by decide)),
        if_neg (ne _ (by decide) (by decide)), if_neg (ne _ (by decide) (by decide)), if_neg (ne _ (by decide) (by decide)),
        if_neg (ne _ (by decide) (by decide)), if_pos hc', lexNumber_iff _ _ hc']
      exact ⟨s, rfl, by rw [hs]; simp, h1, h2, h3⟩
    | tru h1 h2 =>
      cases hs
      have : lexBooleanNull fin (['t', 'r', 'u', 'e'] ++ rest) = .ok (.bool true, rest) :=
        (lexBooleanNull_iff _ _ _ _).mpr ⟨_, rfl, h1, h2, .inl ⟨rfl, rfl⟩⟩
      simp only [List.cons_append, List.nil_append] at this ⊢
      rw [this]
      simp [not_digit_e, show isDigit 't' = false by decide]
    | fals h1 h2 =>
      cases hs
      have : lexBooleanNull fin (['f', 'a', 'l', 's', 'e'] ++ rest) = .ok (.bool false, rest) :=
        (lexBooleanNull_iff _ _ _ _).mpr ⟨_, rfl, h1, h2, .inr (.inl ⟨rfl, rfl⟩)⟩
      simp only [List.cons_append, List.nil_append] at this ⊢
      rw [this]
      simp [not_digit_e, show isDigit 'f' = false by decide]
    | null h1 h2 =>
      cases hs
      have : lexBooleanNull fin (['n', 'u', 'l', 'l'] ++ rest) = .ok (.null, rest) :=
        (lexBooleanNull_iff _ _ _ _).mpr ⟨_, rfl, h1, h2, .inr (.inr ⟨rfl, rfl⟩)⟩
      simp only [List.cons_append, List.nil_append] at this ⊢
      rw [this]
      simp [not_digit_e, show isDigit 'n' = false by decide]

theorem lex_length {fin : Err} {t : List Char} {tok : Tok} {rest : List Char} (h : lex fin t = .ok (tok, rest)) :
    rest.length < t.length := by
  rw [lex_iff] at h
  obtain ⟨w, s, _, rfl, h⟩ := h
  obtain ⟨c, t, rfl, _⟩ := tokText_head h
  simp; omega

end Micro.Json
