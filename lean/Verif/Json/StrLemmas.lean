import Verif.Json.Spec
import Mathlib.Tactic.IntervalCases
set_option linter.unusedSimpArgs false
namespace Micro.Json
open Micro Micro.Iter

theorem hexVal_of {c : Char} {d : Nat} (h : HexDigit c d) : hexVal c = some d := by
  have hd : d < 16 := by
    rcases h with h | h
    · exact (List.getElem?_eq_some_iff.mp h).1
    · exact (List.getElem?_eq_some_iff.mp h).1
  unfold HexDigit at h
  interval_cases d <;>
  · rcases h with h | h
    · have : c = _ := (Option.some.inj h).symm
      subst this; decide
    · have : c = _ := (Option.some.inj h).symm
      subst this; decide

theorem hexDigit_of {c : Char} {d : Nat} (h : hexVal c = some d) : HexDigit c d := by
  unfold hexVal at h
  have hc : c = Char.ofNat c.toNat := (Char.ofNat_toNat c).symm
  split at h
  · rename_i hr
    have h1 : 48 ≤ c.toNat := hr.1
    have h2 : c.toNat ≤ 57 := hr.2
    generalize c.toNat = n at *
    subst hc
    have := Option.some.inj h
    subst this
    interval_cases n <;> exact .inl rfl
  · split at h
    · rename_i hr
      have h1 : 65 ≤ c.toNat := hr.1
      have h2 : c.toNat ≤ 70 := hr.2
      generalize c.toNat = n at *
      subst hc
      have := Option.some.inj h
      subst this
      interval_cases n <;> exact .inr rfl
    · split at h
      · rename_i hr
        have h1 : 97 ≤ c.toNat := hr.1
        have h2 : c.toNat ≤ 102 := hr.2
        generalize c.toNat = n at *
        subst hc
        have := Option.some.inj h
        subst this
        interval_cases n <;> exact .inl rfl
      · cases h

theorem readHex4_of {fin : Err} {h : List Char} {n : Nat} (hh : Hex4 h n) (t : List Char) :
    readHex fin 4 0 (h ++ t) = .ok (n, t) := by
  obtain ⟨a, b, c, d, x, y, z, u, rfl, h1, h2, h3, h4, rfl⟩ := hh
  simp [readHex, hexVal_of h1, hexVal_of h2, hexVal_of h3, hexVal_of h4]

theorem readHex_succ {fin : Err} {n v : Nat} {t : List Char} {r : Nat} {t' : List Char}
    (e : readHex fin (n + 1) v t = .ok (r, t')) :
    ∃ c d s, t = c :: s ∧ HexDigit c d ∧ readHex fin n (v * 16 + d) s = .ok (r, t') := by
  cases t with
  | nil => simp [readHex] at e
  | cons c t =>
    unfold readHex at e
    cases hx : hexVal c with
    | none => rw [hx] at e; simp at e
    | some d => rw [hx] at e; exact ⟨c, d, t, rfl, hexDigit_of hx, e⟩

theorem readHex4_split {fin : Err} {t : List Char} {n : Nat} {t' : List Char}
    (e : readHex fin 4 0 t = .ok (n, t')) : ∃ h, Hex4 h n ∧ t = h ++ t' := by
  obtain ⟨a, x, s, rfl, h1, e⟩ := readHex_succ e
  obtain ⟨b, y, s, rfl, h2, e⟩ := readHex_succ e
  obtain ⟨c, z, s, rfl, h3, e⟩ := readHex_succ e
  obtain ⟨d, u, s, rfl, h4, e⟩ := readHex_succ e
  simp [readHex] at e
  obtain ⟨rfl, rfl⟩ := e
  exact ⟨[a, b, c, d], ⟨a, b, c, d, x, y, z, u, rfl, h1, h2, h3, h4, by omega⟩, rfl⟩

theorem hexDigit_lt {c : Char} {d : Nat} (h : HexDigit c d) : d < 16 := by
  rcases h with h | h
  · exact (List.getElem?_eq_some_iff.mp h).1
  · exact (List.getElem?_eq_some_iff.mp h).1

theorem hex4_lt {h : List Char} {n : Nat} (hh : Hex4 h n) : n < 65536 := by
  obtain ⟨a, b, c, d, x, y, z, u, _, h1, h2, h3, h4, rfl⟩ := hh
  have := hexDigit_lt h1
  have := hexDigit_lt h2
  have := hexDigit_lt h3
  have := hexDigit_lt h4
  omega

theorem isSurrogate_iff (n : Nat) : isSurrogate n = true ↔ IsHigh n ∨ IsLow n := by
  unfold isSurrogate IsHigh IsLow
  simp
  omega

theorem decodeRune_pair {a b : Nat} (h1 : IsHigh a) (h2 : IsLow b) : decodeRune a b = pairVal a b := by
  unfold decodeRune pairVal IsHigh IsLow at *
  rw [if_pos (by omega)]; omega

theorem decodeRune_bad {a b : Nat} (h : ¬ (IsHigh a ∧ IsLow b)) : decodeRune a b = 0xFFFD := by
  unfold decodeRune IsHigh IsLow at *
  rw [if_neg (by omega)]

theorem pairVal_ge (a b : Nat) : 0x10000 ≤ pairVal a b := by unfold pairVal; omega

theorem pairVal_lt {a b : Nat} (h1 : IsHigh a) (h2 : IsLow b) : pairVal a b < 0x110000 := by
  unfold pairVal IsHigh IsLow at *; omega

theorem decodePair_hl {a b : Nat} (h1 : IsHigh a) (h2 : IsLow b) : decodePair a b = .ok (pairVal a b) := by
  unfold decodePair
  rw [decodeRune_pair h1 h2, if_neg]
  have := pairVal_ge a b; omega

theorem high_not_low {a : Nat} (h : IsHigh a) : ¬ IsLow a := by unfold IsHigh IsLow at *; omega

theorem decodePair_lh {a b : Nat} (h1 : IsLow a) (h2 : IsHigh b) : decodePair a b = .ok (pairVal b a) := by
  unfold decodePair
  rw [decodeRune_bad (fun h => high_not_low h.1 h1), if_pos rfl, decodeRune_pair h2 h1, if_neg]
  have := pairVal_ge b a; omega

theorem decodePair_hh {a b : Nat} (h1 : IsHigh a) (h2 : IsHigh b) : decodePair a b = .error eSurrogateDecode := by
  unfold decodePair
  rw [decodeRune_bad (fun h => high_not_low h2 h.2), if_pos rfl, decodeRune_bad (fun h => high_not_low h1 h.2), if_pos rfl]

theorem decodePair_ll {a b : Nat} (h1 : IsLow a) (h2 : IsLow b) : decodePair a b = .error eSurrogateDecode := by
  unfold decodePair
  rw [decodeRune_bad (fun h => high_not_low h.1 h1), if_pos rfl, decodeRune_bad (fun h => high_not_low h.1 h2), if_pos rfl]

attribute [local irreducible] pairVal

/-- The escapes the lexer understands: text after the backslash, character. -/
inductive Esc : List Char → Char → Prop
  | short (e c) : (e, c) ∈ shortEscapes → Esc [e] c
  | uni (h n) : Hex4 h n → ¬ IsHigh n → ¬ IsLow n → Esc ('u' :: h) (Char.ofNat n)
  | pair (h1 h2 n1 n2) : Hex4 h1 n1 → Hex4 h2 n2 → IsHigh n1 → IsLow n2 →
      Esc ('u' :: h1 ++ '\\' :: 'u' :: h2) (Char.ofNat (pairVal n1 n2))
  | swapped (h1 h2 n1 n2) : Hex4 h1 n1 → Hex4 h2 n2 → IsLow n1 → IsHigh n2 →
      Esc ('u' :: h1 ++ '\\' :: 'u' :: h2) (Char.ofNat (pairVal n2 n1))

theorem lexSurrogate_plain {fin : Err} {n : Nat} {t : List Char} (h1 : ¬ IsHigh n) (h2 : ¬ IsLow n) :
    lexSurrogate fin n t = .ok (n, t) := by
  unfold lexSurrogate
  rw [if_neg]
  rw [isSurrogate_iff]
  rintro (h | h)
  · exact h1 h
  · exact h2 h

theorem lexSurrogate_pair {fin : Err} {n1 n2 v : Nat} {h2 t : List Char} (hs1 : isSurrogate n1 = true)
    (hs2 : isSurrogate n2 = true) (hh : Hex4 h2 n2) (hd : decodePair n1 n2 = .ok v) :
    lexSurrogate fin n1 ('\\' :: 'u' :: h2 ++ t) = .ok (v, t) := by
  unfold lexSurrogate
  rw [if_pos hs1]
  simp [readHex4_of hh t, hs2, hd]

theorem lexSurrogate_split {fin : Err} {n : Nat} {t : List Char} {r : Nat} {t' : List Char}
    (e : lexSurrogate fin n t = .ok (r, t')) :
    (¬ IsHigh n ∧ ¬ IsLow n ∧ r = n ∧ t' = t) ∨
    (∃ h2 n2, t = '\\' :: 'u' :: h2 ++ t' ∧ Hex4 h2 n2 ∧
      ((IsHigh n ∧ IsLow n2 ∧ r = pairVal n n2) ∨ (IsLow n ∧ IsHigh n2 ∧ r = pairVal n2 n))) := by
  by_cases hs : isSurrogate n = true
  · right
    unfold lexSurrogate at e
    rw [if_pos hs] at e
    cases t with
    | nil => simp at e
    | cons c t =>
      simp only at e
      by_cases hc : c ≠ '\\'
      · rw [if_pos hc] at e; cases e
      rw [if_neg hc] at e
      have hc : c = '\\' := Decidable.of_not_not hc
      subst hc
      cases t with
      | nil => simp at e
      | cons c t =>
        simp only at e
        by_cases hc : c ≠ 'u'
        · rw [if_pos hc] at e; cases e
        rw [if_neg hc] at e
        have hc : c = 'u' := Decidable.of_not_not hc
        subst hc
        cases hr : readHex fin 4 0 t with
        | error e' => rw [hr] at e; cases e
        | ok p =>
          obtain ⟨n2, t2⟩ := p
          rw [hr] at e
          simp only at e
          obtain ⟨h2, hh, rfl⟩ := readHex4_split hr
          by_cases hs2 : isSurrogate n2 = false
          · rw [if_pos hs2] at e; cases e
          rw [if_neg hs2] at e
          have hs2 : isSurrogate n2 = true := by simpa using hs2
          rw [isSurrogate_iff] at hs hs2
          rcases hs with hs | hs <;> rcases hs2 with hs2 | hs2
          · rw [decodePair_hh hs hs2] at e; cases e
          · rw [decodePair_hl hs hs2] at e; cases e
            exact ⟨h2, n2, by simp, hh, .inl ⟨hs, hs2, rfl⟩⟩
          · rw [decodePair_lh hs hs2] at e; cases e
            exact ⟨h2, n2, by simp, hh, .inr ⟨hs, hs2, rfl⟩⟩
          · rw [decodePair_ll hs hs2] at e; cases e
  · left
    have hs' := hs
    rw [isSurrogate_iff] at hs'
    have h1 : ¬ IsHigh n := fun h => hs' (.inl h)
    have h2 : ¬ IsLow n := fun h => hs' (.inr h)
    rw [lexSurrogate_plain h1 h2] at e
    cases e
    exact ⟨h1, h2, rfl, rfl⟩

theorem shortEscapes_iff (e c : Char) :
    (e, c) ∈ shortEscapes ↔ (e = '"' ∧ c = '"') ∨ shortEscape e = some c := by
  unfold shortEscapes shortEscape
  simp only [List.mem_cons, Prod.mk.injEq, List.not_mem_nil, or_false]
  by_cases h1 : e = '\\'
  · subst h1; simp [eq_comm]
  by_cases h2 : e = '/'
  · subst h2; simp [eq_comm]
  by_cases h3 : e = 'b'
  · subst h3; simp [eq_comm]
  by_cases h4 : e = 'f'
  · subst h4; simp [eq_comm]
  by_cases h5 : e = 'n'
  · subst h5; simp [eq_comm]
  by_cases h6 : e = 'r'
  · subst h6; simp [eq_comm]
  by_cases h7 : e = 't'
  · subst h7; simp [eq_comm]
  simp [h1, h2, h3, h4, h5, h6, h7]

theorem lexEscape_of {fin : Err} {e : List Char} {c : Char} (h : Esc e c) (t : List Char) :
    lexEscape fin (e ++ t) = .ok ((decide (e = ['"']), c), t) := by
  cases h with
  | short e c hm =>
    rw [shortEscapes_iff] at hm
    by_cases hq : e = '"'
    · rcases hm with ⟨_, rfl⟩ | hm
      · subst hq; simp [lexEscape]
      · subst hq; simp [shortEscape] at hm
    · rcases hm with ⟨h, _⟩ | hm
      · exact absurd h hq
      · simp [lexEscape, hq, hm]
  | uni h n hh h1 h2 =>
    simp [lexEscape, shortEscape, readHex4_of hh, lexSurrogate_plain h1 h2]
  | pair h1 h2 n1 n2 g1 g2 hi lo =>
    have := lexSurrogate_pair (fin := fin) (t := t) ((isSurrogate_iff n1).mpr (.inl hi)) ((isSurrogate_iff n2).mpr (.inr lo)) g2 (decodePair_hl hi lo)
    simp only [List.cons_append] at this
    simp [lexEscape, shortEscape, readHex4_of g1, this]
  | swapped h1 h2 n1 n2 g1 g2 lo hi =>
    have := lexSurrogate_pair (fin := fin) (t := t) ((isSurrogate_iff n1).mpr (.inr lo)) ((isSurrogate_iff n2).mpr (.inl hi)) g2 (decodePair_lh lo hi)
    simp only [List.cons_append] at this
    simp [lexEscape, shortEscape, readHex4_of g1, this]

theorem lexEscape_split {fin : Err} {t : List Char} {cont : Bool} {c : Char} {t' : List Char}
    (h : lexEscape fin t = .ok ((cont, c), t')) : ∃ e, Esc e c ∧ t = e ++ t' ∧ cont = decide (e = ['"']) := by
  cases t with
  | nil => simp [lexEscape] at h
  | cons x t =>
    simp only [lexEscape] at h
    by_cases hq : x = '"'
    · rw [if_pos hq] at h; cases h
      exact ⟨[x], .short x '"' ((shortEscapes_iff _ _).mpr (.inl ⟨hq, rfl⟩)), rfl, by simp [hq]⟩
    rw [if_neg hq] at h
    cases hs : shortEscape x with
    | some y =>
      rw [hs] at h; cases h
      exact ⟨[x], .short x _ ((shortEscapes_iff _ _).mpr (.inr hs)), rfl, by simp [hq]⟩
    | none =>
      rw [hs] at h
      simp only at h
      by_cases hu : x = 'u'
      · rw [if_pos hu] at h
        subst hu
        cases hr : readHex fin 4 0 t with
        | error e' => rw [hr] at h; cases h
        | ok p =>
          obtain ⟨n, t2⟩ := p
          rw [hr] at h
          simp only at h
          obtain ⟨h1, g1, rfl⟩ := readHex4_split hr
          cases hl : lexSurrogate fin n t2 with
          | error e' => rw [hl] at h; cases h
          | ok p =>
            obtain ⟨r, t3⟩ := p
            rw [hl] at h
            cases h
            rcases lexSurrogate_split hl with ⟨a, b, rfl, rfl⟩ | ⟨h2, n2, rfl, g2, ⟨a, b, rfl⟩ | ⟨a, b, rfl⟩⟩
            · exact ⟨'u' :: h1, .uni h1 _ g1 a b, by simp, by simp⟩
            · exact ⟨_, .pair h1 h2 n n2 g1 g2 a b, by simp, by simp⟩
            · exact ⟨_, .swapped h1 h2 n n2 g1 g2 a b, by simp, by simp⟩
      · rw [if_neg hu] at h; cases h

theorem toNat_ofNat_small {n : Nat} (h : n < 65536) (h1 : ¬ IsHigh n) (h2 : ¬ IsLow n) : (Char.ofNat n).toNat = n := by
  have hv : n.isValidChar := by
    unfold Nat.isValidChar
    unfold IsHigh IsLow at *
    omega
  rw [Char.ofNat, dif_pos hv]
  rfl

theorem toNat_ofNat_pair {a b : Nat} (h1 : IsHigh a) (h2 : IsLow b) : (Char.ofNat (pairVal a b)).toNat = pairVal a b := by
  have hv : (pairVal a b).isValidChar := by
    right
    exact ⟨by have := pairVal_ge a b; omega, pairVal_lt h1 h2⟩
  rw [Char.ofNat, dif_pos hv]
  rfl

theorem esc_quote {e : List Char} (h : Esc e '"') : e = ['"'] ∨ ∃ h, Hex4 h 0x22 ∧ e = 'u' :: h := by
  generalize hc : '"' = c at h
  cases h with
  | short e c hm =>
    left
    subst hc
    rw [shortEscapes_iff] at hm
    rcases hm with ⟨rfl, _⟩ | hm
    · rfl
    · unfold shortEscape at hm
      repeat' split at hm
      all_goals first | cases hm | (exact absurd (Option.some.inj hm) (by decide))
  | uni h n hh h1 h2 =>
    right
    have := toNat_ofNat_small (hex4_lt hh) h1 h2
    rw [← hc] at this
    have : n = 0x22 := this.symm
    subst this
    exact ⟨h, hh, rfl⟩
  | pair h1 h2 n1 n2 g1 g2 hi lo =>
    exfalso
    have := toNat_ofNat_pair hi lo
    rw [← hc] at this
    have h3 := pairVal_ge n1 n2
    rw [← this] at h3
    exact absurd h3 (by decide)
  | swapped h1 h2 n1 n2 g1 g2 lo hi =>
    exfalso
    have := toNat_ofNat_pair hi lo
    rw [← hc] at this
    have h3 := pairVal_ge n2 n1
    rw [← this] at h3
    exact absurd h3 (by decide)

/-- One escape in the body of a string that the code understands. -/
theorem strBody_esc {e : List Char} {c : Char} (h : Esc e c) (hq : c = '"' → e = ['"']) {s v : List Char}
    (hb : StrBody code s v) : StrBody code ('\\' :: e ++ s) (c :: v) := by
  cases h with
  | short e c hm => exact .short e c s v hm hb
  | uni h n hh h1 h2 =>
    have := StrBody.uni (m := code) h n s v hh h1 h2 (by
      intro h22; subst h22
      have := hq rfl
      simp at this) hb
    simpa using this
  | pair h1 h2 n1 n2 g1 g2 hi lo =>
    have := StrBody.pair (m := code) h1 h2 n1 n2 s v g1 g2 hi lo hb
    simpa using this
  | swapped h1 h2 n1 n2 g1 g2 lo hi =>
    have := StrBody.swapped (m := code) h1 h2 n1 n2 s v rfl g1 g2 lo hi hb
    simpa using this

theorem lt_space_iff (c : Char) : c < ' ' ↔ c.toNat < 0x20 := Iff.rfl

theorem lexStrLoop_split {fin : Err} : ∀ (n : Nat) (str t s rest : List Char), t.length ≤ n →
    lexStrLoop fin str t = .ok (s, rest) →
    ∃ body v q, StrBody code body v ∧ Closer code q ∧ s = str ++ v ∧ t = body ++ q ++ rest := by
  intro n
  induction n with
  | zero =>
    intro str t s rest hn h
    have : t = [] := List.length_eq_zero_iff.mp (by omega)
    subst this
    rw [lexStrLoop] at h; cases h
  | succ n ih =>
    intro str t s rest hn h
    cases t with
    | nil => rw [lexStrLoop] at h; cases h
    | cons c t =>
      simp at hn
      rw [lexStrLoop] at h
      by_cases hs : c < ' '
      · rw [if_pos hs] at h; cases h
      rw [if_neg hs] at h
      by_cases hb : c = '\\'
      · rw [if_pos hb] at h
        subst hb
        split at h
        · cases h
        · rename_i cont x t' heq
          have hlen := lexEscape_length heq
          obtain ⟨e, he, rfl, hcont⟩ := lexEscape_split heq
          by_cases hx : cont = false ∧ x = '"'
          · rw [if_pos hx] at h
            cases h
            rw [hx.1] at hcont
            rw [hx.2] at he
            rcases esc_quote he with rfl | ⟨h, hh, rfl⟩
            · simp at hcont
            · exact ⟨[], [], '\\' :: 'u' :: h, .nil, .inr ⟨rfl, h, hh, rfl⟩, by simp, by simp⟩
          · rw [if_neg hx] at h
            obtain ⟨body, v, q, h1, h2, h3, h4⟩ := ih _ _ _ _ (by omega) h
            refine ⟨'\\' :: e ++ body, x :: v, q, strBody_esc he ?_ h1, h2, by rw [h3]; simp, by rw [h4]; simp⟩
            intro hxq
            by_cases hee : e = ['"']
            · exact hee
            · exact absurd ⟨by simp [hcont, hee], hxq⟩ hx
      · rw [if_neg hb] at h
        by_cases hq : c = '"'
        · rw [if_pos hq] at h
          cases h
          exact ⟨[], [], ['"'], .nil, .inl rfl, by simp, by simp [hq]⟩
        · rw [if_neg hq] at h
          obtain ⟨body, v, q, h1, h2, h3, h4⟩ := ih _ _ _ _ (by omega) h
          refine ⟨c :: body, c :: v, q, .plain c body v (by rw [lt_space_iff] at hs; omega) hq hb h1, h2, by rw [h3]; simp, by rw [h4]; simp⟩

theorem lexStrLoop_esc {fin : Err} {str e : List Char} {c : Char} {t : List Char} (he : Esc e c) (hq : c = '"' → e = ['"']) :
    lexStrLoop fin str ('\\' :: e ++ t) = lexStrLoop fin (str ++ [c]) t := by
  rw [List.cons_append, lexStrLoop]
  rw [if_neg (by decide), if_pos rfl]
  have := lexEscape_of (fin := fin) he t
  split
  · rename_i heq; rw [this] at heq; cases heq
  · rename_i cont x t' heq
    rw [this] at heq
    cases heq
    rw [if_neg]
    rintro ⟨h1, h2⟩
    rw [hq h2] at h1
    simp at h1

theorem strBody_esc_inv {body v : List Char} (h : StrBody code body v) :
    (body = [] ∧ v = []) ∨
    (∃ c s w, body = c :: s ∧ v = c :: w ∧ 0x20 ≤ c.toNat ∧ c ≠ '"' ∧ c ≠ '\\') ∨
    (∃ e c s w, body = '\\' :: e ++ s ∧ v = c :: w ∧ Esc e c ∧ (c = '"' → e = ['"'])) := by
  cases h with
  | nil => exact .inl ⟨rfl, rfl⟩
  | plain c s v h1 h2 h3 h4 => exact .inr (.inl ⟨c, s, v, rfl, rfl, h1, h2, h3⟩)
  | short e c s v h1 h2 =>
    exact .inr (.inr ⟨[e], c, s, v, rfl, rfl, .short e c h1, by
      rintro rfl
      rw [shortEscapes_iff] at h1
      rcases h1 with ⟨rfl, _⟩ | hm
      · rfl
      · unfold shortEscape at hm
        repeat' split at hm
        all_goals first | cases hm | (exact absurd (Option.some.inj hm) (by decide))⟩)
  | uni h n s v h1 h2 h3 h4 h5 =>
    refine .inr (.inr ⟨_, _, s, v, rfl, rfl, .uni h n h1 h2 h3, ?_⟩)
    intro hq
    have := toNat_ofNat_small (hex4_lt h1) h2 h3
    rw [hq] at this
    exact absurd (h4 this.symm) (by decide)
  | pair h1 h2 n1 n2 s v g1 g2 hi lo _ =>
    refine .inr (.inr ⟨_, _, s, v, by simp, rfl, .pair h1 h2 n1 n2 g1 g2 hi lo, ?_⟩)
    intro hq
    have := toNat_ofNat_pair hi lo
    rw [hq] at this
    have h3 := pairVal_ge n1 n2
    rw [← this] at h3
    exact absurd h3 (by decide)
  | swapped h1 h2 n1 n2 s v _ g1 g2 lo hi _ =>
    refine .inr (.inr ⟨_, _, s, v, by simp, rfl, .swapped h1 h2 n1 n2 g1 g2 lo hi, ?_⟩)
    intro hq
    have := toNat_ofNat_pair hi lo
    rw [hq] at this
    have h3 := pairVal_ge n2 n1
    rw [← this] at h3
    exact absurd h3 (by decide)

theorem lexStrLoop_of {fin : Err} {body v q rest : List Char} (hb : StrBody code body v) (hq : Closer code q) :
    ∀ str, lexStrLoop fin str (body ++ q ++ rest) = .ok (str ++ v, rest) := by
  have esc : ∀ {e : List Char} {c : Char} {s v : List Char}, Esc e c → (c = '"' → e = ['"']) →
      (∀ str, lexStrLoop fin str (s ++ q ++ rest) = .ok (str ++ v, rest)) →
      ∀ str, lexStrLoop fin str ('\\' :: e ++ s ++ q ++ rest) = .ok (str ++ c :: v, rest) := by
    intro e c s v he h1 ih str
    have := lexStrLoop_esc (fin := fin) (str := str) (t := s ++ q ++ rest) he h1
    simp only [List.append_assoc, List.cons_append] at this ⊢
    rw [this]
    have := ih (str ++ [c])
    simp only [List.append_assoc, List.cons_append, List.nil_append] at this
    rw [this]
  induction hb with
  | nil =>
    intro str
    rcases hq with rfl | ⟨_, h, hh, rfl⟩
    · rw [List.nil_append, List.cons_append, lexStrLoop]
      simp
    · rw [List.nil_append, List.cons_append, lexStrLoop]
      rw [if_neg (by decide), if_pos rfl]
      have := lexEscape_of (fin := fin) (Esc.uni h 0x22 hh (by unfold IsHigh; omega) (by unfold IsLow; omega)) rest
      split
      · rename_i heq; rw [this] at heq; cases heq
      · rename_i cont x t' heq
        rw [this] at heq
        cases heq
        rw [if_pos]
        · simp
        · simp
  | plain c s v h1 h2 h3 _ ih =>
    intro str
    rw [List.cons_append, List.cons_append, lexStrLoop]
    rw [if_neg (by rw [lt_space_iff]; omega), if_neg h3, if_neg h2, ih]
    simp
  | short e c s v hm hb' ih =>
    have : ∀ str, _ := esc (e := [e]) (c := c) (.short e c hm) (by
      rintro rfl
      rw [shortEscapes_iff] at hm
      rcases hm with ⟨rfl, _⟩ | hm
      · rfl
      · unfold shortEscape at hm
        repeat' split at hm
        all_goals first | cases hm | (exact absurd (Option.some.inj hm) (by decide))) ih
    simpa using this
  | uni h n s v h1 h2 h3 h4 _ ih =>
    have : ∀ str, _ := esc (.uni h n h1 h2 h3) (by
      intro hq
      have := toNat_ofNat_small (hex4_lt h1) h2 h3
      rw [hq] at this
      exact absurd (h4 this.symm) (by decide)) ih
    simpa using this
  | pair h1 h2 n1 n2 s v g1 g2 hi lo _ ih =>
    have : ∀ str, _ := esc (.pair h1 h2 n1 n2 g1 g2 hi lo) (by
      intro hq
      have := toNat_ofNat_pair hi lo
      rw [hq] at this
      have h3 := pairVal_ge n1 n2
      rw [← this] at h3
      exact absurd h3 (by decide)) ih
    simpa using this
  | swapped h1 h2 n1 n2 s v _ g1 g2 lo hi _ ih =>
    have : ∀ str, _ := esc (.swapped h1 h2 n1 n2 g1 g2 lo hi) (by
      intro hq
      have := toNat_ofNat_pair hi lo
      rw [hq] at this
      have h3 := pairVal_ge n2 n1
      rw [← this] at h3
      exact absurd h3 (by decide)) ih
    simpa using this

/-- The string lexer accepts exactly the string literals of `code`. -/
theorem lexString_iff (fin : Err) (t : List Char) (tok : Tok) (rest : List Char) :
    lexString fin t = .ok (tok, rest) ↔ ∃ s v, tok = .str v ∧ StrLit code s v ∧ '"' :: t = s ++ rest := by
  unfold lexString
  constructor
  · intro h
    cases hl : lexStrLoop fin [] t with
    | error e => rw [hl] at h; cases h
    | ok p =>
      obtain ⟨v, r⟩ := p
      rw [hl] at h
      cases h
      obtain ⟨body, v', q, h1, h2, h3, h4⟩ := lexStrLoop_split _ _ _ _ _ (Nat.le_refl _) hl
      simp at h3
      subst h3
      exact ⟨'"' :: body ++ q, v, rfl, ⟨body, q, h1, h2, rfl⟩, by rw [h4]; simp⟩
  · rintro ⟨s, v, rfl, ⟨body, q, h1, h2, rfl⟩, h⟩
    simp only [List.cons_append, List.cons.injEq, true_and] at h
    subst h
    have := lexStrLoop_of (fin := fin) (rest := rest) h1 h2 []
    rw [this]; simp

theorem strBody_mono {m m' : Mode} (h1 : m.quoteEscape = true → m'.quoteEscape = true) (h2 : m.swapped = true → m'.swapped = true)
    {s v : List Char} (h : StrBody m s v) : StrBody m' s v := by
  induction h with
  | nil => exact .nil
  | plain c s v a b d _ ih => exact .plain c s v a b d ih
  | short e c s v a _ ih => exact .short e c s v a ih
  | uni h n s v a b c d _ ih => exact .uni h n s v a b c (fun h => h1 (d h)) ih
  | pair a b n1 n2 s v g1 g2 hi lo _ ih => exact .pair a b n1 n2 s v g1 g2 hi lo ih
  | swapped a b n1 n2 s v g g1 g2 hi lo _ ih => exact .swapped a b n1 n2 s v (h2 g) g1 g2 hi lo ih

theorem strLit_mono {m m' : Mode} (h1 : m.quoteEscape = true → m'.quoteEscape = true) (h2 : m.swapped = true → m'.swapped = true)
    (h3 : m.quoteCloses = true → m'.quoteCloses = true) {s v : List Char} (h : StrLit m s v) : StrLit m' s v := by
  obtain ⟨b, q, g1, g2, rfl⟩ := h
  refine ⟨b, q, strBody_mono h1 h2 g1, ?_, rfl⟩
  rcases g2 with g | ⟨a, b⟩
  · exact .inl g
  · exact .inr ⟨h3 a, b⟩

end Micro.Json
