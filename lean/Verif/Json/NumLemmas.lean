import Verif.Json.Spec
import Mathlib.Tactic.Push
set_option linter.unusedSimpArgs false
namespace Micro.Json
open Micro Micro.Iter

/-- The text ends here, and if it is really the end then without a reader error. -/
def EndOk (fin : Err) (rest : List Char) : Prop := rest = [] → fin = .eoi

theorem endErr_ok (fin msg : Err) (h : msg ≠ .eoi) : endErr fin msg ≠ .eoi := by
  unfold endErr; split <;> assumption

def NoDigit (rest : List Char) : Prop := ∀ c, rest.head? = some c → isDigit c = false

theorem allDigits_cons {c : Char} {ds : List Char} : AllDigits (c :: ds) ↔ isDigit c = true ∧ AllDigits ds := by
  unfold AllDigits; simp

theorem not_digit_minus : isDigit '-' = false := by decide
theorem not_digit_plus : isDigit '+' = false := by decide
theorem not_digit_dot : isDigit '.' = false := by decide
theorem not_digit_e : isDigit 'e' = false := by decide
theorem not_digit_E : isDigit 'E' = false := by decide

theorem numExpLoop_iff (fin : Err) (t : List Char) : ∀ (str : List Char) (hd : Bool) (s rest : List Char),
    numExpLoop fin str hd t = .ok (s, rest) ↔
      ∃ ds, s = str ++ ds ∧ t = ds ++ rest ∧ AllDigits ds ∧ (hd = true ∨ ds ≠ []) ∧ NoDigit rest ∧ EndOk fin rest := by
  induction t with
  | nil =>
    intro str hd s rest
    unfold numExpLoop
    constructor
    · intro h
      split at h
      · rename_i hc
        cases h
        exact ⟨[], by simp, by simp, by simp [AllDigits], .inl hc.2, by simp [NoDigit], fun _ => hc.1⟩
      · cases h
    · rintro ⟨ds, h1, h2, h3, h4, h5, h6⟩
      have hds : ds = [] ∧ rest = [] := by simpa using h2.symm
      obtain ⟨rfl, rfl⟩ := hds
      have hh : hd = true := by simpa using h4
      rw [if_pos ⟨h6 rfl, hh⟩, h1]; simp
  | cons c t ih =>
    intro str hd s rest
    unfold numExpLoop
    by_cases hc : isDigit c = true
    · rw [if_pos hc, ih]
      constructor
      · rintro ⟨ds, h1, h2, h3, h4, h5, h6⟩
        exact ⟨c :: ds, by rw [h1]; simp, by rw [h2]; simp, allDigits_cons.mpr ⟨hc, h3⟩, by simp, h5, h6⟩
      · rintro ⟨ds, h1, h2, h3, h4, h5, h6⟩
        cases ds with
        | nil =>
          simp only [List.nil_append] at h2
          have := h5 c (by rw [← h2]; rfl)
          rw [hc] at this; cases this
        | cons d ds =>
          simp only [List.cons_append, List.cons.injEq] at h2
          obtain ⟨rfl, rfl⟩ := h2
          exact ⟨ds, by rw [h1]; simp, rfl, (allDigits_cons.mp h3).2, by simp, h5, h6⟩
    · rw [if_neg hc]
      have hc' : isDigit c = false := by simpa using hc
      constructor
      · intro h
        split at h
        · rename_i hh
          cases h
          exact ⟨[], by simp, by simp, by simp [AllDigits], .inl hh, by intro x hx; simp at hx; subst hx; exact hc', by intro hx; cases hx⟩
        · cases h
      · rintro ⟨ds, h1, h2, h3, h4, h5, h6⟩
        cases ds with
        | nil =>
          simp only [List.nil_append, List.append_nil] at h1 h2
          have hh : hd = true := by simpa using h4
          rw [if_pos hh, h1, h2]
        | cons d ds =>
          simp only [List.cons_append, List.cons.injEq] at h2
          obtain ⟨rfl, rfl⟩ := h2
          exact absurd (allDigits_cons.mp h3).1 hc

/-- sign and digits of an exponent. -/
def ExpTail (x : List Char) : Prop :=
  ∃ sign ds, (sign = [] ∨ sign = ['+'] ∨ sign = ['-']) ∧ ds ≠ [] ∧ AllDigits ds ∧ x = sign ++ ds

theorem numExp_iff (fin : Err) (t str s rest : List Char) :
    numExp fin str t = .ok (s, rest) ↔
      ∃ x, s = str ++ x ∧ t = x ++ rest ∧ ExpTail x ∧ NoDigit rest ∧ EndOk fin rest := by
  cases t with
  | nil =>
    unfold numExp
    constructor
    · intro h; cases h
    · rintro ⟨x, h1, h2, ⟨sign, ds, _, h3, _, h4⟩, _, _⟩
      have : x = [] := by
        have := congrArg List.length h2; simp at this; exact List.length_eq_zero_iff.mp (by omega)
      rw [this] at h4
      have := congrArg List.length h4
      simp at this
      exact absurd (List.length_eq_zero_iff.mp (by omega)) h3
  | cons c t =>
    simp only [numExp]
    by_cases hc : c = '+' ∨ c = '-'
    · rw [if_pos hc, numExpLoop_iff]
      constructor
      · rintro ⟨ds, h1, h2, h3, h4, h5, h6⟩
        refine ⟨c :: ds, by rw [h1]; simp, by rw [h2]; simp, ⟨[c], ds, ?_, by simpa using h4, h3, rfl⟩, h5, h6⟩
        rcases hc with rfl | rfl <;> simp
      · rintro ⟨x, h1, h2, ⟨sign, ds, hs, h3, h4, h5⟩, h6, h7⟩
        rcases hs with rfl | hs
        · exfalso
          simp only [List.nil_append] at h5
          subst h5
          cases x with
          | nil => exact h3 rfl
          | cons d ds =>
            simp only [List.nil_append, List.cons_append, List.cons.injEq] at h2
            have := (allDigits_cons.mp h4).1
            rw [← h2.1] at this
            rcases hc with rfl | rfl
            · rw [not_digit_plus] at this; cases this
            · rw [not_digit_minus] at this; cases this
        · have hs' : sign = [c] := by
            subst h5
            rcases hs with rfl | rfl <;> · simp at h2; rw [h2.1]
          subst hs' h5
          simp only [List.cons_append, List.nil_append, List.cons.injEq, true_and] at h2
          exact ⟨ds, by rw [h1]; simp, h2, h4, .inr h3, h6, h7⟩
    · rw [if_neg hc, numExpLoop_iff]
      push Not at hc
      constructor
      · rintro ⟨ds, h1, h2, h3, h4, h5, h6⟩
        exact ⟨ds, h1, h2, ⟨[], ds, .inl rfl, by simpa using h4, h3, rfl⟩, h5, h6⟩
      · rintro ⟨x, h1, h2, ⟨sign, ds, hs, h3, h4, h5⟩, h6, h7⟩
        rcases hs with rfl | rfl | rfl
        · simp only [List.nil_append] at h5; subst h5
          exact ⟨x, h1, h2, h4, .inr h3, h6, h7⟩
        · subst h5; simp at h2; exact absurd h2.1 hc.1
        · subst h5; simp at h2; exact absurd h2.1 hc.2

/-- Not a digit, and not an e or E. -/
def NoExpStart (rest : List Char) : Prop := ∀ c, rest.head? = some c → isDigit c = false ∧ c ≠ 'e' ∧ c ≠ 'E'

/-- The optional exponent. -/
def ExpPart (x rest : List Char) : Prop :=
  (x = [] ∧ NoExpStart rest) ∨ (∃ e x', (e = 'e' ∨ e = 'E') ∧ x = e :: x' ∧ ExpTail x' ∧ NoDigit rest)

theorem expPart_isExp {x rest : List Char} (h : ExpPart x rest) : IsExp x ∧ NoDigit rest := by
  rcases h with ⟨rfl, h⟩ | ⟨e, x', he, rfl, ⟨sign, ds, hs, h1, h2, rfl⟩, h⟩
  · exact ⟨.inl rfl, fun c hc => (h c hc).1⟩
  · exact ⟨.inr ⟨e, sign, ds, he, hs, h1, h2, by simp⟩, h⟩

theorem digit_ne {c d : Char} (h : isDigit c = true) (hd : isDigit d = false) : c ≠ d := by
  rintro rfl; rw [h] at hd; cases hd

theorem numFrac_iff (fin : Err) (t : List Char) : ∀ (str : List Char) (hd : Bool) (s rest : List Char),
    numFrac fin str hd t = .ok (s, rest) ↔
      ∃ ds x, s = str ++ ds ++ x ∧ t = ds ++ x ++ rest ∧ AllDigits ds ∧ (hd = true ∨ ds ≠ []) ∧ ExpPart x rest ∧ EndOk fin rest := by
  induction t with
  | nil =>
    intro str hd s rest
    unfold numFrac
    constructor
    · intro h
      split at h
      · split at h
        · cases h
          rename_i h1 h2
          exact ⟨[], [], by simp, by simp, by simp [AllDigits], .inl h2, .inl ⟨rfl, by simp [NoExpStart]⟩, fun _ => h1⟩
        · cases h
      · cases h
    · rintro ⟨ds, x, h1, h2, h3, h4, h5, h6⟩
      have hds : ds = [] ∧ x = [] ∧ rest = [] := by
        have := congrArg List.length h2; simp at this
        refine ⟨List.length_eq_zero_iff.mp (by omega), List.length_eq_zero_iff.mp (by omega), List.length_eq_zero_iff.mp (by omega)⟩
      obtain ⟨rfl, rfl, rfl⟩ := hds
      have hh : hd = true := by simpa using h4
      rw [if_pos (h6 rfl), if_pos hh, h1]; simp
  | cons c t ih =>
    intro str hd s rest
    unfold numFrac
    by_cases hc : isDigit c = true
    · rw [if_pos hc, ih]
      constructor
      · rintro ⟨ds, x, h1, h2, h3, h4, h5, h6⟩
        exact ⟨c :: ds, x, by rw [h1]; simp, by rw [h2]; simp, allDigits_cons.mpr ⟨hc, h3⟩, by simp, h5, h6⟩
      · rintro ⟨ds, x, h1, h2, h3, h4, h5, h6⟩
        cases ds with
        | nil =>
          exfalso
          simp only [List.nil_append] at h2
          rcases h5 with ⟨rfl, h5⟩ | ⟨e, x', he, rfl, _, _⟩
          · have := (h5 c (by simp only [List.nil_append] at h2; rw [← h2]; rfl)).1
            rw [hc] at this; cases this
          · simp only [List.cons_append, List.cons.injEq] at h2
            rw [h2.1] at hc
            rcases he with rfl | rfl
            · rw [not_digit_e] at hc; cases hc
            · rw [not_digit_E] at hc; cases hc
        | cons d ds =>
          simp only [List.cons_append, List.cons.injEq] at h2
          obtain ⟨rfl, rfl⟩ := h2
          exact ⟨ds, x, by rw [h1]; simp, rfl, (allDigits_cons.mp h3).2, by simp, h5, h6⟩
    · rw [if_neg hc]
      have hc' : isDigit c = false := by simpa using hc
      have hnil : ∀ ds : List Char, ∀ y, c :: t = ds ++ y → AllDigits ds → ds = [] := by
        intro ds y hy hall
        cases ds with
        | nil => rfl
        | cons d ds =>
          simp only [List.cons_append, List.cons.injEq] at hy
          rw [hy.1] at hc
          exact absurd (allDigits_cons.mp hall).1 hc
      by_cases he : c = 'e' ∨ c = 'E'
      · rw [if_pos he]
        constructor
        · intro h
          split at h
          · rename_i hh
            rw [numExp_iff] at h
            obtain ⟨x, h1, h2, h3, h4, h5⟩ := h
            exact ⟨[], c :: x, by rw [h1]; simp, by rw [h2]; simp, by simp [AllDigits], .inl hh, .inr ⟨c, x, he, rfl, h3, h4⟩, h5⟩
          · cases h
        · rintro ⟨ds, x, h1, h2, h3, h4, h5, h6⟩
          have hd0 := hnil ds (x ++ rest) (by rw [h2]; simp) h3
          subst hd0
          have hh : hd = true := by simpa using h4
          rw [if_pos hh, numExp_iff]
          rcases h5 with ⟨rfl, h5⟩ | ⟨e, x', he', rfl, h7, h8⟩
          · exfalso
            have := h5 c (by simp only [List.nil_append] at h2; rw [← h2]; rfl)
            rcases he with rfl | rfl
            · exact this.2.1 rfl
            · exact this.2.2 rfl
          · simp only [List.nil_append, List.cons_append, List.cons.injEq] at h2
            obtain ⟨rfl, h2⟩ := h2
            exact ⟨x', by rw [h1]; simp, h2, h7, h8, h6⟩
      · rw [if_neg he]
        push Not at he
        constructor
        · intro h
          split at h
          · rename_i hh
            cases h
            exact ⟨[], [], by simp, by simp, by simp [AllDigits], .inl hh, .inl ⟨rfl, by intro y hy; simp at hy; subst hy; exact ⟨hc', he.1, he.2⟩⟩, by intro hx; cases hx⟩
          · cases h
        · rintro ⟨ds, x, h1, h2, h3, h4, h5, h6⟩
          have hd0 := hnil ds (x ++ rest) (by rw [h2]; simp) h3
          subst hd0
          have hh : hd = true := by simpa using h4
          rcases h5 with ⟨rfl, h5⟩ | ⟨e, x', he', rfl, h7, h8⟩
          · rw [if_pos hh, h1, h2]; simp
          · exfalso
            simp only [List.nil_append, List.cons_append, List.cons.injEq] at h2
            rw [h2.1] at he
            rcases he' with rfl | rfl
            · exact he.1 rfl
            · exact he.2 rfl

/-- Not a digit, dot, e or E. -/
def NoFracStart (rest : List Char) : Prop := ∀ c, rest.head? = some c → isDigit c = false ∧ c ≠ '.' ∧ c ≠ 'e' ∧ c ≠ 'E'

/-- Optional fraction and exponent. -/
def FracPart (y rest : List Char) : Prop :=
  (y = [] ∧ NoFracStart rest) ∨
  (∃ e x', (e = 'e' ∨ e = 'E') ∧ y = e :: x' ∧ ExpTail x' ∧ NoDigit rest) ∨
  (∃ ds x, ds ≠ [] ∧ AllDigits ds ∧ y = '.' :: ds ++ x ∧ ExpPart x rest)

theorem numInt_iff (fin : Err) (t : List Char) : ∀ (str : List Char) (hd lz : Bool) (s rest : List Char), (lz = true → hd = true) →
    (numInt fin str hd lz t = .ok (s, rest) ↔
      ∃ ds y, s = str ++ ds ++ y ∧ t = ds ++ y ++ rest ∧ AllDigits ds ∧ (hd = true ∨ ds ≠ []) ∧ (lz = true → ds = []) ∧
        FracPart y rest ∧ EndOk fin rest) := by
  induction t with
  | nil =>
    intro str hd lz s rest _
    unfold numInt
    constructor
    · intro h
      split at h
      · split at h
        · cases h
          rename_i h1 h2
          exact ⟨[], [], by simp, by simp, by simp [AllDigits], .inl h2, by simp, .inl ⟨rfl, by simp [NoFracStart]⟩, fun _ => h1⟩
        · cases h
      · cases h
    · rintro ⟨ds, x, h1, h2, h3, h4, _, h5, h6⟩
      have hds : ds = [] ∧ x = [] ∧ rest = [] := by
        have := congrArg List.length h2; simp at this
        refine ⟨List.length_eq_zero_iff.mp (by omega), List.length_eq_zero_iff.mp (by omega), List.length_eq_zero_iff.mp (by omega)⟩
      obtain ⟨rfl, rfl, rfl⟩ := hds
      have hh : hd = true := by simpa using h4
      rw [if_pos (h6 rfl), if_pos hh, h1]; simp
  | cons c t ih =>
    intro str hd lz s rest hlz
    unfold numInt
    have headFrac : ∀ y, FracPart y rest → c :: t = y ++ rest → isDigit c = false := by
      intro y hy h2
      rcases hy with ⟨rfl, h5⟩ | ⟨e, x', he, rfl, _, _⟩ | ⟨ds, x, _, _, rfl, _⟩
      · exact (h5 c (by simp only [List.nil_append] at h2; rw [← h2]; rfl)).1
      · simp only [List.cons_append, List.cons.injEq] at h2
        rw [h2.1]
        rcases he with rfl | rfl
        · exact not_digit_e
        · exact not_digit_E
      · simp only [List.cons_append, List.cons.injEq] at h2
        rw [h2.1]; exact not_digit_dot
    by_cases hc : isDigit c = true
    · rw [if_pos hc]
      by_cases hz : lz = true
      · rw [if_pos hz]
        constructor
        · intro h; cases h
        · rintro ⟨ds, y, h1, h2, h3, h4, h5, h6, h7⟩
          have := h5 hz
          subst this
          rw [List.nil_append] at h2
          rw [headFrac y h6 h2] at hc; cases hc
      · rw [if_neg hz, ih _ _ _ _ _ (fun h => absurd h hz)]
        constructor
        · rintro ⟨ds, x, h1, h2, h3, h4, h5, h6, h7⟩
          exact ⟨c :: ds, x, by rw [h1]; simp, by rw [h2]; simp, allDigits_cons.mpr ⟨hc, h3⟩, by simp, fun h => absurd h hz, h6, h7⟩
        · rintro ⟨ds, x, h1, h2, h3, h4, h5, h6, h7⟩
          cases ds with
          | nil =>
            rw [List.nil_append] at h2
            rw [headFrac x h6 h2] at hc; cases hc
          | cons d ds =>
            simp only [List.cons_append, List.cons.injEq] at h2
            obtain ⟨rfl, rfl⟩ := h2
            exact ⟨ds, x, by rw [h1]; simp, rfl, (allDigits_cons.mp h3).2, by simp, fun h => absurd h hz, h6, h7⟩
    · rw [if_neg hc]
      have hc' : isDigit c = false := by simpa using hc
      have hnil : ∀ ds : List Char, ∀ y, c :: t = ds ++ y → AllDigits ds → ds = [] := by
        intro ds y hy hall
        cases ds with
        | nil => rfl
        | cons d ds =>
          simp only [List.cons_append, List.cons.injEq] at hy
          rw [hy.1] at hc
          exact absurd (allDigits_cons.mp hall).1 hc
      by_cases hdot : c = '.'
      · subst hdot
        rw [if_pos rfl]
        constructor
        · intro h
          split at h
          · rename_i hh
            rw [numFrac_iff] at h
            obtain ⟨ds, x, h1, h2, h3, h4, h5, h6⟩ := h
            exact ⟨[], '.' :: ds ++ x, by rw [h1]; simp, by rw [h2]; simp, by simp [AllDigits], .inl hh, by simp,
              .inr (.inr ⟨ds, x, by simpa using h4, h3, rfl, h5⟩), h6⟩
          · cases h
        · rintro ⟨ds, y, h1, h2, h3, h4, h5, h6, h7⟩
          have hd0 := hnil ds (y ++ rest) (by rw [h2]; simp) h3
          subst hd0
          have hh : hd = true := by simpa using h4
          rw [if_pos hh, numFrac_iff]
          rcases h6 with ⟨rfl, h6⟩ | ⟨e, x', he, rfl, _, _⟩ | ⟨ds, x, g1, g2, rfl, g3⟩
          · exfalso
            exact (h6 '.' (by simp only [List.nil_append] at h2; rw [← h2]; rfl)).2.1 rfl
          · exfalso
            simp only [List.nil_append, List.cons_append, List.cons.injEq] at h2
            rcases he with rfl | rfl
            · exact absurd h2.1 (by decide)
            · exact absurd h2.1 (by decide)
          · simp only [List.nil_append, List.cons_append, List.cons.injEq, true_and] at h2
            exact ⟨ds, x, by rw [h1]; simp, h2, g2, .inr g1, g3, h7⟩
      · rw [if_neg hdot]
        by_cases he : c = 'e' ∨ c = 'E'
        · rw [if_pos he]
          constructor
          · intro h
            split at h
            · rename_i hh
              rw [numExp_iff] at h
              obtain ⟨x, h1, h2, h3, h4, h5⟩ := h
              exact ⟨[], c :: x, by rw [h1]; simp, by rw [h2]; simp, by simp [AllDigits], .inl hh, by simp, .inr (.inl ⟨c, x, he, rfl, h3, h4⟩), h5⟩
            · cases h
          · rintro ⟨ds, y, h1, h2, h3, h4, h5, h6, h7⟩
            have hd0 := hnil ds (y ++ rest) (by rw [h2]; simp) h3
            subst hd0
            have hh : hd = true := by simpa using h4
            rw [if_pos hh, numExp_iff]
            rcases h6 with ⟨rfl, h6⟩ | ⟨e, x', he', rfl, g1, g2⟩ | ⟨ds, x, g1, g2, rfl, g3⟩
            · exfalso
              have := h6 c (by simp only [List.nil_append] at h2; rw [← h2]; rfl)
              rcases he with rfl | rfl
              · exact this.2.2.1 rfl
              · exact this.2.2.2 rfl
            · simp only [List.nil_append, List.cons_append, List.cons.injEq] at h2
              obtain ⟨rfl, h2⟩ := h2
              exact ⟨x', by rw [h1]; simp, h2, g1, g2, h7⟩
            · exfalso
              simp only [List.nil_append, List.cons_append, List.cons.injEq] at h2
              exact hdot h2.1
        · rw [if_neg he]
          push Not at he
          constructor
          · intro h
            split at h
            · rename_i hh
              cases h
              exact ⟨[], [], by simp, by simp, by simp [AllDigits], .inl hh, by simp, .inl ⟨rfl, by intro y hy; simp at hy; subst hy; exact ⟨hc', hdot, he.1, he.2⟩⟩, by intro hx; cases hx⟩
            · cases h
          · rintro ⟨ds, y, h1, h2, h3, h4, h5, h6, h7⟩
            have hd0 := hnil ds (y ++ rest) (by rw [h2]; simp) h3
            subst hd0
            have hh : hd = true := by simpa using h4
            rcases h6 with ⟨rfl, h6⟩ | ⟨e, x', he', rfl, g1, g2⟩ | ⟨ds, x, g1, g2, rfl, g3⟩
            · rw [if_pos hh, h1, h2]; simp
            · exfalso
              simp only [List.nil_append, List.cons_append, List.cons.injEq] at h2
              rw [h2.1] at he
              rcases he' with rfl | rfl
              · exact he.1 rfl
              · exact he.2 rfl
            · exfalso
              simp only [List.nil_append, List.cons_append, List.cons.injEq] at h2
              exact hdot h2.1

end Micro.Json
