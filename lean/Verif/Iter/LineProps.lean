import Verif.Iter.Props
set_option linter.unusedSimpArgs false
/-
C30: what the line iterators yield for every text, and exactly for which texts these are the lines.
-/
namespace Micro.Iter
open Micro

/-- The text without the first LF after each CR, however far away it is (a CR further on starts anew). -/
def swallow : Bool → List Nat → List Nat
  | _, [] => []
  | cr, c :: t =>
    if c = 13 then 13 :: swallow true t
    else if c = 10 then (if cr then swallow false t else 10 :: swallow false t)
    else c :: swallow cr t

/-- The pieces of a text, ended by each CR and each LF. -/
def pieces (keepLast : Bool) : List Nat → List Nat → List (List Nat)
  | [], acc => if keepLast = true ∧ acc ≠ [] then [acc] else []
  | c :: t, acc => if c = 13 ∨ c = 10 then acc :: pieces keepLast t [] else pieces keepLast t (acc ++ [c])

theorem readLines_exact {σ : Type} (it : Call σ Nat) (e : Err) :
    ∀ (xs : List Nat) (acc : List Nat) (cr : Bool) (s : σ), Yields it s xs e →
      LoopYields it (readLinesLoop it acc cr s)
        (pieces (decide (e = .eoi ∨ e = .eof)) (swallow cr (xs.map writeRune)) acc) (if e = .eof then .eoi else e) := by
  intro xs
  induction xs with
  | nil =>
    intro acc cr s hy
    cases hy with
    | @stop _ s' _ h =>
      rw [readLinesLoop, h]
      simp only [List.map_nil, swallow, pieces]
      by_cases he : e = .eoi ∨ e = .eof
      · have e1 : (if e = .eof then Err.eoi else e) = .eoi := by rcases he with rfl | rfl <;> simp
        simp only [e1, he, decide_true, true_and]
        cases acc with
        | nil => left; exact ⟨⟨some .eoi, cr, s'⟩, by simp, by simp⟩
        | cons a acc =>
          right
          exact ⟨a :: acc, ⟨some .eoi, cr, s'⟩, [], by simp, by simp,
            .stop (s' := ⟨some .eoi, cr, s'⟩) (by simp [readLinesCall])⟩
      · simp only [not_or] at he
        left
        simp only [he.1, he.2, if_false, ne_eq, not_false_eq_true, if_true, or_self, decide_false]
        exact ⟨_, rfl, by simp⟩
  | cons c xs ih =>
    intro acc cr s hy
    cases hy with
    | @value _ s' _ _ _ h hy =>
      rw [readLinesLoop, h]
      by_cases h13 : c = 13
      · subst h13
        simp only [List.map_cons, show writeRune 13 = 13 from rfl, if_true, swallow, pieces, true_or]
        exact .inr ⟨acc, _, _, rfl, rfl, yields_of_loop (ih [] true s' hy)⟩
      · by_cases h10 : c = 10
        · subst h10
          rw [List.map_cons, show writeRune 10 = 10 from rfl]
          cases cr
          · simp only [swallow, if_true, if_false, Bool.false_eq_true, pieces, or_true, show ¬ (10 = 13) by omega]
            exact .inr ⟨acc, _, _, rfl, rfl, yields_of_loop (ih [] false s' hy)⟩
          · simp only [swallow, if_true, show ¬ (10 = 13) by omega, if_false]
            exact ih acc false s' hy
        · simp only [List.map_cons, swallow, writeRune_13, writeRune_10, h13, h10, if_false, pieces, or_self]
          exact ih (acc ++ [writeRune c]) cr s' hy

/-- C30, every text: the line iterators yield the pieces, at CR and LF, of the text from which the first LF after each CR has been removed
(with U+FFFD for each rune that cannot be encoded), and then the end or the error of the source. -/
theorem c30_exact (it : Call σ Nat) (s : σ) (text : List Nat) (e : Err) (h : Yields it s text e) :
    YieldsForever (It.next (readLinesCall it)) (ofIter ⟨none, false, s⟩)
      (pieces (decide (e = .eoi ∨ e = .eof)) (swallow false (text.map writeRune)) []) (if e = .eof then .eoi else e) :=
  ofIter_forever (yields_of_loop (readLines_exact it e text [] false s h))

example : swallow false [97, 13, 98, 10, 10, 99] = [97, 13, 98, 10, 99] ∧
    pieces true [97, 13, 98, 10, 99] [] = [[97], [98], [99]] := by decide

/-! #### When these are the lines -/

theorem pieces_length_acc (k : Bool) (xs acc : List Nat) : (pieces k xs acc).length ≤ 1 + (pieces k xs []).length := by
  induction xs generalizing acc with
  | nil => simp only [pieces]; split <;> simp
  | cons c t ih =>
    simp only [pieces]
    by_cases h : c = 13 ∨ c = 10
    · simp [h]
    · simp only [h, if_false]
      have h1 := ih (acc ++ [c])
      have h2 : (pieces k t []).length ≤ (pieces k t [c]).length := by
        clear ih h1
        generalize [c] = a
        induction t generalizing a with
        | nil => simp only [pieces]; split <;> simp_all
        | cons d t ih2 =>
          simp only [pieces]
          by_cases h' : d = 13 ∨ d = 10
          · simp [h']
          · simp only [h', if_false, List.nil_append]
            have : ∀ (a b : List Nat), b ≠ [] → (pieces k t a).length ≤ (pieces k t b).length := by
              intro a b hb
              clear ih2 h h'
              induction t generalizing a b with
              | nil => simp only [pieces]; split <;> split <;> simp_all
              | cons x t ih3 =>
                simp only [pieces]
                by_cases hx : x = 13 ∨ x = 10
                · simp [hx]
                · simp only [hx, if_false]; exact ih3 _ _ (by simp)
            exact this _ _ (by simp)
      simp only [List.nil_append]
      omega

theorem pieces_le_lines (k : Bool) (n : Nat) : ∀ (xs : List Nat), xs.length ≤ n → ∀ (cr : Bool) (acc : List Nat),
    (pieces k (swallow cr xs) acc).length ≤ (splitLines k xs acc).length := by
  induction n with
  | zero =>
    intro xs hx cr acc
    have : xs = [] := List.length_eq_zero_iff.mp (by omega)
    subst this
    simp [swallow, pieces, splitLines]
  | succ n ih =>
    intro xs hx cr acc
    cases xs with
    | nil => simp [swallow, pieces, splitLines]
    | cons c t =>
      simp only [List.length_cons] at hx
      by_cases h13 : c = 13
      · subst h13
        simp only [swallow, if_true, pieces, true_or]
        by_cases hlf : t.head? = some 10
        · obtain ⟨t, rfl⟩ : ∃ t', t = 10 :: t' := by
            cases t with
            | nil => simp at hlf
            | cons a t => simp at hlf; exact ⟨t, by rw [hlf]⟩
          simp only [splitLines, swallow, if_true, show ¬ (10 = 13) by omega, if_false, List.length_cons] at *
          have := ih t (by omega) false []
          omega
        · rw [splitLines_cr _ _ _ hlf]
          have := ih t (by omega) true []
          simp only [List.length_cons]; omega
      · by_cases h10 : c = 10
        · subst h10
          rw [splitLines_lf]
          cases cr
          · simp only [swallow, if_true, if_false, Bool.false_eq_true, pieces, or_true, show ¬ (10 = 13) by omega, List.length_cons]
            have := ih t (by omega) false []
            omega
          · simp only [swallow, if_true, show ¬ (10 = 13) by omega, if_false, List.length_cons]
            have := ih t (by omega) false []
            have := pieces_length_acc k (swallow false t) acc
            omega
        · rw [splitLines_other _ _ _ _ h13 h10]
          simp only [swallow, h13, h10, if_false, pieces, or_self]
          exact ih t (by omega) cr _

theorem pieces_long (k : Bool) : ∀ (xs : List Nat) (acc l : List Nat) (ls : List (List Nat)),
    pieces k xs acc = l :: ls → acc.length ≤ l.length := by
  intro xs
  induction xs with
  | nil => intro acc l ls h; simp only [pieces] at h; split at h <;> simp_all
  | cons c t ih =>
    intro acc l ls h
    simp only [pieces] at h
    split at h
    · simp at h; rw [h.1]
    · have := ih _ _ _ h; simp at this; omega

/-- The texts for which the line iterators are right: no LF follows a lone CR, except that the text may end in such an LF if the source ends
without an error (its line is then yielded as the unterminated last one). -/
def LinesRight (keepLast : Bool) : Bool → List Nat → Prop
  | _, [] => True
  | _, 13 :: 10 :: t => LinesRight keepLast false t
  | cr, c :: t =>
    if c = 13 then LinesRight keepLast true t
    else if c = 10 then (if cr then keepLast = true ∧ t = [] else LinesRight keepLast false t)
    else LinesRight keepLast cr t

theorem right_cr (k b : Bool) (t : List Nat) (h : t.head? ≠ some 10) : LinesRight k b (13 :: t) = LinesRight k true t := by
  rw [LinesRight] <;> simp
  intro t'; rintro rfl; simp at h

theorem right_lf (k b : Bool) (t : List Nat) :
    LinesRight k b (10 :: t) = (if b then k = true ∧ t = [] else LinesRight k false t) := by
  rw [LinesRight] <;> simp

theorem right_other (k b : Bool) (c : Nat) (t : List Nat) (h : c ≠ 13) (h' : c ≠ 10) : LinesRight k b (c :: t) = LinesRight k b t := by
  rw [LinesRight] <;> simp [h, h']

theorem pieces_eq_lines_iff (k : Bool) (n : Nat) : ∀ (xs : List Nat), xs.length ≤ n → ∀ (cr : Bool) (acc : List Nat),
    (cr = true → xs.head? = some 10 → acc ≠ []) →
    (pieces k (swallow cr xs) acc = splitLines k xs acc ↔ LinesRight k cr xs) := by
  induction n with
  | zero =>
    intro xs hx cr acc _
    have : xs = [] := List.length_eq_zero_iff.mp (by omega)
    subst this
    simp [swallow, pieces, splitLines, LinesRight]
  | succ n ih =>
    intro xs hx cr acc hacc
    cases xs with
    | nil => simp [swallow, pieces, splitLines, LinesRight]
    | cons c t =>
      simp only [List.length_cons] at hx
      by_cases h13 : c = 13
      · subst h13
        simp only [swallow, if_true, pieces, true_or]
        by_cases hlf : t.head? = some 10
        · obtain ⟨t, rfl⟩ : ∃ t', t = 10 :: t' := by
            cases t with
            | nil => simp at hlf
            | cons a t => simp at hlf; exact ⟨t, by rw [hlf]⟩
          simp only [splitLines, swallow, if_true, show ¬ (10 = 13) by omega, if_false, List.length_cons, LinesRight] at *
          rw [List.cons.injEq, eq_self, true_and]
          exact ih t (by omega) false [] (by simp)
        · rw [splitLines_cr _ _ _ hlf, right_cr _ _ _ hlf, List.cons.injEq, eq_self, true_and]
          exact ih t (by omega) true [] (fun _ h => absurd h hlf)
      · by_cases h10 : c = 10
        · subst h10
          rw [splitLines_lf, right_lf]
          cases cr
          · simp only [swallow, if_true, if_false, Bool.false_eq_true, pieces, or_true, show ¬ (10 = 13) by omega]
            rw [List.cons.injEq, eq_self, true_and]
            exact ih t (by omega) false [] (by simp)
          · have hne : acc ≠ [] := hacc rfl (by simp)
            simp only [swallow, if_true, show ¬ (10 = 13) by omega, if_false]
            cases t with
            | nil => cases k <;> simp [swallow, pieces, splitLines, hne]
            | cons d t =>
              simp only [reduceCtorEq, and_false, iff_false]
              intro he
              by_cases hd : d = 13
              · subst hd
                simp only [swallow, if_true, pieces, true_or, List.cons.injEq, true_and] at he
                by_cases hlf : t.head? = some 10
                · obtain ⟨t, rfl⟩ : ∃ t', t = 10 :: t' := by
                    cases t with
                    | nil => simp at hlf
                    | cons a t => simp at hlf; exact ⟨t, by rw [hlf]⟩
                  simp only [splitLines, swallow, if_true, show ¬ (10 = 13) by omega, if_false] at he
                  have := pieces_le_lines k t.length t (le_refl _) false []
                  rw [he] at this; simp at this
                · rw [splitLines_cr _ _ _ hlf] at he
                  have := pieces_le_lines k t.length t (le_refl _) true []
                  rw [he] at this; simp at this
              · by_cases hd' : d = 10
                · subst hd'
                  simp only [swallow, if_true, if_false, Bool.false_eq_true, pieces, or_true, show ¬ (10 = 13) by omega,
                    List.cons.injEq, true_and, splitLines_lf] at he
                  have := pieces_le_lines k t.length t (le_refl _) false []
                  rw [he] at this; simp at this
                · simp only [swallow, hd, hd', if_false, pieces, or_self] at he
                  have := pieces_long _ _ _ _ _ he
                  simp at this
        · rw [splitLines_other _ _ _ _ h13 h10, right_other _ _ _ _ h13 h10]
          simp only [swallow, h13, h10, if_false, pieces, or_self]
          exact ih t (by omega) cr _ (by simp)

theorem right_writeRune (k : Bool) : ∀ (xs : List Nat) (cr : Bool),
    LinesRight k cr (xs.map writeRune) ↔ LinesRight k cr xs := by
  suffices H : ∀ (n : Nat) (xs : List Nat), xs.length ≤ n → ∀ cr, LinesRight k cr (xs.map writeRune) ↔ LinesRight k cr xs from
    fun xs cr => H xs.length xs (le_refl _) cr
  intro n
  induction n with
  | zero =>
    intro xs hx cr
    rw [List.length_eq_zero_iff.mp (show xs.length = 0 by omega)]; rfl
  | succ n ih =>
    intro xs hx cr
    cases xs with
    | nil => rfl
    | cons c t =>
      simp only [List.length_cons] at hx
      rw [List.map_cons]
      by_cases h13 : c = 13
      · subst h13
        rw [show writeRune 13 = 13 from rfl]
        by_cases hlf : t.head? = some 10
        · obtain ⟨t, rfl⟩ : ∃ t', t = 10 :: t' := by
            cases t with
            | nil => simp at hlf
            | cons a t => simp at hlf; exact ⟨t, by rw [hlf]⟩
          simp only [List.map_cons, show writeRune 10 = 10 from rfl, LinesRight, List.length_cons] at *
          exact ih t (by omega) false
        · rw [right_cr _ _ _ hlf, right_cr _ _ _ (by rwa [ne_eq, head_writeRune])]
          exact ih t (by omega) true
      · by_cases h10 : c = 10
        · subst h10
          rw [show writeRune 10 = 10 from rfl, right_lf, right_lf]
          cases cr
          · simpa using ih t (by omega) false
          · simp
        · rw [right_other _ _ _ _ h13 h10, right_other _ _ _ _ (mt writeRune_13.mp h13) (mt writeRune_10.mp h10)]
          exact ih t (by omega) cr

/-- C30, exactly when: the line iterators yield the lines of the text if and only if no LF follows a lone CR with other characters in between,
except for an LF that is the last character of a text that ends without an error. (A rune that cannot be encoded in UTF-8 is U+FFFD in the
line.) -/
theorem c30_lines_iff (it : Call σ Nat) (s : σ) (text : List Nat) (e : Err) (h : Yields it s text e) :
    Yields (readLinesCall it) ⟨none, false, s⟩ (splitLines (decide (e = .eoi ∨ e = .eof)) (text.map writeRune) []) (if e = .eof then .eoi else e) ↔
      LinesRight (decide (e = .eoi ∨ e = .eof)) false text := by
  have h1 := yields_of_loop (readLines_exact it e text [] false s h)
  rw [← right_writeRune, ← pieces_eq_lines_iff _ _ _ (le_refl _) false [] (by simp)]
  constructor
  · intro h2; exact (h1.unique h2).1
  · intro h2; rwa [h2] at h1

example : LinesRight true false [97, 13, 98, 10] ∧ ¬ LinesRight true false [97, 13, 98, 10, 99] ∧ ¬ LinesRight false false [97, 13, 98, 10] := by
  simp [LinesRight]

end Micro.Iter
