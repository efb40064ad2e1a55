import Verif.Json.NumExact
import Mathlib.Data.List.Chain
import Mathlib.Data.List.Basic
set_option linter.unusedSimpArgs false
/- The number lexer stops at the longest prefix that is a number. -/
namespace Micro.Json
open Micro Micro.Iter

/-- Which characters may stand next to each other in a number. -/
def NumAdj (a b : Char) : Prop := (b = '+' ∨ b = '-') → (a = 'e' ∨ a = 'E')

theorem isChain_digits {ds : List Char} (h : AllDigits ds) : List.IsChain NumAdj ds := by
  induction ds with
  | nil => exact .nil
  | cons a ds ih =>
    cases ds with
    | nil => exact .singleton a
    | cons b ds =>
      refine .cons_cons ?_ (ih (allDigits_cons.mp h).2)
      rintro (rfl | rfl)
      · have := (allDigits_cons.mp (allDigits_cons.mp h).2).1
        rw [not_digit_plus] at this; cases this
      · have := (allDigits_cons.mp (allDigits_cons.mp h).2).1
        rw [not_digit_minus] at this; cases this

theorem numAdj_digit {a b : Char} (h : isDigit b = true) : NumAdj a b := by
  rintro (rfl | rfl)
  · rw [not_digit_plus] at h; cases h
  · rw [not_digit_minus] at h; cases h

theorem isChain_numLit {m : Mode} {s : List Char} (h : NumLit m s) : List.IsChain NumAdj s := by
  obtain ⟨neg, int, f, x, ⟨i1, i2, _⟩, hf, hx, rfl⟩ := h
  have hint : List.IsChain NumAdj int := isChain_digits i2
  have hhead : ∀ y ∈ int.head?, isDigit y = true := fun y hy => i2 y (List.mem_of_mem_head? hy)
  have h1 : List.IsChain NumAdj ((if neg then ['-'] else []) ++ int) := by
    cases neg with
    | false => simpa using hint
    | true =>
      simp only [if_true]
      rw [List.isChain_append]
      exact ⟨.singleton _, hint, fun a _ b hb => numAdj_digit (hhead b hb)⟩
  have h2 : List.IsChain NumAdj ((if neg then ['-'] else []) ++ int ++ f) := by
    rcases hf with rfl | ⟨ds, _, d2, rfl⟩
    · simpa using h1
    · rw [List.isChain_append]
      refine ⟨h1, ?_, ?_⟩
      · cases ds with
        | nil => exact .singleton _
        | cons d ds => exact .cons_cons (numAdj_digit (allDigits_cons.mp d2).1) (isChain_digits d2)
      · intro a _ b hb
        simp at hb
        subst hb
        rintro (h | h) <;> exact absurd h (by decide)
  rcases hx with rfl | ⟨e, sign, ds, he, hs, _, d2, rfl⟩
  · simpa using h2
  · rw [List.isChain_append]
    refine ⟨h2, ?_, ?_⟩
    · have hds : ∀ c, List.IsChain NumAdj (c :: ds) := by
        intro c
        cases ds with
        | nil => exact .singleton _
        | cons d ds => exact .cons_cons (numAdj_digit (allDigits_cons.mp d2).1) (isChain_digits d2)
      rcases hs with rfl | rfl | rfl
      · simpa using hds e
      · simp only [List.cons_append, List.nil_append]
        exact .cons_cons (fun _ => he) (hds _)
      · simp only [List.cons_append, List.nil_append]
        exact .cons_cons (fun _ => he) (hds _)
    · intro a _ b hb
      simp at hb
      subst hb
      rintro (rfl | rfl)
      · rcases he with h | h <;> exact absurd h (by decide)
      · rcases he with h | h <;> exact absurd h (by decide)

/-- A number ends with a digit. -/
theorem numLit_last {m : Mode} {s : List Char} (h : NumLit m s) : ∃ t d, s = t ++ [d] ∧ isDigit d = true := by
  have key : ∀ ds : List Char, ds ≠ [] → AllDigits ds → ∀ a, ∃ t d, a ++ ds = t ++ [d] ∧ isDigit d = true := by
    intro ds h1 h2 a
    refine ⟨a ++ ds.dropLast, ds.getLast h1, ?_, h2 _ (List.getLast_mem h1)⟩
    rw [List.append_assoc, List.dropLast_append_getLast]
  obtain ⟨neg, int, f, x, ⟨i1, i2, _⟩, hf, hx, rfl⟩ := h
  rcases hx with rfl | ⟨e, sign, ds, _, _, d1, d2, rfl⟩
  · rcases hf with rfl | ⟨ds, d1, d2, rfl⟩
    · simpa using key int i1 i2 (if neg then ['-'] else [])
    · have := key ds d1 d2 ((if neg then ['-'] else []) ++ int ++ ['.'])
      simpa using this
  · have := key ds d1 d2 ((if neg then ['-'] else []) ++ int ++ f ++ e :: sign)
    simpa using this

theorem digit_chars {c : Char} (h : isDigit c = true) : c ≠ '.' ∧ c ≠ 'e' ∧ c ≠ 'E' :=
  ⟨digit_ne h not_digit_dot, digit_ne h not_digit_e, digit_ne h not_digit_E⟩

/-- After the dot there is no other dot, after e or E no dot, e or E. -/
theorem numLit_once {m : Mode} {a b : List Char} {c d : Char} (h : NumLit m (a ++ b)) (hc : c ∈ a) (hd : d ∈ b) :
    ¬ (c = '.' ∧ d = '.') ∧ ¬ ((c = 'e' ∨ c = 'E') ∧ (d = '.' ∨ d = 'e' ∨ d = 'E')) := by
  obtain ⟨neg, int, f, x, ⟨i1, i2, _⟩, hf, hx, heq⟩ := h
  -- positions
  have hcount : (a ++ b).count '.' ≤ 1 ∧ ((a ++ b).countP (fun c => c == 'e' || c == 'E')) ≤ 1 := by
    rw [heq]
    have hz : ∀ ds : List Char, AllDigits ds → ds.count '.' = 0 ∧ ds.countP (fun c => c == 'e' || c == 'E') = 0 := by
      intro ds h
      refine ⟨List.count_eq_zero.mpr (allDigits_not_mem h not_digit_dot), List.countP_eq_zero.mpr ?_⟩
      intro y hy
      have := digit_chars (h y hy)
      simp [this.2.1, this.2.2]
    have z1 := hz int i2
    have z0 : (if neg then ['-'] else []).count '.' = 0 ∧ (if neg then ['-'] else []).countP (fun c => c == 'e' || c == 'E') = 0 := by
      cases neg <;> simp
    have zf : f.count '.' ≤ 1 ∧ f.countP (fun c => c == 'e' || c == 'E') = 0 := by
      rcases hf with rfl | ⟨ds, _, d2, rfl⟩
      · simp
      · have := hz ds d2
        simp [List.count_cons, List.countP_cons, this.1]
        have h2 := this.2
        simpa using h2
    have zx : x.count '.' = 0 ∧ x.countP (fun c => c == 'e' || c == 'E') ≤ 1 := by
      rcases hx with rfl | ⟨e, sign, ds, he, hs, _, d2, rfl⟩
      · simp
      · have := hz ds d2
        rcases he with rfl | rfl <;> rcases hs with rfl | rfl | rfl <;>
          simp [List.count_cons, List.countP_cons, this.1, this.2]
    simp only [List.count_append, List.countP_append]
    omega
  constructor
  · rintro ⟨rfl, rfl⟩
    have h1 := List.count_pos_iff.mpr hc
    have h2 := List.count_pos_iff.mpr hd
    rw [List.count_append] at hcount
    omega
  · rintro ⟨h1, h2⟩
    by_cases hdot : d = '.'
    · subst hdot
      -- the dot is in f, the e in x
      have hx0 : '.' ∉ x := by
        rcases hx with rfl | ⟨e, sign, ds, he, hs, _, d2, rfl⟩
        · simp
        · intro hm
          have : ('.' : Char) ∈ ds := by
            rcases he with rfl | rfl <;> rcases hs with rfl | rfl | rfl <;> simpa using hm
          exact allDigits_not_mem d2 not_digit_dot this
      have he0 : c ∉ (if neg then ['-'] else []) ++ int ++ f := by
        intro hm
        simp only [List.mem_append] at hm
        rcases hm with (hm | hm) | hm
        · cases neg
          · simp at hm
          · simp at hm; subst hm; rcases h1 with h | h <;> exact absurd h (by decide)
        · have := digit_chars (i2 c hm)
          rcases h1 with h | h
          · exact this.2.1 h
          · exact this.2.2 h
        · rcases hf with rfl | ⟨ds, _, d2, rfl⟩
          · cases hm
          · rcases List.mem_cons.mp hm with rfl | hm
            · rcases h1 with h | h <;> exact absurd h (by decide)
            · have := digit_chars (d2 c hm)
              rcases h1 with h | h
              · exact this.2.1 h
              · exact this.2.2 h
      rcases List.append_eq_append_iff.mp heq with ⟨u, h3, h4⟩ | ⟨u, h3, h4⟩
      · -- prefix part = a ++ u
        exact he0 (by rw [h3]; simp [hc])
      · -- a = prefix ++ u, x = u ++ b
        exact hx0 (by rw [h4]; simp [hd])
    · have h2 : d = 'e' ∨ d = 'E' := by rcases h2 with h | h; exact absurd h hdot; exact h
      have g1 : 0 < a.countP (fun c => c == 'e' || c == 'E') := List.countP_pos_iff.mpr ⟨c, hc, by simpa using h1⟩
      have g2 : 0 < b.countP (fun c => c == 'e' || c == 'E') := List.countP_pos_iff.mpr ⟨d, hd, by simpa using h2⟩
      rw [List.countP_append] at hcount
      omega

theorem numLit_chars {m : Mode} {s : List Char} (h : NumLit m s) {c : Char} (hc : c ∈ s) :
    isDigit c = true ∨ c = '+' ∨ c = '-' ∨ c = '.' ∨ c = 'e' ∨ c = 'E' := by
  obtain ⟨neg, int, f, x, ⟨_, i2, _⟩, hf, hx, rfl⟩ := h
  simp only [List.mem_append] at hc
  rcases hc with ((hc | hc) | hc) | hc
  · cases neg
    · simp at hc
    · simp at hc; simp [hc]
  · exact .inl (i2 c hc)
  · rcases hf with rfl | ⟨ds, _, d2, rfl⟩
    · cases hc
    · rcases List.mem_cons.mp hc with rfl | hc
      · simp
      · exact .inl (d2 c hc)
  · rcases hx with rfl | ⟨e, sign, ds, he, hs, _, d2, rfl⟩
    · cases hc
    · simp only [List.cons_append, List.mem_cons, List.mem_append] at hc
      rcases hc with rfl | hc | hc
      · rcases he with h | h <;> simp [h]
      · rcases hs with rfl | rfl | rfl
        · cases hc
        · simp at hc; simp [hc]
        · simp at hc; simp [hc]
      · exact .inl (d2 c hc)

theorem numStop_longest {m m' : Mode} {s rest s' rest' : List Char} (h : NumLit m s) (hstop : NumStop s rest)
    (heq : s ++ rest = s' ++ rest') (h' : NumLit m' s') : s'.length ≤ s.length := by
  rcases List.append_eq_append_iff.mp heq with ⟨u, h1, h2⟩ | ⟨u, h1, h2⟩
  · -- s' = s ++ u, rest = u ++ rest'
    cases u with
    | nil => simp at h1; rw [h1]
    | cons c u =>
      exfalso
      subst h1
      have hs := hstop c (by rw [h2]; rfl)
      have hcs : c ∈ c :: u := by simp
      rcases numLit_chars h' (c := c) (by simp) with hd | hsign | hsign | hd | hd
      · rw [hs.1] at hd; cases hd
      · obtain ⟨t, d, rfl, hd⟩ := numLit_last h
        have := isChain_numLit h'
        rw [List.append_assoc, List.isChain_append] at this
        have hadj := this.2.1
        simp only [List.cons_append, List.nil_append] at hadj
        have := (List.isChain_cons_cons.mp hadj).1 (.inl hsign)
        have hne := digit_chars hd
        rcases this with h | h
        · exact hne.2.1 h
        · exact hne.2.2 h
      · obtain ⟨t, d, rfl, hd⟩ := numLit_last h
        have := isChain_numLit h'
        rw [List.append_assoc, List.isChain_append] at this
        have hadj := this.2.1
        simp only [List.cons_append, List.nil_append] at hadj
        have := (List.isChain_cons_cons.mp hadj).1 (.inr hsign)
        have hne := digit_chars hd
        rcases this with h | h
        · exact hne.2.1 h
        · exact hne.2.2 h
      · rcases hs.2.1 hd with hm | hm | hm
        · exact (numLit_once h' hm hcs).1 ⟨rfl, hd⟩
        · exact (numLit_once h' hm hcs).2 ⟨.inl rfl, .inl hd⟩
        · exact (numLit_once h' hm hcs).2 ⟨.inr rfl, .inl hd⟩
      · rcases hs.2.2 hd with hm | hm
        · exact (numLit_once h' hm hcs).2 ⟨.inl rfl, .inr hd⟩
        · exact (numLit_once h' hm hcs).2 ⟨.inr rfl, .inr hd⟩
  · have := congrArg List.length h1
    simp at this
    omega

end Micro.Json
