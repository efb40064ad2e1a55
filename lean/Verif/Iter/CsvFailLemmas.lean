import Verif.Iter.CsvFailModel
import Verif.Iter.CsvProps
/-
Lemmas for C156: a failing source compared with one that goes on.
-/
namespace Micro.Iter.Csv
open Micro Micro.Iter

/-! ### Lines -/

theorem slice_more (t z : List Char) (h : (slice t).1.getLast? = some '\n') : slice (t ++ z) = ((slice t).1, (slice t).2 ++ z) := by
  induction t with
  | nil => simp [slice] at h
  | cons c t ih =>
    simp only [slice, List.cons_append] at h ⊢
    by_cases hc : c = '\n'
    · simp only [if_pos hc]
    · simp only [if_neg hc] at h ⊢
      have h1 : (slice t).1 ≠ [] := by
        intro h0; rw [h0] at h; simp at h; exact hc h
      rw [List.getLast?_cons_of_ne_nil h1] at h
      rw [ih h]

theorem slice_join (t : List Char) : (slice t).1 ++ (slice t).2 = t := by
  induction t with
  | nil => simp [slice]
  | cons c t ih =>
    simp only [slice]
    split
    · rename_i h; simp [h]
    · simp [ih]

theorem slice_open (t : List Char) (h : ∀ c ∈ t, c ≠ '\n') : slice t = (t, []) := by
  induction t with
  | nil => rfl
  | cons c t ih => simp [slice, h c (List.mem_cons_self ..), ih (fun c hc => h c (List.mem_cons_of_mem _ hc))]

theorem slice_rest (t : List Char) (h : (slice t).1.getLast? ≠ some '\n') : (slice t).2 = [] := by
  induction t with
  | nil => rfl
  | cons c t ih =>
    simp only [slice] at h ⊢
    by_cases hc : c = '\n'
    · simp only [if_pos hc] at h; simp at h
    · simp only [if_neg hc] at h ⊢
      by_cases h1 : (slice t).1 = []
      · cases t with
        | nil => rfl
        | cons d t => have := slice_pos d t; rw [h1] at this; simp at this
      · rw [List.getLast?_cons_of_ne_nil h1] at h
        exact ih h

theorem readLineF_more {fin : Err} {t l r : List Char} (h : readLineF fin t = (l, r, none)) (z : List Char) :
    readLine (t ++ z) = some (l, r ++ z) := by
  have hne : t ≠ [] := by rintro rfl; simp [readLineF, slice] at h
  unfold readLineF at h
  simp only at h
  unfold readLine
  rw [if_neg (by simp [hne])]
  split at h
  · rename_i hl
    rw [slice_more t z hl]
    simp only
    rw [if_pos hl]
    split at h
    · rename_i h2; rw [if_pos h2]; cases h; rfl
    · rename_i h2; rw [if_neg h2]; cases h; rfl
  · cases h

theorem nextLineF_more (fin : Err) (z : List Char) : ∀ (n : Nat) (t l r : List Char), t.length ≤ n → nextLineF fin t = (l, r, none) →
    nextLine (t ++ z) = some (l, r ++ z) := by
  intro n
  induction n with
  | zero =>
    intro t l r hn h
    obtain rfl : t = [] := List.length_eq_zero_iff.mp (by omega)
    rw [nextLineF.eq_def] at h
    simp [readLineF, slice] at h
  | succ n ih =>
    intro t l r hn h
    rw [nextLineF.eq_def] at h
    split at h
    · rename_i l' r' hr
      have h1 := readLineF_more hr z
      have h2 := readLineF_rest hr
      rw [nextLine.eq_def]
      split
      · rename_i h3; rw [h1] at h3; cases h3
      · rename_i h3
        rw [h1] at h3
        cases h3
        split at h
        · rename_i h4; rw [if_pos h4]; exact ih r' l r (by omega) h
        · rename_i h4; rw [if_neg h4]; cases h; rfl
    · cases h

/-! ### Fields -/

theorem fieldsF_more (es : Errs) (fin : Err) (z : List Char) : ∀ (n : Nat) (line rest : List Char), line.length + rest.length ≤ n →
    (∀ acc fs r, fieldsF es fin line rest none acc = ((fs, none), r) → fields es line (rest ++ z) acc = ((fs, none), r ++ z)) ∧
    (∀ buf acc fs r, quotedF es fin line rest none buf acc = ((fs, none), r) → quoted es line (rest ++ z) buf acc = ((fs, none), r ++ z)) := by
  intro n
  induction n using Nat.strongRecOn with
  | ind n ih =>
    intro line rest hn
    constructor
    · intro acc fs r h
      rw [fieldsF.eq_def] at h
      rw [fields.eq_def]
      split at h
      · rename_i line
        exact (ih (n - 1) (by simp at hn; omega) line rest (by simp at hn; omega)).2 _ _ _ _ h
      · split
        · rename_i hq; exact absurd rfl (hq _)
        split at h
        · rename_i h'
          have := (List.dropWhile_suffix (fun x : Char => decide (x ≠ ',')) (l := line)).length_le
          rw [h'] at this
          simp at this
          split
          · rename_i h''
            rw [h'] at h''
            cases h''
            split at h
            · cases h
            · rename_i h3
              rw [if_neg h3]
              exact (ih (n - 1) (by omega) _ rest (by omega)).1 _ _ _ h
          · rename_i h''; rw [h'] at h''; cases h''
        · rename_i h'
          split
          · rename_i h''; rw [h'] at h''; cases h''
          · split at h
            · cases h
            · rename_i h3; rw [if_neg h3]; cases h; rfl
    · intro buf acc fs r h
      have hd := (List.dropWhile_suffix (fun x : Char => decide (x ≠ '"')) (l := line)).length_le
      rw [quotedF.eq_def] at h
      rw [quoted.eq_def]
      split at h
      · rename_i h'
        rw [h'] at hd
        simp at hd
        split
        · rename_i h''; rw [h'] at h''; cases h''
          exact (ih (n - 1) (by omega) _ rest (by omega)).2 _ _ _ _ h
        · rename_i h''; rw [h'] at h''; cases h''
        · rename_i hx _ h''; rw [h'] at h''; cases h''; exact absurd rfl (hx _)
        · rename_i h''; rw [h'] at h''; cases h''
      · rename_i h'
        rw [h'] at hd
        simp at hd
        split
        · rename_i h''; rw [h'] at h''; cases h''
        · rename_i h''; rw [h'] at h''; cases h''
          exact (ih (n - 1) (by omega) _ rest (by omega)).1 _ _ _ h
        · rename_i hx h''; rw [h'] at h''; cases h''; exact absurd rfl (hx _)
        · rename_i h''; rw [h'] at h''; cases h''
      · rename_i hx1 hx2 h'
        split
        · rename_i h''; rw [h'] at h''; cases h''; exact absurd rfl (hx1 _)
        · rename_i h''; rw [h'] at h''; cases h''; exact absurd rfl (hx2 _)
        · rename_i h''
          rw [h'] at h''; cases h''
          split at h
          · rename_i h3; rw [if_pos h3]; cases h; rfl
          · cases h
        · rename_i h''; rw [h'] at h''; cases h''
      · rename_i h'
        split
        · rename_i h''; rw [h'] at h''; cases h''
        · rename_i h''; rw [h'] at h''; cases h''
        · rename_i h''; rw [h'] at h''; cases h''
        · split at h
          · simp at h
          · rename_i hl
            have hp := List.length_pos_iff.mpr hl
            rw [dif_neg hl]
            rw [if_neg (by simp)] at h
            split at h
            rename_i l' r' err' hr
            have h1 := readLineF_length hr
            cases err' with
            | some e =>
              exfalso
              have := (fieldsF_failed es fin e _ l' r' (Nat.le_refl _)).2 (buf ++ line) acc
              rw [h] at this
              exact this rfl
            | none =>
              have h2 := readLineF_rest hr
              have h3 := readLineF_more hr z
              split
              · rename_i h4; rw [h3] at h4; cases h4
              · rename_i h4
                rw [h3] at h4
                cases h4
                exact (ih (n - 1) (by omega) _ _ (by omega)).2 _ _ _ _ h

/-- The error of a record: a mistake in the text, or the failure of the source. -/
theorem fieldsF_err (es : Errs) (fin : Err) : ∀ (n : Nat) (line rest : List Char) (err : Option Err), line.length + rest.length ≤ n →
    (err = none ∨ err = some fin) →
    (∀ acc e, (fieldsF es fin line rest err acc).1.2 = some e → e = fin ∨ e = es.bareQuote ∨ e = es.quote) ∧
    (∀ buf acc e, (quotedF es fin line rest err buf acc).1.2 = some e → e = fin ∨ e = es.bareQuote ∨ e = es.quote) := by
  intro n
  induction n using Nat.strongRecOn with
  | ind n ih =>
    intro line rest err hn he
    have key : ∀ e, err = some e → e = fin := by
      rintro e h
      rcases he with he | he
      · rw [he] at h; cases h
      · rw [he] at h; cases h; rfl
    constructor
    · intro acc e
      rw [fieldsF.eq_def]
      split
      · rename_i line
        exact (ih (n - 1) (by simp at hn; omega) line rest err (by simp at hn; omega) he).2 _ _ _
      · split
        · rename_i h'
          have := (List.dropWhile_suffix (fun x : Char => decide (x ≠ ',')) (l := line)).length_le
          rw [h'] at this
          simp at this
          split
          · intro h; simp at h; exact .inr (.inl h.symm)
          · exact (ih (n - 1) (by omega) _ rest err (by omega) he).1 _ _
        · split
          · intro h; simp at h; exact .inr (.inl h.symm)
          · intro h; exact .inl (key e h)
    · intro buf acc e
      have hd := (List.dropWhile_suffix (fun x : Char => decide (x ≠ '"')) (l := line)).length_le
      rw [quotedF.eq_def]
      split
      · rename_i h
        rw [h] at hd
        simp at hd
        exact (ih (n - 1) (by omega) _ rest err (by omega) he).2 _ _ _
      · rename_i h
        rw [h] at hd
        simp at hd
        exact (ih (n - 1) (by omega) _ rest err (by omega) he).1 _ _
      · split
        · intro h; exact .inl (key e h)
        · intro h; simp at h; exact .inr (.inr h.symm)
      · split
        · split
          · intro h; simp at h; exact .inr (.inr h.symm)
          · intro h; exact .inl (key e h)
        · rename_i hl
          have hp := List.length_pos_iff.mpr hl
          split
          · intro h; exact .inl (key e h)
          · split
            rename_i hr
            have h1 := readLineF_length hr
            refine (ih (n - 1) (by omega) _ _ _ (by omega) ?_).2 _ _ _
            unfold readLineF at hr
            simp only at hr
            split at hr
            · split at hr <;> cases hr <;> exact .inl rfl
            · cases hr; exact .inr rfl

theorem nextLineF_err (fin : Err) : ∀ (n : Nat) (t l r : List Char) (err : Option Err), t.length ≤ n → nextLineF fin t = (l, r, err) →
    err = none ∨ err = some fin := by
  intro n
  induction n with
  | zero =>
    intro t l r err hn h
    obtain rfl : t = [] := List.length_eq_zero_iff.mp (by omega)
    rw [nextLineF.eq_def] at h
    simp [readLineF, slice] at h
    exact .inr h.2.2.symm
  | succ n ih =>
    intro t l r err hn h
    rw [nextLineF.eq_def] at h
    split at h
    · rename_i l' r' hr
      have h2 := readLineF_rest hr
      split at h
      · exact ih r' l r err (by omega) h
      · cases h; exact .inl rfl
    · rename_i hr
      cases h
      unfold readLineF at hr
      simp only at hr
      split at hr
      · split at hr <;> cases hr
      · cases hr; exact .inr rfl

/-! ### Records -/

theorem recordsF_stop {es : Errs} {fin : Err} {t l r : List Char} {err : Option Err} {e : Err} (h : nextLineF fin t = (l, r, err))
    (h2 : (fieldsF es fin l r err []).1.2 = some e) : recordsF es fin t = [((fieldsF es fin l r err []).1.1.map String.ofList, some e)] := by
  rw [recordsF.eq_def]
  split
  rename_i h'
  rw [h] at h'
  cases h'
  split
  · rename_i h3; rw [h2] at h3; cases h3; rfl
  · rename_i h3; rw [h2] at h3; cases h3

theorem recordsF_go {es : Errs} {fin : Err} {t l r fsr : List Char} {err : Option Err} {fs : List (List Char)} (h : nextLineF fin t = (l, r, err))
    (h2 : fieldsF es fin l r err [] = ((fs, none), fsr)) : recordsF es fin t = (fs.map String.ofList, none) :: recordsF es fin fsr := by
  rw [recordsF.eq_def]
  split
  rename_i h'
  rw [h] at h'
  cases h'
  split
  · rename_i h3; rw [h2] at h3; cases h3
  · rw [h2]

/-- The records of a failing source: some without an error, which are the same if the text goes on, and one with an error. -/
theorem recordsF_shape (es : Errs) (fin : Err) : ∀ (n : Nat) (t : List Char), t.length ≤ n → ∃ (good : List (List String)) (f : List String) (e : Err),
    recordsF es fin t = good.map (·, none) ++ [(f, some e)] ∧ (e = fin ∨ e = es.bareQuote ∨ e = es.quote) ∧
    ∀ z, ∃ more, records es (t ++ z) = good.map (·, none) ++ more := by
  intro n
  induction n using Nat.strongRecOn with
  | ind n ih =>
    intro t hn
    obtain ⟨⟨l, r, err⟩, h⟩ : ∃ p, nextLineF fin t = p := ⟨_, rfl⟩
    have he := nextLineF_err fin _ t l r err (Nat.le_refl _) h
    obtain ⟨⟨⟨fs, x⟩, fsr⟩, h2⟩ : ∃ p, fieldsF es fin l r err [] = p := ⟨_, rfl⟩
    cases x with
    | some e =>
      refine ⟨[], fs.map String.ofList, e, ?_, (fieldsF_err es fin _ l r err (Nat.le_refl _) he).1 [] e (by rw [h2]), fun z => ⟨_, rfl⟩⟩
      rw [recordsF_stop h (by rw [h2]), h2]
      rfl
    | none =>
      have herr : err = none := by
        cases err with
        | none => rfl
        | some e =>
          have := (fieldsF_failed es fin e _ l r (Nat.le_refl _)).1 []
          rw [h2] at this
          exact absurd rfl this
      subst herr
      have h3 := nextLineF_rest fin _ t l r (Nat.le_refl _) h
      have h4 := (restF_length es fin _ l r none (Nat.le_refl _)).1 []
      rw [h2] at h4
      simp only at h4
      obtain ⟨good, f, e, g1, g2, g3⟩ := ih fsr.length (by omega) fsr (Nat.le_refl _)
      refine ⟨fs.map String.ofList :: good, f, e, ?_, g2, fun z => ?_⟩
      · rw [recordsF_go h h2, g1]; rfl
      · obtain ⟨more, hm⟩ := g3 z
        refine ⟨more, ?_⟩
        rw [records_of_line (nextLineF_more fin z _ t l r (Nat.le_refl _) h)]
        have := (fieldsF_more es fin z _ l r (Nat.le_refl _)).1 [] fs fsr h2
        rw [this, hm]
        rfl

end Micro.Iter.Csv
