import Verif.Iter.CsvFailLemmas
/-
C156: CSV from a source that fails.
-/
namespace Micro.Iter.Csv
open Micro Micro.Iter

/-! ### Complete lines -/

/-- The text ends with the end of a line. -/
def Ended (t : List Char) : Prop := t = [] ∨ t.getLast? = some '\n'

theorem readLine_ended {t l r : List Char} (h : readLine t = some (l, r)) (ht : Ended t) (fin : Err) (b : List Char) :
    readLineF fin (t ++ b) = (l, r ++ b, none) ∧ Ended r := by
  have hne : t ≠ [] := by rintro rfl; simp [readLine] at h
  have hlast : t.getLast? = some '\n' := by rcases ht with h | h; exact absurd h hne; exact h
  have hj := slice_join t
  have hl : (slice t).1.getLast? = some '\n' := by
    by_contra hc
    rw [slice_rest t hc, List.append_nil] at hj
    rw [hj] at hc
    exact hc hlast
  have hr : Ended (slice t).2 := by
    by_cases h0 : (slice t).2 = []
    · exact .inl h0
    · right
      obtain ⟨x, hx⟩ := Option.ne_none_iff_exists'.mp (fun h => h0 (List.getLast?_eq_none_iff.mp h))
      rw [← hj, List.getLast?_append, hx] at hlast
      rw [hx]; exact hlast
  unfold readLine at h
  rw [if_neg hne] at h
  simp only at h
  rw [if_pos hl] at h
  unfold readLineF
  rw [slice_more t b hl]
  simp only
  rw [if_pos hl]
  split at h
  · rename_i h2; rw [if_pos h2]; cases h; exact ⟨rfl, hr⟩
  · rename_i h2; rw [if_neg h2]; cases h; exact ⟨rfl, hr⟩

theorem nextLine_ended (fin : Err) (b : List Char) : ∀ (n : Nat) (t : List Char), t.length ≤ n → Ended t →
    (∀ l r, nextLine t = some (l, r) → nextLineF fin (t ++ b) = (l, r ++ b, none) ∧ Ended r) ∧
    (nextLine t = none → nextLineF fin (t ++ b) = nextLineF fin b) := by
  intro n
  induction n with
  | zero =>
    intro t hn _
    obtain rfl : t = [] := List.length_eq_zero_iff.mp (by omega)
    exact ⟨fun l r h => (by rw [nextLine_nil] at h; cases h), fun _ => rfl⟩
  | succ n ih =>
    intro t hn ht
    cases hr : readLine t with
    | none =>
      have h0 : t = [] := by
        by_contra h0
        obtain ⟨c, u, rfl⟩ := List.exists_cons_of_ne_nil h0
        obtain ⟨l, r, h, -⟩ := readLine_cons c u
        rw [h] at hr; cases hr
      subst h0
      exact ⟨fun l r h => (by rw [nextLine_nil] at h; cases h), fun _ => rfl⟩
    | some p =>
      obtain ⟨l, r⟩ := p
      obtain ⟨h1, h2⟩ := readLine_ended hr ht fin b
      have h3 := readLine_rest hr
      by_cases hb : l = [] ∨ l = ['\n']
      · have e1 : nextLine t = nextLine r := by
          rw [nextLine.eq_def]
          split
          · rename_i h; rw [hr] at h; cases h
          · rename_i h; rw [hr] at h; cases h; rw [if_pos hb]
        have e2 : nextLineF fin (t ++ b) = nextLineF fin (r ++ b) := by
          rw [nextLineF.eq_def]
          split
          · rename_i h; rw [h1] at h; cases h; rw [if_pos hb]
          · rename_i h; rw [h1] at h; cases h
        rw [e1, e2]
        exact ih r (by omega) h2
      · have e1 : nextLine t = some (l, r) := by
          rw [nextLine.eq_def]
          split
          · rename_i h; rw [hr] at h; cases h
          · rename_i h; rw [hr] at h; cases h; rw [if_neg hb]
        have e2 : nextLineF fin (t ++ b) = (l, r ++ b, none) := by
          rw [nextLineF.eq_def]
          split
          · rename_i h; rw [h1] at h; cases h; rw [if_neg hb]
          · rename_i h; rw [h1] at h; cases h
        rw [e1, e2]
        exact ⟨fun l r h => (by cases h; exact ⟨rfl, h2⟩), fun h => by cases h⟩

theorem quoted_nil (es : Errs) (rest buf : List Char) (acc : List (List Char)) : quoted es [] rest buf acc = ((acc, some es.quote), rest) := by
  rw [quoted.eq_def]
  simp

theorem fields_ended (es : Errs) (fin : Err) (b : List Char) : ∀ (n : Nat) (line rest : List Char), line.length + rest.length ≤ n → Ended rest →
    (∀ acc fs r, fields es line rest acc = ((fs, none), r) → fieldsF es fin line (rest ++ b) none acc = ((fs, none), r ++ b) ∧ Ended r) ∧
    (∀ buf acc fs r, quoted es line rest buf acc = ((fs, none), r) → quotedF es fin line (rest ++ b) none buf acc = ((fs, none), r ++ b) ∧ Ended r) := by
  intro n
  induction n using Nat.strongRecOn with
  | ind n ih =>
    intro line rest hn ht
    constructor
    · intro acc fs r h
      rw [fields.eq_def] at h
      rw [fieldsF.eq_def]
      split at h
      · rename_i line
        exact (ih (n - 1) (by simp at hn; omega) line rest (by simp at hn; omega) ht).2 _ _ _ _ h
      · split
        · rename_i hq; exact absurd rfl (hq _)
        split at h
        · rename_i h'
          have := (List.dropWhile_suffix (fun x : Char => decide (x ≠ ',')) (l := line)).length_le
          rw [h'] at this
          simp at this
          split
          · rename_i h''
            rw [h'] at h''
            cases h''
            split at h
            · cases h
            · rename_i h3
              rw [if_neg h3]
              exact (ih (n - 1) (by omega) _ rest (by omega) ht).1 _ _ _ h
          · rename_i h''; rw [h'] at h''; cases h''
        · rename_i h'
          split
          · rename_i h''; rw [h'] at h''; cases h''
          · split at h
            · cases h
            · rename_i h3; rw [if_neg h3]; cases h; exact ⟨rfl, ht⟩
    · intro buf acc fs r h
      have hd := (List.dropWhile_suffix (fun x : Char => decide (x ≠ '"')) (l := line)).length_le
      rw [quoted.eq_def] at h
      rw [quotedF.eq_def]
      split at h
      · rename_i h'
        rw [h'] at hd
        simp at hd
        split
        · rename_i h''; rw [h'] at h''; cases h''
          exact (ih (n - 1) (by omega) _ rest (by omega) ht).2 _ _ _ _ h
        · rename_i h''; rw [h'] at h''; cases h''
        · rename_i hx _ h''; rw [h'] at h''; cases h''; exact absurd rfl (hx _)
        · rename_i h''; rw [h'] at h''; cases h''
      · rename_i h'
        rw [h'] at hd
        simp at hd
        split
        · rename_i h''; rw [h'] at h''; cases h''
        · rename_i h''; rw [h'] at h''; cases h''
          exact (ih (n - 1) (by omega) _ rest (by omega) ht).1 _ _ _ h
        · rename_i hx h''; rw [h'] at h''; cases h''; exact absurd rfl (hx _)
        · rename_i h''; rw [h'] at h''; cases h''
      · rename_i hx1 hx2 h'
        split
        · rename_i h''; rw [h'] at h''; cases h''; exact absurd rfl (hx1 _)
        · rename_i h''; rw [h'] at h''; cases h''; exact absurd rfl (hx2 _)
        · rename_i h''
          rw [h'] at h''; cases h''
          split at h
          · rename_i h3; rw [if_pos h3]; cases h; exact ⟨rfl, ht⟩
          · cases h
        · rename_i h''; rw [h'] at h''; cases h''
      · rename_i h'
        split
        · rename_i h''; rw [h'] at h''; cases h''
        · rename_i h''; rw [h'] at h''; cases h''
        · rename_i h''; rw [h'] at h''; cases h''
        · split at h
          · cases h
          · rename_i hl
            have hp := List.length_pos_iff.mpr hl
            rw [dif_neg hl, if_neg (by simp)]
            split at h
            · rw [quoted_nil] at h; cases h
            · rename_i l' r' hr
              have h1 := readLine_length hr
              obtain ⟨h3, h4⟩ := readLine_ended hr ht fin b
              split
              rename_i h5
              rw [h3] at h5
              cases h5
              exact (ih (n - 1) (by omega) _ _ (by omega) h4).2 _ _ _ _ h

theorem recordsF_congr {es : Errs} {fin : Err} {t u : List Char} (h : nextLineF fin t = nextLineF fin u) : recordsF es fin t = recordsF es fin u := by
  obtain ⟨⟨l, r, err⟩, h1⟩ : ∃ p, nextLineF fin t = p := ⟨_, rfl⟩
  rw [h1] at h
  obtain ⟨⟨⟨fs, x⟩, fsr⟩, h2⟩ : ∃ p, fieldsF es fin l r err [] = p := ⟨_, rfl⟩
  cases x with
  | some e => rw [recordsF_stop h1 (by rw [h2]), recordsF_stop h.symm (by rw [h2])]
  | none => rw [recordsF_go h1 h2, recordsF_go h.symm h2]

theorem recordsF_ended (es : Errs) (fin : Err) (b : List Char) : ∀ (n : Nat) (t : List Char), t.length ≤ n → Ended t →
    (∀ q ∈ records es t, q.2 = none) → recordsF es fin (t ++ b) = records es t ++ recordsF es fin b := by
  intro n
  induction n using Nat.strongRecOn with
  | ind n ih =>
    intro t hn ht hq
    obtain ⟨h1, h2⟩ := nextLine_ended fin b _ t (Nat.le_refl _) ht
    cases hl : nextLine t with
    | none =>
      have h3 : records es t = [] := by
        rw [records.eq_def]
        split
        · rfl
        · rename_i h; rw [hl] at h; cases h
      rw [h3, List.nil_append]
      exact recordsF_congr (h2 hl)
    | some p =>
      obtain ⟨l, r⟩ := p
      obtain ⟨h3, h4⟩ := h1 l r hl
      have h5 := nextLine_rest _ t l r (Nat.le_refl _) hl
      have h6 := (rest_length es _ l r (Nat.le_refl _)).1 []
      rw [records_of_line hl] at hq ⊢
      obtain ⟨⟨⟨fs, x⟩, fsr⟩, h7⟩ : ∃ p, fields es l r [] = p := ⟨_, rfl⟩
      rw [h7] at hq h6 ⊢
      have hx : x = none := hq _ (List.mem_cons_self ..)
      subst hx
      obtain ⟨h8, h9⟩ := (fields_ended es fin b _ l r (Nat.le_refl _) h4).1 [] fs fsr h7
      simp only at h6
      rw [recordsF_go h3 h8, ih fsr.length (by omega) fsr (Nat.le_refl _) h9 (fun q hq' => hq q (List.mem_cons_of_mem _ hq'))]
      rfl

theorem text_ended {a : List Char} {rows : List (List (List Char))} (h : Text a rows) : Ended a := by
  induction h with
  | nil => exact .inl rfl
  | @row r fs eol t rows _ _ heol _ ih =>
    right
    rcases ih with rfl | ih
    · rcases heol with rfl | rfl <;> simp
    · rw [List.getLast?_append, ih]; rfl

theorem text_recordsF (es : Errs) (fin : Err) {a : List Char} {rows : List (List (List Char))} (h : Text a rows) (b : List Char) :
    recordsF es fin (a ++ b) = rows.map record ++ recordsF es fin b := by
  have h1 := text_records es h []
  rw [List.append_nil, records_nil, List.append_nil] at h1
  rw [recordsF_ended es fin b _ a (Nat.le_refl _) (text_ended h), h1]
  rw [h1]
  intro q hq
  obtain ⟨fs, -, rfl⟩ := List.mem_map.mp hq
  rfl

/-! ### C156 -/

theorem split_first (w : Nat) (good : List (List String)) : (∀ g ∈ good, g.length = w) ∨
    ∃ g1 x g2, good = g1 ++ x :: g2 ∧ (∀ g ∈ g1, g.length = w) ∧ x.length ≠ w := by
  induction good with
  | nil => exact .inl (by simp)
  | cons g gs ih =>
    by_cases hg : g.length = w
    · rcases ih with h | ⟨g1, x, g2, rfl, h1, h2⟩
      · left
        intro a ha
        rcases List.mem_cons.mp ha with rfl | ha
        · exact hg
        · exact h a ha
      · refine .inr ⟨g :: g1, x, g2, rfl, ?_, h2⟩
        intro a ha
        rcases List.mem_cons.mp ha with rfl | ha
        · exact hg
        · exact h1 a ha
    · exact .inr ⟨[], g, gs, rfl, by simp, hg⟩

/-- C156: whatever a source holds before it fails, and whatever would have followed: OfCSV of the failing source gives rows that are the first rows of the
text that goes on, and then an error, which is that of the source or one of package csv. -/
theorem c156_prefix (es : Errs) (hes : es.Proper) (fin : Err) (hf : fin ≠ .eof) (t z : List Char) : ∃ rows e rows' e',
    ReadsRows es.fieldCount (ofCSVF es fin t) rows e ∧ ReadsRows es.fieldCount (ofCSV es (t ++ z)) rows' e' ∧ rows <+: rows' ∧
    (e = fin ∨ e = es.bareQuote ∨ e = es.quote ∨ e = es.fieldCount) := by
  obtain ⟨good, f, e, h1, h2, h3⟩ := recordsF_shape es fin _ t (Nat.le_refl _)
  obtain ⟨more, hm⟩ := h3 z
  have hne : e ≠ .eof := by
    rcases h2 with rfl | rfl | rfl
    · exact hf
    · exact hes.1.1
    · exact hes.1.2.1
  have hG := records_good es _ (t ++ z) (Nat.le_refl _)
  unfold ofCSVF
  rw [h1]
  cases good with
  | nil =>
    obtain ⟨rows', e', h4, -, -⟩ := c154_ends es hes (t ++ z)
    exact ⟨[], e, rows', e', c107_rows es.fieldCount 1 (by omega) [] (by simp) _ e (.bad hne) (.inr (by simp)), h4, List.nil_prefix,
      by rcases h2 with h | h | h <;> simp [h]⟩
  | cons g0 gs =>
    have hg0 : 0 < g0.length := by
      have := hG (g0, none) (by rw [hm]; simp)
      rcases this with ⟨-, h⟩ | h | h
      · exact List.length_pos_iff.mpr h
      · cases h
      · cases h
    unfold ofCSV
    rw [hm]
    rcases split_first g0.length (g0 :: gs) with hw | ⟨g1, x, g2, hg, hw, hx⟩
    · obtain ⟨rows2, tail2, e2, k1, k2, k3, -, -, -⟩ := split_width es g0.length more
        (fun q hq => hG q (by rw [hm]; exact List.mem_append_right _ hq)) hes.1.1 hes.1.2.1 hes.1.2.2
      refine ⟨g0 :: gs, e, (g0 :: gs) ++ rows2, e2, c107_rows es.fieldCount g0.length hg0 (g0 :: gs) hw _ e (.bad hne) (.inl (by simp)), ?_,
        List.prefix_append _ _, by rcases h2 with h | h | h <;> simp [h]⟩
      have := c107_rows es.fieldCount g0.length hg0 ((g0 :: gs) ++ rows2) (by
        intro a ha
        rcases List.mem_append.mp ha with ha | ha
        · exact hw a ha
        · exact k2 a ha) tail2 e2 k3 (.inl (by simp))
      rw [k1, ← List.append_assoc, ← List.map_append]
      exact this
    · have hg1 : g1 ≠ [] := by
        rintro rfl
        simp at hg
        exact hx (by rw [hg.1])
      rw [hg]
      refine ⟨g1, es.fieldCount, g1, es.fieldCount, ?_, ?_, List.prefix_refl _, .inr (.inr (.inr rfl))⟩
      · rw [List.map_append, List.append_assoc]
        exact c107_rows es.fieldCount g0.length hg0 g1 hw _ _ (.ragged hx hes.1.2.2) (.inl hg1)
      · rw [List.map_append, List.append_assoc]
        exact c107_rows es.fieldCount g0.length hg0 g1 hw _ _ (.ragged hx hes.1.2.2) (.inl hg1)

theorem nextLineF_open (fin : Err) (b : List Char) (hb : ∀ c ∈ b, c ≠ '\n') : nextLineF fin b = (b, [], some fin) := by
  have h : readLineF fin b = (b, [], some fin) := by
    unfold readLineF
    rw [slice_open b hb]
    simp only
    rw [if_neg]
    intro h
    exact hb _ (List.mem_of_getLast? h) rfl
  rw [nextLineF.eq_def]
  split
  · rename_i h'; rw [h] at h'; cases h'
  · rename_i h'; rw [h] at h'; cases h'; rfl

theorem fieldsF_plain (es : Errs) (fin : Err) : ∀ (n : Nat) (line rest : List Char) (err : Option Err), line.length ≤ n → '"' ∉ line →
    ∀ acc, (fieldsF es fin line rest err acc).1.2 = err := by
  intro n
  induction n with
  | zero =>
    intro line rest err hn _ acc
    obtain rfl : line = [] := List.length_eq_zero_iff.mp (by omega)
    rw [fieldsF.eq_def]
    simp [chop]
  | succ n ih =>
    intro line rest err hn hq acc
    rw [fieldsF.eq_def]
    split
    · simp at hq
    · split
      · rename_i h'
        have hs := List.dropWhile_suffix (fun x : Char => decide (x ≠ ',')) (l := line)
        have := hs.length_le
        rw [h'] at this hs
        simp at this
        rw [if_neg (fun h => hq ((List.takeWhile_prefix _).mem h))]
        exact ih _ rest err (by omega) (fun h => hq (hs.mem (List.mem_cons_of_mem _ h))) _
      · rw [if_neg]
        intro h
        unfold chop at h
        split at h
        · exact hq (List.dropLast_subset _ h)
        · exact hq h

theorem text_pos {a : List Char} {rows : List (List (List Char))} (h : Text a rows) : ∀ r ∈ rows, 0 < r.length := by
  induction h with
  | nil => simp
  | row hl _ _ _ ih =>
    intro r hr
    rcases List.mem_cons.mp hr with rfl | hr
    · exact List.length_pos_iff.mpr (row_ne (line_row hl).1)
    · exact ih r hr

/-- C156: of a source that fails after some complete rows (of the same number of fields, written row by row) and a piece of the next line, OfCSV gives
exactly the complete rows, and then an error: that of the source, unless the piece has a quote. -/
theorem c156_complete (es : Errs) (hes : es.Proper) (fin : Err) (hf : fin ≠ .eof) (a b : List Char) (rows : List (List (List Char))) (h : Text a rows)
    (hw : ∀ a ∈ rows, ∀ b ∈ rows, a.length = b.length) (hb : ∀ c ∈ b, c ≠ '\n') :
    ∃ e, ReadsRows es.fieldCount (ofCSVF es fin (a ++ b)) (rows.map (·.map String.ofList)) e ∧ (e = fin ∨ e = es.bareQuote ∨ e = es.quote) ∧
      ('"' ∉ b → e = fin) := by
  have h1 := nextLineF_open fin b hb
  obtain ⟨e, he⟩ := Option.ne_none_iff_exists'.mp ((fieldsF_failed es fin fin _ b [] (Nat.le_refl _)).1 [])
  have h2 := recordsF_stop (es := es) h1 he
  have h3 := (fieldsF_err es fin _ b [] (some fin) (Nat.le_refl _) (.inr rfl)).1 [] e he
  have hne : e ≠ .eof := by
    rcases h3 with rfl | rfl | rfl
    · exact hf
    · exact hes.1.1
    · exact hes.1.2.1
  refine ⟨e, ?_, h3, fun hq => ?_⟩
  · unfold ofCSVF
    rw [text_recordsF es fin h b, h2]
    have hmap : rows.map record = (rows.map (·.map String.ofList)).map (·, none) := by simp [record, Function.comp_def]
    rw [hmap]
    have hpos := text_pos h
    cases rows with
    | nil => exact c107_rows es.fieldCount 1 (by omega) [] (by simp) _ e (.bad hne) (.inr (by simp))
    | cons r rows =>
      refine c107_rows es.fieldCount r.length (hpos r (List.mem_cons_self ..)) _ ?_ _ e (.bad hne) (.inl (by simp))
      intro g hg
      obtain ⟨x, hx, rfl⟩ := List.mem_map.mp hg
      rw [List.length_map]
      exact hw x hx r (List.mem_cons_self ..)
  · rw [fieldsF_plain es fin _ b [] (some fin) (Nat.le_refl _) hq []] at he
    cases he; rfl

example := c156_prefix _ proper_example (.user 4) (by simp) "a,\"b".toList "c\"\n".toList
example := c156_complete _ proper_example (.user 4) (by simp) _ "d".toList _ text_example (by decide) (by decide)

end Micro.Iter.Csv
