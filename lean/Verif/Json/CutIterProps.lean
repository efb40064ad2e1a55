import Verif.Json.CutIterLemmas
import Verif.Json.CutProps
/-
C155: the elements Iterate yields from a text that stops or goes on.
-/
namespace Micro.Json
open Micro Micro.Iter Micro.Stream Micro.IO

/-- C135: Iterate of a reader yields what Iterate of the text of its runes yields. -/
theorem c135_iterate_same {ρ : Type} (rd : Reader ρ) (src : ρ) (rs : List Nat) (fin : Err) (h : Yields (runeCall rd) ⟨false, .eoi, src⟩ rs fin) :
    ∃ it it', iterate fin (rs.map ch) = some it ∧ iterateReader rd src = some it' ∧
      ∀ vs e, it.YieldsForever vs e → it'.YieldsForever vs e := by
  obtain ⟨r, hr, -⟩ := c135_parse rd src rs fin h
  have H := runesOf_iter (runeCall rd) True fin (by simp)
  have hit := tokens_start rd src rs True fin (.inl ⟨trivial, h⟩)
  generalize hT : rs.map ch = t at hr hit
  unfold iterateReader gIterateTokens readerLex iterate
  cases hl : lex fin t with
  | error e =>
    obtain ⟨it2, h3⟩ := next_err H (.inl trivial) hit hl
    rw [h3]
    exact ⟨_, _, rfl, rfl, fun _ _ h => h⟩
  | ok p =>
    obtain ⟨tok, t1⟩ := p
    obtain ⟨it2, h3, h4⟩ := next_ok H hit hl
    rw [h3]
    simp only [parse, hl] at hr
    by_cases h1 : tok = .oBrace
    · subst h1
      simp only [true_or, if_true] at hr ⊢
      rw [parseValue] at hr
      obtain ⟨it3, h5, h6⟩ := next_tok (gLex (It.next (runeCall rd)) It.unread) (tokAt_unread h4 .oBrace)
      have h7 := (refine_all H).2.2.2 _ _ _ hr ((noEoi_all fin).2.2.2 _ _ _ hr) _ h6
      rw [h5, hr]
      simp only []
      cases r with
      | error e =>
        obtain ⟨it4, h8⟩ := h7 (.inl trivial)
        rw [h8]
        exact ⟨_, _, rfl, rfl, fun _ _ h => h⟩
      | ok q =>
        obtain ⟨v, t2⟩ := q
        obtain ⟨it4, h8, -⟩ := h7
        rw [h8]
        exact ⟨_, _, rfl, rfl, fun _ _ h => h⟩
    · simp only []
      rw [if_neg h1, if_neg h1]
      by_cases h2 : tok = .oBracket
      · subst h2
        simp only [if_true]
        refine ⟨_, _, rfl, rfl, ?_⟩
        intro vs e hx
        exact ofIter_forever (gArray_yields H (yields_of_ofIter (yields_of_forever hx)) (.inl trivial) _ (tokAt_unread h4 .oBracket))
      · rw [if_neg h2, if_neg h2]
        exact ⟨_, _, rfl, rfl, fun _ _ h => h⟩

theorem isVal_top {m : Mode} {s : List Char} {v : JVal} (hs : IsVal m s v) (hh : s.head? = some '{' ∨ s.head? = some '[') :
    (∃ vs, v = .arr vs) ∨ ∃ kvs, v = .obj kvs := by
  cases hs with
  | num _ h =>
    exfalso
    obtain ⟨c, u, rfl, hc⟩ := numLit_head h
    rcases hh with hh | hh <;>
    · simp at hh; subst hh
      rcases hc with hc | hc
      · cases hc
      · exact absurd hc (by decide)
  | str _ _ h => obtain ⟨b, q, -, -, rfl⟩ := h; simp at hh
  | junk _ _ h => simp [junkTexts] at h; rcases h with rfl | rfl | rfl | rfl <;> simp at hh
  | arr0 => exact .inl ⟨_, rfl⟩
  | arr => exact .inl ⟨_, rfl⟩
  | obj => exact .inr ⟨_, rfl⟩
  | _ => simp at hh

/-- Iterate always yields some values and then an error, forever. -/
theorem iterate_yields (fin : Err) (t : List Char) : ∃ it vs e, iterate fin t = some it ∧ it.YieldsForever vs e := by
  obtain ⟨it, h1, h2, h3, h4⟩ := c70_iterate fin t
  obtain ⟨r, hr, hok⟩ := parse_sound fin t
  cases r with
  | error e =>
    obtain ⟨-, vs, h5⟩ := h4 e hr
    exact ⟨it, vs, e, h1, h5⟩
  | ok p =>
    obtain ⟨v, rest⟩ := p
    obtain ⟨pre, -, w, s, -, hs, hh, -⟩ := (c60_exact_partial fin t v rest).mp hr
    rcases isVal_top hs hh with ⟨vs, rfl⟩ | ⟨kvs, rfl⟩
    · exact ⟨it, vs, _, h1, h2 vs rest hr⟩
    · exact ⟨it, _, _, h1, h3 kvs rest hr⟩

/-- C155, any two texts of which one begins the other, with any ends: the elements of the shorter text are the first elements of the longer one, except
that when the text ends (end of input, not an error of the reader) the last element may be a number that goes on in the longer text, or one after
which something is wrong there. -/
theorem c155_prefix_partial (fin fin' : Err) (a b : List Char) : ∃ it it' xs ys e e',
    iterate fin a = some it ∧ iterate fin' (a ++ b) = some it' ∧ it.YieldsForever xs e ∧ it'.YieldsForever ys e' ∧
    (xs <+: ys ∨ (fin = .eoi ∧ ∃ us x, xs = us ++ [x] ∧ ((ys = us ∧ e' ≠ .eoi) ∨
      ∃ s s' r, x = .num s ∧ ys = us ++ .num s' :: r ∧ s <+: s'))) := by
  obtain ⟨it, xs, e, h1, h2⟩ := iterate_yields fin a
  obtain ⟨it', ys, e', h3, h4⟩ := iterate_yields fin' (a ++ b)
  refine ⟨it, it', xs, ys, e, e', h1, h3, h2, h4, ?_⟩
  show CutOf fin e' xs ys
  have nil : it.YieldsForever [] e → CutOf fin e' xs ys := by
    intro h
    obtain ⟨rfl, -⟩ := Yields.unique (yields_of_forever h) (yields_of_forever h2)
    exact .inl List.nil_prefix
  have err : ∀ er, it = anyError er → CutOf fin e' xs ys := by
    rintro er rfl
    obtain ⟨rfl, -⟩ := Yields.unique (yields_of_forever (anyError_forever er)) (yields_of_forever h2)
    exact .inl List.nil_prefix
  unfold iterate at h1 h3
  cases hl : lex fin a with
  | error er => rw [hl] at h1; cases h1; exact err _ rfl
  | ok p =>
    obtain ⟨tok, t1⟩ := p
    rw [hl] at h1
    simp only at h1
    by_cases k1 : tok = .oBrace
    · subst k1
      simp only [if_true] at h1
      cases hp : parseObject fin [] t1 with
      | none => rw [hp] at h1; cases h1
      | some r =>
        rw [hp] at h1
        cases r with
        | error er => cases h1; exact err _ rfl
        | ok q =>
          obtain ⟨v, t2⟩ := q
          cases h1
          have hv : parseValue fin .oBrace t1 = some (.ok (v, t2)) := by rw [parseValue.eq_def]; exact hp
          have hl' : lex fin' (a ++ b) = .ok (.oBrace, t1 ++ b) := by
            rcases lex_cut hl fin' b with h | ⟨-, rfl, -⟩
            · exact h
            · rw [parseObject.eq_def] at hp
              obtain ⟨er, he⟩ := lex_nil fin
              rw [he] at hp
              simp at hp
          rw [hl'] at h3
          simp only [if_true] at h3
          have hv' := parseValue_more hv fin' b
          rw [parseValue.eq_def] at hv'
          simp only at hv'
          rw [hv'] at h3
          cases h3
          obtain ⟨rfl, -⟩ := Yields.unique (yields_of_forever h2) (yields_of_forever h4)
          exact .inl (List.prefix_refl _)
    · rw [if_neg k1] at h1
      by_cases k2 : tok = .oBracket
      · subst k2
        simp only [if_true] at h1
        cases h1
        have y1 : Yields (arrayCall fin) (true, t1) xs e := yields_of_ofIter (yields_of_forever h2)
        rcases lex_cut hl fin' b with h | ⟨-, rfl, -⟩
        · rw [h] at h3
          simp only [reduceCtorEq, if_false, if_true] at h3
          cases h3
          exact array_cut y1 fin' b (yields_of_ofIter (yields_of_forever h4))
        · cases y1 with
          | stop => exact .inl List.nil_prefix
          | value g _ => simp [arrayCall, lex] at g
      · rw [if_neg k2] at h1
        cases h1
        exact err _ rfl

/-- C155, a reader that fails (with any error but EOI): what Iterate has yielded before it returns the error is the beginning of what it would have yielded
if the text had gone on. -/
theorem c155_failed_reader (fin fin' : Err) (hf : fin ≠ .eoi) (a b : List Char) : ∃ it it' xs ys e e',
    iterate fin a = some it ∧ iterate fin' (a ++ b) = some it' ∧ it.YieldsForever xs e ∧ it'.YieldsForever ys e' ∧ xs <+: ys := by
  obtain ⟨it, it', xs, ys, e, e', h1, h2, h3, h4, h5⟩ := c155_prefix_partial fin fin' a b
  refine ⟨it, it', xs, ys, e, e', h1, h2, h3, h4, ?_⟩
  rcases h5 with h | ⟨h, -⟩
  · exact h
  · exact absurd h hf

/-- C155, an array in RFC 8259 notation that is cut off: Iterate yields the first elements of the array, perhaps one more, and an error that is not EOI; the one
more is the beginning of the number that is the next element, and only comes when the text ends. -/
theorem c155_array_partial (fin : Err) (a b : List Char) (vs : List JVal) (h : IsDoc common (a ++ b) (.arr vs)) (hb : b ≠ []) :
    ∃ it xs e, iterate fin a = some it ∧ it.YieldsForever xs e ∧ e ≠ .eoi ∧
      (xs <+: vs ∨ (fin = .eoi ∧ ∃ us s s' r, xs = us ++ [.num s] ∧ vs = us ++ .num s' :: r ∧ s <+: s')) := by
  obtain ⟨it, it', xs, ys, e, e', h1, h2, h3, h4, h5⟩ := c155_prefix_partial fin .eoi a b
  have hd := (c60_accepts .eoi _ _ h []).2
  rw [List.append_nil] at hd
  obtain ⟨it2, g1, g2, -, -⟩ := c70_iterate .eoi (a ++ b)
  rw [h2] at g1; cases g1
  obtain ⟨rfl, rfl⟩ := Yields.unique (yields_of_forever (g2 vs [] hd)) (yields_of_forever h4)
  obtain ⟨it3, k1, -, -, k2⟩ := c70_iterate fin a
  rw [h1] at k1; cases k1
  have hne : e ≠ .eoi := by
    obtain ⟨er, hp, -⟩ := c71_truncated fin a b _ h hb
    obtain ⟨h6, zs, h7⟩ := k2 er hp
    obtain ⟨-, rfl⟩ := Yields.unique (yields_of_forever h7) (yields_of_forever h3)
    exact h6
  refine ⟨it, xs, e, h1, h3, hne, ?_⟩
  rcases h5 with h5 | ⟨hf, us, x, rfl, ⟨-, h6⟩ | ⟨s, s', r, rfl, rfl, h6⟩⟩
  · exact .inl h5
  · exact absurd rfl h6
  · exact .inr ⟨hf, us, s, s', r, rfl, rfl, h6⟩

/-- C155, the bytes of an array in UTF-8, cut off anywhere: as before, and InvalidUTF8 and nothing but elements of the array if the cut is inside a
character. -/
theorem c155_bytes_partial (text : List Char) (vs : List JVal) (h : IsDoc common text (.arr vs)) (k : Nat) (hk : k < size text) :
    ∃ it xs e, iterateReader bytesReader ((text.flatMap utf8).take k) = some it ∧ it.YieldsForever xs e ∧ e ≠ .eoi ∧
      ((∀ p q, text = p ++ q → size p ≠ k) → e = .invalidUTF8) ∧
      (xs <+: vs ∨ ((∃ p q, text = p ++ q ∧ size p = k) ∧ ∃ us s s' r, xs = us ++ [.num s] ∧ vs = us ++ .num s' :: r ∧ s <+: s')) := by
  rcases cut_at text k (by omega) with ⟨p, q, rfl, rfl, h1⟩ | ⟨p, c, q, j, rfl, h2, h3, rfl, h1⟩
  · have hq : q ≠ [] := by rintro rfl; simp at hk
    obtain ⟨it, it', g1, g2, g3⟩ := c135_iterate_same bytesReader _ _ _ (yields_whole p .eoi)
    rw [map_ch_toNat] at g1
    obtain ⟨it2, xs, e, k1, k2, k3, k4⟩ := c155_array_partial .eoi p q vs h hq
    rw [g1] at k1; cases k1
    refine ⟨it', xs, e, by rw [h1]; exact g2, g3 _ _ k2, k3, fun hn => absurd rfl (hn p q rfl), ?_⟩
    rcases k4 with k4 | ⟨-, k4⟩
    · exact .inl k4
    · exact .inr ⟨⟨p, q, rfl, rfl⟩, k4⟩
  · obtain ⟨it, it', g1, g2, g3⟩ := c135_iterate_same bytesReader _ _ _ (yields_broken p c j h2 h3 .eoi)
    rw [map_ch_toNat] at g1
    obtain ⟨it2, xs, e, k1, k2, k3, k4⟩ := c155_array_partial .invalidUTF8 p (c :: q) vs h (by simp)
    rw [g1] at k1; cases k1
    have he : e = .invalidUTF8 := by
      have hp := c71_reader_error .invalidUTF8 (by decide) p (c :: q) _ h (by simp)
      obtain ⟨it3, m1, -, -, m2⟩ := c70_iterate .invalidUTF8 p
      rw [g1] at m1; cases m1
      obtain ⟨-, zs, m3⟩ := m2 _ hp
      exact (Yields.unique (yields_of_forever m3) (yields_of_forever k2)).2.symm
    refine ⟨it', xs, e, by rw [h1]; exact g2, g3 _ _ k2, k3, fun _ => he, ?_⟩
    rcases k4 with k4 | ⟨hf, -⟩
    · exact .inl k4
    · exact absurd hf (by decide)

theorem num12 : NumLit common ['1', '2'] := ⟨false, ['1', '2'], [], [], ⟨by simp, by intro c hc; simp at hc; rcases hc with rfl | rfl <;> decide, by simp⟩, .inl rfl, .inl rfl, rfl⟩
theorem num34 : NumLit common ['3', '4'] := ⟨false, ['3', '4'], [], [], ⟨by simp, by intro c hc; simp at hc; rcases hc with rfl | rfl <;> decide, by simp⟩, .inl rfl, .inl rfl, rfl⟩
theorem num345 : NumLit common ['3', '4', '5'] :=
  ⟨false, ['3', '4', '5'], [], [], ⟨by simp, by intro c hc; simp at hc; rcases hc with rfl | rfl | rfl <;> decide, by simp⟩, .inl rfl, .inl rfl, rfl⟩

theorem doc12_345 : IsDoc common ['[', '1', '2', ',', '3', '4', '5', ']'] (.arr [.num ['1', '2'], .num ['3', '4', '5']]) :=
  ⟨[], _, ws_nil, .arr _ _ (.more [] ['1', '2'] [] _ _ _ ws_nil (.num _ num12) ws_nil
    (.last [] ['3', '4', '5'] [] _ ws_nil (.num _ num345) ws_nil)) (by decide), .inr rfl, rfl⟩

/-- C155 is false of numbers: from [12,345] cut off after [12,34 Iterate yields 12 and 34, which is not an element of the array, and only then an
error. -/
theorem c155_number_refuted : ∃ (a b : List Char) (vs xs : List JVal) (it : AnyIter JVal) (e : Err),
    IsDoc common (a ++ b) (.arr vs) ∧ b ≠ [] ∧ iterate .eoi a = some it ∧ it.YieldsForever xs e ∧ ∃ x ∈ xs, x ∉ vs := by
  refine ⟨['[', '1', '2', ',', '3', '4'], ['5', ']'], [.num ['1', '2'], .num ['3', '4', '5']], [.num ['1', '2'], .num ['3', '4']],
    ⟨_, It.next (arrayCall .eoi), ofIter (true, ['1', '2', ',', '3', '4'])⟩,
    eArrCommaOrBracket, doc12_345, by simp, ?_, ?_, .num ['3', '4'], by simp, by simp⟩
  · unfold iterate
    have h0 : lex .eoi ['[', '1', '2', ',', '3', '4'] = .ok (.oBracket, ['1', '2', ',', '3', '4']) :=
      lex_of (w := []) (s := ['[']) ws_nil .oBracket rfl
    rw [h0]
    simp
  · have n12 := numLit_mono common_le_code.mz num12
    have n34 := numLit_mono common_le_code.mz num34
    have h1 : lex .eoi ['1', '2', ',', '3', '4'] = .ok (.num ['1', '2'], [',', '3', '4']) :=
      lex_of (w := []) (s := ['1', '2']) ws_nil (.num _ n12 (by intro c hc; simp at hc; subst hc; decide) (by intro h; cases h)) rfl
    have h2 : lex .eoi [',', '3', '4'] = .ok (.comma, ['3', '4']) := lex_of (w := []) (s := [',']) ws_nil .comma rfl
    have h3 : lex .eoi ['3', '4'] = .ok (.num ['3', '4'], []) :=
      lex_of (w := []) (s := ['3', '4']) ws_nil (.num _ n34 (by intro c hc; cases hc) (fun _ => rfl)) rfl
    refine ofIter_forever (.value (s' := (false, [',', '3', '4'])) ?_ (.value (s' := (false, [])) ?_ (.stop (s' := (false, [])) ?_)))
    · have h4 : parseValue .eoi (.num ['1', '2']) [',', '3', '4'] = some (.ok (.num ['1', '2'], [',', '3', '4'])) := by rw [parseValue.eq_def]
      simp [arrayCall, h1, h4]
    · have h4 : parseValue .eoi (.num ['3', '4']) [] = some (.ok (.num ['3', '4'], [])) := by rw [parseValue.eq_def]
      simp [arrayCall, h2, h3, h4]
    · simp [arrayCall, lex, endErr]

/-- Non-vacuity. -/
example := c155_array_partial .eoi ['[', '1', '2', ',', '3', '4'] ['5', ']'] _ doc12_345 (by simp)
example := c155_array_partial (.user 7) ['[', '1', '2', ',', '3', '4'] ['5', ']'] _ doc12_345 (by simp)
example := c155_bytes_partial _ _ doc12_345 6 (by decide)
example := c155_failed_reader (.user 7) .eoi (by simp) ['[', '1', '2', ',', '3', '4'] ['5', ']']

end Micro.Json
