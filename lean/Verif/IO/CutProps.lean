import Verif.IO.Props
set_option linter.unusedSimpArgs false
/-
C153: text cut off at any byte. A program that writes text with the writers of package io and dies, or whose destination fails, leaves the first `k`
bytes of it; this says what the iterators of package iter make of them.
-/
namespace Micro.IO
open Micro Micro.Iter

/-! ### Specification -/

/-- The number of bytes of a text in UTF-8. -/
def size (cs : List Char) : Nat := (cs.flatMap utf8).length

/-- What may be given, after the complete lines, for the first `j` bytes of the line `l` and its line ending, and how the input then ends: nothing if no
byte is there; the part of the line that is there, which is all of it if only its ending was cut off; nothing, and an error, if the last character is
incomplete. -/
inductive LastPart (l : List Char) (j : Nat) : List (List Char) → Err → Prop where
  | nothing : j = 0 → LastPart l j [] .eoi
  | part (p q : List Char) : 0 < j → l = p ++ q → size p = min j (size l) → LastPart l j [p] .eoi
  | broken : (∀ p q, l = p ++ q → size p ≠ min j (size l)) → LastPart l j [] .invalidUTF8

/-! ### Runes -/

theorem size_append (a b : List Char) : size (a ++ b) = size a + size b := by simp [size]

theorem size_cons (c : Char) (b : List Char) : size (c :: b) = (utf8 c).length + size b := by simp [size]

theorem utf8_pos (c : Char) : 0 < (utf8 c).length := by
  have h := utf8_gen c
  generalize c.toNat = n at h
  revert h
  generalize utf8 c = s
  intro h
  cases h <;> simp

/-- The beginning of a character is refused. -/
theorem rune_cut (seq : List Nat) (r : Nat) (h : GenUtf8 seq r) (j : Nat) (h0 : 0 < j) (h1 : j < seq.length) (e : Err) :
    ∃ st, runeCall bytesReader ⟨false, e, seq.take j⟩ = some (.error .invalidUTF8, st) := by
  cases h with
  | @one b h => simp at h1; omega
  | @two a b ha hb =>
    obtain rfl : j = 1 := by simp at h1; omega
    have h1 : ¬ (192 + a < 128) := by omega
    have h2 : extraBytes (192 + a) = 1 := by unfold extraBytes; rw [if_pos (by omega)]
    simp [runeCall, bytesReader, h1, h2]
  | @three a b c ha hb hc =>
    have h2 : extraBytes (224 + a) = 2 := by
      unfold extraBytes; rw [if_neg (by omega), if_pos (by omega)]
    have h3 : ¬ (224 + a < 128) := by omega
    obtain rfl | rfl : j = 1 ∨ j = 2 := by simp at h1; omega
    all_goals simp [runeCall, bytesReader, h3, h2]
  | @four a b c d ha hb hc hd hm =>
    have h2 : extraBytes (240 + a) = 3 := by
      unfold extraBytes; rw [if_neg (by omega), if_neg (by omega), if_pos (by omega)]
    have h3 : ¬ (240 + a < 128) := by omega
    obtain rfl | rfl | rfl : j = 1 ∨ j = 2 ∨ j = 3 := by simp at h1; omega
    all_goals simp [runeCall, bytesReader, h3, h2]

theorem yields_runes (p : List Char) (rest : List Nat) (rs : List Nat) (e : Err)
    (h : ∀ e0, Yields (runeCall bytesReader) ⟨false, e0, rest⟩ rs e) :
    ∀ e0, Yields (runeCall bytesReader) ⟨false, e0, p.flatMap utf8 ++ rest⟩ (p.map Char.toNat ++ rs) e := by
  induction p with
  | nil => simpa using h
  | cons c p ih =>
    intro e0
    obtain ⟨e', h⟩ := rune_step (utf8 c) (p.flatMap utf8 ++ rest) c.toNat e0 (utf8_gen c)
    exact .value (by simpa using h) (ih e')

theorem yields_whole (p : List Char) (e0 : Err) : Yields (runeCall bytesReader) ⟨false, e0, p.flatMap utf8⟩ (p.map Char.toNat) .eoi := by
  have := yields_runes p [] [] .eoi (fun e => .stop (s' := ⟨true, .eoi, []⟩) (by simp [runeCall, bytesReader])) e0
  simpa using this

theorem yields_broken (p : List Char) (c : Char) (j : Nat) (h0 : 0 < j) (h1 : j < (utf8 c).length) (e0 : Err) :
    Yields (runeCall bytesReader) ⟨false, e0, p.flatMap utf8 ++ (utf8 c).take j⟩ (p.map Char.toNat) .invalidUTF8 := by
  have := yields_runes p ((utf8 c).take j) [] .invalidUTF8 (fun e => by
    obtain ⟨st, h⟩ := rune_cut _ _ (utf8_gen c) j h0 h1 e
    exact .stop h) e0
  simpa using this

/-- Where a cut falls: after a character or inside one. -/
theorem cut_at (cs : List Char) : ∀ k, k ≤ size cs →
    (∃ p q, cs = p ++ q ∧ k = size p ∧ (cs.flatMap utf8).take k = p.flatMap utf8) ∨
    (∃ p c q j, cs = p ++ c :: q ∧ 0 < j ∧ j < (utf8 c).length ∧ k = size p + j ∧
      (cs.flatMap utf8).take k = p.flatMap utf8 ++ (utf8 c).take j) := by
  induction cs with
  | nil =>
    intro k hk
    obtain rfl : k = 0 := by simp [size] at hk; omega
    exact .inl ⟨[], [], rfl, rfl, rfl⟩
  | cons c cs ih =>
    intro k hk
    rw [size_cons] at hk
    by_cases h0 : k = 0
    · subst h0; exact .inl ⟨[], c :: cs, rfl, rfl, by simp⟩
    by_cases h1 : k < (utf8 c).length
    · refine .inr ⟨[], c, cs, k, rfl, by omega, h1, by simp [size], ?_⟩
      simp only [List.flatMap_cons, List.flatMap_nil, List.nil_append]
      rw [List.take_append_of_le_length (by omega)]
    · have e1 : ((c :: cs).flatMap utf8).take k = utf8 c ++ (cs.flatMap utf8).take (k - (utf8 c).length) := by
        rw [List.flatMap_cons, List.take_append, List.take_of_length_le (by omega)]
      rcases ih (k - (utf8 c).length) (by omega) with ⟨p, q, h2, h3, h4⟩ | ⟨p, d, q, j, h2, h3, h4, h5, h6⟩
      · exact .inl ⟨c :: p, q, by simp [h2], by rw [size_cons]; omega, by rw [e1, h4]; simp⟩
      · exact .inr ⟨c :: p, d, q, j, by simp [h2], h3, h4, by rw [size_cons]; omega, by rw [e1, h6]; simp⟩

/-- Prefixes of a text are ordered by their size. -/
theorem size_inside {p p' q q' : List Char} {c : Char} {j : Nat} (h : p ++ c :: q = p' ++ q') (h0 : 0 < j) (h1 : j < (utf8 c).length) :
    size p' ≠ size p + j := by
  induction p generalizing p' with
  | nil =>
    cases p' with
    | nil => simp [size]; omega
    | cons d p' =>
      simp at h
      obtain ⟨rfl, -⟩ := h
      rw [size_cons]
      simp [size] at *
      omega
  | cons a p ih =>
    cases p' with
    | nil => simp only [size_cons]; simp only [size, List.flatMap_nil, List.length_nil]; have := utf8_pos a; omega
    | cons d p' =>
      simp at h
      obtain ⟨rfl, h⟩ := h
      have := ih (p' := p') h
      rw [size_cons, size_cons]
      omega

/-- C153, runes: for the first `k` bytes of any text, OfReaderAsRunes yields exactly the characters that are there completely, then EOI if the cut is
after a character (or after the end of the text), InvalidUTF8 otherwise; and the same error forever. -/
theorem c153_runes (cs : List Char) (k : Nat) :
    ∃ p q e, cs = p ++ q ∧ size p ≤ k ∧ (∀ c q', q = c :: q' → k < size p + (utf8 c).length) ∧
      YieldsForever (It.next (runeCall bytesReader)) (ofIter ⟨false, .eoi, (cs.flatMap utf8).take k⟩) (p.map Char.toNat) e ∧
      (e = .eoi ∨ e = .invalidUTF8) ∧ (e = .eoi ↔ size p = min k (size cs)) := by
  by_cases hk : k < size cs
  · rcases cut_at cs k (by omega) with ⟨p, q, rfl, rfl, h⟩ | ⟨p, c, q, j, rfl, h0, h1, rfl, h⟩
    · refine ⟨p, q, .eoi, rfl, le_refl _, ?_, ?_, .inl rfl, by simp; omega⟩
      · rintro c q' rfl; have := utf8_pos c; omega
      · rw [h]; exact ofIter_forever (yields_whole p _)
    · refine ⟨p, c :: q, .invalidUTF8, rfl, by omega, ?_, ?_, .inr rfl, ?_⟩
      · rintro d q' h2; cases h2; omega
      · rw [h]; exact ofIter_forever (yields_broken p c j h0 h1 _)
      · simp; omega
  · refine ⟨cs, [], .eoi, by simp, by omega, by simp, ?_, .inl rfl, by simp; omega⟩
    rw [List.take_of_length_le (by unfold size at hk; omega)]
    exact ofIter_forever (yields_whole cs _)

/-- "a€" cut inside the euro sign. -/
example : ("a€".toList.flatMap utf8).take 3 = [97, 0xE2, 0x82] ∧ size ['a'] = 1 ∧ size "a€".toList = 4 := by decide

/-! ### Lines -/

theorem lines_tail (eol : List Char) (heol : eol = ['\n'] ∨ eol = ['\r', '\n']) (k : Bool) (pre : List (List Char))
    (hl : ∀ l ∈ pre, ∀ c ∈ l.map Char.toNat, c ≠ 13 ∧ c ≠ 10) (t : List Nat) :
    (NoLFAfterLoneCR false ((pre.flatMap (· ++ eol)).map Char.toNat ++ t) ↔ NoLFAfterLoneCR false t) ∧
      splitLines k ((pre.flatMap (· ++ eol)).map Char.toNat ++ t) [] = pre.map (·.map Char.toNat) ++ splitLines k t [] := by
  induction pre with
  | nil => simp
  | cons l pre ih =>
    have ih := ih (fun l h => hl l (by simp [h]))
    have h1 := hl l (by simp)
    simp only [List.flatMap_cons, List.map_append, List.append_assoc, List.map_cons]
    simp only [List.map_append] at ih
    rw [noLF_line _ _ _ h1, splitLines_line _ _ _ _ h1]
    rcases heol with rfl | rfl
    · simp only [List.map_cons, List.map_nil, List.cons_append, List.nil_append]
      rw [show '\n'.toNat = 10 from rfl, noLF_lf, splitLines_lf, ih.2]
      exact ⟨⟨fun h => ih.1.mp h.2, fun h => ⟨rfl, ih.1.mpr h⟩⟩, rfl⟩
    · simp only [List.map_cons, List.map_nil, List.cons_append, List.nil_append]
      rw [show '\n'.toNat = 10 from rfl, show '\r'.toNat = 13 from rfl]
      simp only [NoLFAfterLoneCR, splitLines]
      exact ⟨ih.1, by rw [ih.2]⟩

theorem plain_tail (k : Bool) (p : List Nat) (h : ∀ c ∈ p, c ≠ 13 ∧ c ≠ 10) :
    NoLFAfterLoneCR false p ∧ splitLines k p [] = if k = true ∧ p ≠ [] then [p] else [] := by
  have h1 := noLF_line false p [] h
  have h2 := splitLines_line k p [] [] h
  rw [List.append_nil] at h1 h2
  refine ⟨h1.mpr (by simp [NoLFAfterLoneCR]), ?_⟩
  rw [h2]; simp [splitLines]

theorem cr_tail (k : Bool) (p : List Nat) (h : ∀ c ∈ p, c ≠ 13 ∧ c ≠ 10) :
    NoLFAfterLoneCR false (p ++ [13]) ∧ splitLines k (p ++ [13]) [] = [p] := by
  have h1 := noLF_line false p [13] h
  have h2 := splitLines_line k p [] [13] h
  refine ⟨h1.mpr (by simp [NoLFAfterLoneCR]), ?_⟩
  rw [h2]; simp [splitLines]

/-- Which line a cut falls into. -/
theorem cut_line (eol : List Char) : ∀ (lines : List (List Char)) (k : Nat), k < size (lines.flatMap (· ++ eol)) →
    ∃ pre l post j, lines = pre ++ l :: post ∧ j < size (l ++ eol) ∧ k = size (pre.flatMap (· ++ eol)) + j := by
  intro lines
  induction lines with
  | nil => intro k h; simp [size] at h
  | cons l lines ih =>
    intro k h
    rw [List.flatMap_cons, size_append] at h
    by_cases hk : k < size (l ++ eol)
    · exact ⟨[], l, lines, k, rfl, hk, by simp [size]⟩
    · obtain ⟨pre, m, post, j, h1, h2, h3⟩ := ih (k - size (l ++ eol)) (by omega)
      exact ⟨l :: pre, m, post, j, by simp [h1], h2, by rw [List.flatMap_cons, size_append]; omega⟩

/-- C153, lines: lines (texts without CR and LF) are written with OfIOWriterAsLines, with either line ending, and cut off after `k` bytes, before the
end. Reading what is there with OfReaderAsLines gives the lines that were written completely, in order, and at most one more, which is the beginning of
the line the cut falls into; if the cut is inside a character, that line is not given and the iterator ends with InvalidUTF8. -/
theorem c153_lines (eol : List Char) (heol : eol = ['\n'] ∨ eol = ['\r', '\n']) (lines : List (List Char))
    (hl : ∀ l ∈ lines, ∀ c ∈ l, c ≠ '\r' ∧ c ≠ '\n') (k : Nat) (hk : k < size (lines.flatMap (· ++ eol))) :
    ∃ bytes pre l post j out e,
      writeAll (lineWriter (eol.flatMap utf8) bufferWriter) [] (lines.map (·.flatMap utf8)) = (none, bytes) ∧
      lines = pre ++ l :: post ∧ k = size (pre.flatMap (· ++ eol)) + j ∧ j < size (l ++ eol) ∧ LastPart l j out e ∧
      YieldsForever (It.next (readLinesCall (runeCall bytesReader)))
        (ofIter ⟨none, false, ⟨false, .eoi, bytes.take k⟩⟩) ((pre ++ out).map (·.map Char.toNat)) e := by
  obtain ⟨pre, l, post, j, rfl, hj, rfl⟩ := cut_line eol lines k hk
  have hl' : ∀ l' ∈ pre ++ l :: post, ∀ c ∈ l'.map Char.toNat, c ≠ 13 ∧ c ≠ 10 := by
    intro l h c hc
    obtain ⟨d, hd, rfl⟩ := List.mem_map.mp hc
    have := hl l h d hd
    constructor
    · intro h; exact this.1 (Char.toNat_inj.mp h)
    · intro h; exact this.2 (Char.toNat_inj.mp h)
  have hpre : ∀ l' ∈ pre, ∀ c ∈ l'.map Char.toNat, c ≠ 13 ∧ c ≠ 10 := fun l' h => hl' l' (by simp [h])
  have hll : ∀ c ∈ l.map Char.toNat, c ≠ 13 ∧ c ≠ 10 := hl' l (by simp)
  have hw : writeAll (lineWriter (eol.flatMap utf8) bufferWriter) [] ((pre ++ l :: post).map (·.flatMap utf8))
      = (none, ((pre ++ l :: post).flatMap (· ++ eol)).flatMap utf8) := by
    rw [(c57_buffer []).2.2.2]
    simp [List.flatMap_assoc, List.flatMap_map]
  have htake : (((pre ++ l :: post).flatMap (· ++ eol)).flatMap utf8).take (size (pre.flatMap (· ++ eol)) + j)
      = (pre.flatMap (· ++ eol)).flatMap utf8 ++ ((l ++ eol).flatMap utf8).take j := by
    unfold size
    rw [List.flatMap_append, List.flatMap_append, List.take_length_add_append, List.flatMap_cons, List.flatMap_append (xs := l ++ eol),
      List.take_append_of_le_length (by unfold size at hj; omega)]
  -- from runes to lines
  have main : ∀ (p : List Char) (e : Err) (out : List (List Char)), (e = .eoi ∨ e = .invalidUTF8) →
      (∀ e0, Yields (runeCall bytesReader) ⟨false, e0, ((l ++ eol).flatMap utf8).take j⟩ (p.map Char.toNat) e) →
      NoLFAfterLoneCR false (p.map Char.toNat) → splitLines (decide (e = .eoi)) (p.map Char.toNat) [] = out.map (·.map Char.toNat) →
      YieldsForever (It.next (readLinesCall (runeCall bytesReader)))
        (ofIter ⟨none, false, ⟨false, .eoi, (pre.flatMap (· ++ eol)).flatMap utf8 ++ ((l ++ eol).flatMap utf8).take j⟩⟩)
        ((pre ++ out).map (·.map Char.toNat)) e := by
    intro p e out he hy hn hs
    have h1 := yields_runes (pre.flatMap (· ++ eol)) _ _ _ hy .eoi
    have h2 := lines_tail eol heol (decide (e = .eoi)) pre hpre (p.map Char.toNat)
    have h3 := c30_lines_partial _ _ _ _ h1 (h2.1.mpr hn)
    rw [← List.map_append, map_writeRune_chars, List.map_append] at h3
    have e1 : decide (e = .eoi ∨ e = .eof) = decide (e = .eoi) := by rcases he with rfl | rfl <;> simp
    have e2 : (if e = .eof then Err.eoi else e) = e := by rcases he with rfl | rfl <;> simp
    rw [e1, e2, h2.2, hs, ← List.map_append] at h3
    exact h3
  have pfx : ∀ p q, l = p ++ q → ∀ c ∈ p.map Char.toNat, c ≠ 13 ∧ c ≠ 10 := by
    rintro p q rfl c hc
    exact hll c (by simp only [List.map_append, List.mem_append]; exact .inl hc)
  by_cases hjl : j ≤ size l
  · have ht : ((l ++ eol).flatMap utf8).take j = (l.flatMap utf8).take j := by
      rw [List.flatMap_append, List.take_append_of_le_length hjl]
    rcases cut_at l j hjl with ⟨p, q, h1, h2, h3⟩ | ⟨p, c, q, i, h1, h2, h3, h4, h5⟩
    · have hy : ∀ e0, Yields (runeCall bytesReader) ⟨false, e0, ((l ++ eol).flatMap utf8).take j⟩ (p.map Char.toNat) .eoi := by
        intro e0; rw [ht, h3]; exact yields_whole p e0
      have hp := plain_tail true _ (pfx p q h1)
      by_cases hp0 : p = []
      · subst hp0
        exact ⟨_, pre, l, post, j, [], .eoi, hw, rfl, rfl, hj, .nothing (by simpa [size] using h2),
          by rw [htake]; exact main [] .eoi [] (.inl rfl) hy hp.1 (by simp [hp.2, splitLines])⟩
      · have h0 : 0 < j := by
          obtain ⟨a, p', rfl⟩ := List.exists_cons_of_ne_nil hp0
          rw [h2, size_cons]; have := utf8_pos a; omega
        refine ⟨_, pre, l, post, j, [p], .eoi, hw, rfl, rfl, hj, .part p q h0 h1 (by omega), ?_⟩
        rw [htake]
        exact main p .eoi [p] (.inl rfl) hy hp.1 (by simp only [decide_true, hp.2]; simp [hp0])
    · refine ⟨_, pre, l, post, j, [], .invalidUTF8, hw, rfl, rfl, hj, .broken ?_, ?_⟩
      · intro p' q' h6
        rw [min_eq_left hjl, h4]
        exact size_inside (h1.symm.trans h6) h2 h3
      · have hp := plain_tail false _ (pfx p (c :: q) h1)
        rw [htake]
        refine main p .invalidUTF8 [] (.inr rfl) ?_ hp.1 (by simpa using hp.2)
        intro e0
        rw [ht, h5]
        exact yields_broken p c i h2 h3 e0
  · -- only CR is left of the line ending
    rw [size_append] at hj
    rcases heol with rfl | rfl
    · have : size ['\n'] = 1 := rfl
      omega
    · have h2 : size ['\r', '\n'] = 2 := rfl
      have hp := cr_tail true _ hll
      refine ⟨_, pre, l, post, j, [l], .eoi, hw, rfl, rfl, by rw [size_append]; omega, .part l [] (by omega) (by simp) (by omega), ?_⟩
      rw [htake]
      refine main (l ++ ['\r']) .eoi [l] (.inl rfl) ?_ ?_ ?_
      · intro e0
        have ht : ((l ++ ['\r', '\n']).flatMap utf8).take j = (l ++ ['\r']).flatMap utf8 := by
          rw [show j = size l + 1 by omega]
          unfold size
          rw [List.flatMap_append, List.take_length_add_append, List.flatMap_append]
          rfl
        rw [ht]; exact yields_whole _ e0
      · rw [List.map_append]; exact hp.1
      · rw [List.map_append]; simpa using hp.2

/-- C153, a destination that fails: what an ErrorWriter has taken when OfIOWriterAsLines reports the error is the text cut off there, so C153 applies. -/
theorem c153_failed_writer (eol : List Char) (heol : eol = ['\n'] ∨ eol = ['\r', '\n']) (lines : List (List Char))
    (hl : ∀ l ∈ lines, ∀ c ∈ l, c ≠ '\r' ∧ c ≠ '\n') (count : Nat) (err : Err)
    (h : (writeAll (lineWriter (eol.flatMap utf8) ErrorWriter.write) (newErrorWriter count (some err)) (lines.map (·.flatMap utf8))).1 ≠ none) :
    ∃ pre l post j out e, lines = pre ++ l :: post ∧ count = size (pre.flatMap (· ++ eol)) + j ∧ j < size (l ++ eol) ∧ LastPart l j out e ∧
      YieldsForever (It.next (readLinesCall (runeCall bytesReader)))
        (ofIter ⟨none, false, ⟨false, .eoi,
          (writeAll (lineWriter (eol.flatMap utf8) ErrorWriter.write) (newErrorWriter count (some err)) (lines.map (·.flatMap utf8))).2.output⟩⟩)
        ((pre ++ out).map (·.map Char.toNat)) e := by
  have hne : eol.flatMap utf8 ≠ [] := by rcases heol with rfl | rfl <;> decide
  obtain ⟨h1, h2⟩ := (c57_failing count err).2.2 (eol.flatMap utf8) (lines.map (·.flatMap utf8)) hne
  have e1 : (lines.map (·.flatMap utf8)).flatMap (· ++ eol.flatMap utf8) = (lines.flatMap (· ++ eol)).flatMap utf8 := by
    simp [List.flatMap_assoc, List.flatMap_map]
  rw [e1] at h1 h2
  have hk : count < size (lines.flatMap (· ++ eol)) := by
    unfold size
    by_contra hc
    exact h (h1.mpr (by omega))
  obtain ⟨bytes, pre, l, post, j, out, e, a1, a2, a3, a4, a5, a6⟩ := c153_lines eol heol lines hl count hk
  refine ⟨pre, l, post, j, out, e, a2, a3, a4, a5, ?_⟩
  rw [h2]
  rw [(c57_buffer []).2.2.2, List.nil_append, e1] at a1
  cases a1
  exact a6

/-- What is given is never a line that was not written, nor part of one that is not the last: the first lines of the text, the last of them perhaps cut
short. -/
theorem c153_prefix (eol : List Char) (heol : eol = ['\n'] ∨ eol = ['\r', '\n']) (lines : List (List Char))
    (hl : ∀ l ∈ lines, ∀ c ∈ l, c ≠ '\r' ∧ c ≠ '\n') (k : Nat) :
    ∃ (bytes : List Nat) (given : List (List Char)) (e : Err),
      writeAll (lineWriter (eol.flatMap utf8) bufferWriter) [] (lines.map (·.flatMap utf8)) = (none, bytes) ∧
      YieldsForever (It.next (readLinesCall (runeCall bytesReader)))
        (ofIter ⟨none, false, ⟨false, .eoi, bytes.take k⟩⟩) (given.map (·.map Char.toNat)) e ∧
      given.length ≤ lines.length ∧ (∀ i, i + 1 < given.length → given[i]? = lines[i]?) ∧
      (∀ p, given.getLast? = some p → ∃ l q, lines[given.length - 1]? = some l ∧ l = p ++ q) := by
  by_cases hk : k < size (lines.flatMap (· ++ eol))
  · obtain ⟨bytes, pre, l, post, j, out, e, a1, rfl, a3, a4, a5, a6⟩ := c153_lines eol heol lines hl k hk
    refine ⟨bytes, pre ++ out, e, a1, a6, ?_⟩
    have hout : out = [] ∨ ∃ p q, out = [p] ∧ l = p ++ q := by
      cases a5 with
      | nothing => exact .inl rfl
      | part p q _ h _ => exact .inr ⟨p, q, rfl, h⟩
      | broken => exact .inl rfl
    rcases hout with rfl | ⟨p, q, rfl, h⟩
    · refine ⟨by simp, fun i hi => ?_, fun p hp => ?_⟩
      · rw [List.append_nil] at *
        rw [List.getElem?_append_left (by omega)]
      · rw [List.append_nil] at *
        obtain ⟨pre', rfl⟩ := List.getLast?_eq_some_iff.mp hp
        exact ⟨p, [], by simp, by simp⟩
    · refine ⟨by simp, fun i hi => ?_, fun p' hp => ?_⟩
      · simp at hi
        rw [List.getElem?_append_left (by omega), List.getElem?_append_left (by omega)]
      · simp at hp
        subst hp
        exact ⟨l, q, by simp, h⟩
  · obtain ⟨bytes, h1, h2⟩ := c68_lines eol heol lines hl
    have h3 : bytes = (lines.flatMap (· ++ eol)).flatMap utf8 := by
      rw [(c57_buffer []).2.2.2, List.nil_append] at h1
      cases h1
      simp [List.flatMap_assoc, List.flatMap_map]
    refine ⟨bytes, lines, .eoi, h1, ?_, le_refl _, fun _ _ => rfl, fun p hp => ?_⟩
    · rw [List.take_of_length_le (by rw [h3]; unfold size at hk; omega)]; exact h2
    · obtain ⟨pre', rfl⟩ := List.getLast?_eq_some_iff.mp hp
      exact ⟨p, [], by simp, by simp⟩

/-- Non-vacuity: "ab", "é€" with CRLF, 10 bytes; cut after 3 (between CR and LF), 5 (inside é), 6 (after é). -/
example : size (["ab".toList, "é€".toList].flatMap (· ++ ['\r', '\n'])) = 11 ∧
    LastPart "ab".toList 3 ["ab".toList] .eoi ∧ LastPart "é€".toList 2 [['é']] .eoi := by
  refine ⟨by decide, .part _ [] (by decide) (by simp) (by decide), .part ['é'] ['€'] (by decide) (by rfl) (by decide)⟩

example (k : Nat) := c153_prefix ['\r', '\n'] (.inr rfl) ["ab".toList, "é€".toList] (by decide) k
example := c153_lines ['\r', '\n'] (.inr rfl) ["ab".toList, "é€".toList] (by decide) 5 (by decide)
example := c153_failed_writer ['\n'] (.inl rfl) ["ab".toList, "é€".toList] (by decide) 4 (.user 1) (by decide)

end Micro.IO
