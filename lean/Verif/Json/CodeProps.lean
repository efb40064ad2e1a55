import Verif.Json.CodeLemmas
import Verif.Json.Props
import Verif.Json.ValueProps
import Verif.Iter.Props
import Verif.Iter.ReaderProps
/-
C135: Parse and Iterate of a reader, from the bytes on.
-/
set_option linter.unusedSimpArgs false
namespace Micro.Json
open Micro Micro.Iter Micro.Stream

variable {ρ : Type}

theorem tokens_start (rd : Reader ρ) (src : ρ) (rs : List Nat) (kn : Prop) (fin : Err)
    (h : (kn ∧ Yields (runeCall rd) ⟨false, .eoi, src⟩ rs fin) ∨ (¬ kn ∧ ∃ s', takeN (runeCall rd) rs.length ⟨false, .eoi, src⟩ = some (rs, s'))) :
    TokAt (RunesLeft (runeCall rd) kn fin) (readerTokens false src) [] (rs.map ch) :=
  ⟨rfl, _, rs, rfl, ⟨[], rs, rfl, rfl, .inl ⟨_, rfl, h⟩⟩, rfl⟩

theorem yields_of_ofIter {σ α : Type} {call : Call σ α} {xs : List α} {e : Err} : ∀ {s : σ}, Yields (It.next call) (ofIter s) xs e →
    Yields call s xs e := by
  induction xs with
  | nil =>
    intro s h
    cases h with
    | stop h =>
      simp only [It.next, ofIter, List.getLast?_nil] at h
      cases hc : call s with
      | none => rw [hc] at h; cases h
      | some p =>
        obtain ⟨x, s'⟩ := p
        rw [hc] at h
        cases x with
        | ok x => cases h
        | error e' => cases h; exact .stop hc
  | cons x xs ih =>
    intro s h
    cases h with
    | value h hy =>
      simp only [It.next, ofIter, List.getLast?_nil] at h
      cases hc : call s with
      | none => rw [hc] at h; cases h
      | some p =>
        obtain ⟨y, s'⟩ := p
        rw [hc] at h
        cases y with
        | error e' => cases h
        | ok y => cases h; exact .value hc (ih hy)

theorem map_ch_toNat (cs : List Char) : (cs.map Char.toNat).map ch = cs := by
  rw [List.map_map]
  conv_rhs => rw [← List.map_id cs]
  apply List.map_congr_left
  intro c _
  rw [Function.comp, char_ext, ch_toNat, writeRune_char]
  rfl

theorem one_char {m : Mode} {c : Char} (h : 0x20 ≤ c.toNat ∧ c ≠ '"' ∧ c ≠ '\\') : StrBody m [c] [c] := .plain c [] [] h.1 h.2.1 h.2.2 .nil

/-! ### Parse -/

/-- C135, for every reader: if OfReaderAsRunes of it yields the runes `rs` and then the error `fin`, then Parse of the reader is what C60 says about
the text `rs` (in which runes that are no characters are U+FFFD); it returns, and does not panic. -/
theorem c135_parse (rd : Reader ρ) (src : ρ) (rs : List Nat) (fin : Err) (h : Yields (runeCall rd) ⟨false, .eoi, src⟩ rs fin) :
    ∃ r, parse fin (rs.map ch) = some r ∧ parseReader rd src = some (r.map Prod.fst) := by
  obtain ⟨r, hr⟩ := c60_terminates fin (rs.map ch)
  exact ⟨r, hr, gParseTokens_eq (runesOf_iter (runeCall rd) True fin (by simp)) _ _ (tokens_start rd src rs True fin (.inl ⟨trivial, h⟩)) r hr
    (.inl trivial)⟩

/-- C135: Parse of the UTF-8 encoding of a text accepts exactly the texts that begin with a document (of the parser's grammar, C60), and returns its
meaning. -/
theorem c135_text (cs : List Char) (v : JVal) :
    parseReader bytesReader (cs.flatMap utf8) = some (.ok v) ↔ ∃ pre rest, cs = pre ++ rest ∧ IsDoc code pre v := by
  obtain ⟨r, h1, h2⟩ := c135_parse bytesReader _ _ _ (yields_of_ofIter (yields_of_forever (c29_roundtrip cs)))
  rw [map_ch_toNat] at h1
  constructor
  · intro h
    rw [h2] at h
    cases r with
    | error e => cases h
    | ok p =>
      obtain ⟨v', rest⟩ := p
      cases h
      obtain ⟨pre, h3, h4⟩ := (c60_exact_partial _ _ _ _).mp h1
      exact ⟨pre, rest, h3, h4⟩
  · rintro ⟨pre, rest, rfl, h⟩
    rw [parse_complete _ h] at h1
    cases h1
    exact h2

/-- C135: every RFC 8259 document (object or array at the top, distinct keys) without \u0022, encoded in UTF-8, is parsed to its meaning, whatever
follows it. -/
theorem c135_rfc (pre rest : List Char) (v : JVal) (h : IsDoc common pre v) :
    parseReader bytesReader ((pre ++ rest).flatMap utf8) = some (.ok v) :=
  (c135_text _ _).mpr ⟨pre, rest, rfl, isDoc_mono common_le_code h⟩

example : parseReader bytesReader [0x5B, 0x22, 0xE2, 0x82, 0xAC, 0x22, 0x5D] = some (.ok (.arr [.str ['€']])) := by
  refine c135_rfc ['[', '"', '€', '"', ']'] [] _ ⟨[], _, by intro c hc; simp at hc, .arr _ _ (.last [] ['"', '€', '"'] [] _ (by intro c hc; simp at hc)
    (.str _ _ ⟨['€'], ['"'], ?_, .inl rfl, rfl⟩) (by intro c hc; simp at hc)) (by decide), .inr rfl, rfl⟩
  exact one_char (by decide)

/-- C135: what Write writes for a value without characters that need an escape, encoded in UTF-8, is parsed back to that value. -/
theorem c135_roundtrip (v : JVal) (hd : v.isDocument = true) (h : Clean code v) :
    parseReader bytesReader ((written v).flatMap utf8) = some (.ok v) := by
  obtain ⟨r, h1, h2⟩ := c135_parse bytesReader _ _ _ (yields_of_ofIter (yields_of_forever (c29_roundtrip (written v))))
  have h3 := c59_roundtrip_partial .eoi v hd h []
  rw [List.append_nil] at h3
  rw [map_ch_toNat, h3] at h1
  cases h1
  exact h2

/-- C135: Parse returns, and does not panic, whatever the bytes are; and it never returns EOI. -/
theorem c135_total (bs : List Nat) (hb : ∀ b ∈ bs, b < 256) : ∃ r, parseReader bytesReader bs = some r ∧ r ≠ .error .eoi := by
  obtain ⟨seqs, rs, rest, e, -, -, h3, -⟩ := c29_decode_partial bs hb
  obtain ⟨r, h4, h5⟩ := c135_parse bytesReader _ _ _ (yields_of_ofIter (yields_of_forever h3))
  refine ⟨_, h5, ?_⟩
  cases r with
  | ok p => intro h; cases h
  | error e' =>
    intro h
    cases h
    exact parse_noEoi _ _ h4

/-- C135: what is accepted of arbitrary bytes: they begin with generalised UTF-8 sequences (C29) of a text that is a document. Partial: the bytes
should have to be UTF-8; surrogates and over-long sequences are accepted (c135_invalid_refuted). -/
theorem c135_bytes_partial (bs : List Nat) (hb : ∀ b ∈ bs, b < 256) (v : JVal) :
    parseReader bytesReader bs = some (.ok v) ↔
      ∃ (seqs : List (List Nat)) (rs : List Nat) (rest : List Nat), bs = seqs.flatten ++ rest ∧ List.Forall₂ GenUtf8 seqs rs ∧
        IsDoc code (rs.map ch) v := by
  constructor
  · intro h
    obtain ⟨seqs, rs, rest, e, h1, h2, h3, -⟩ := c29_decode_partial bs hb
    obtain ⟨r, h4, h5⟩ := c135_parse bytesReader _ _ _ (yields_of_ofIter (yields_of_forever h3))
    rw [h] at h5
    cases r with
    | error e => cases h5
    | ok p =>
      obtain ⟨v', t⟩ := p
      cases h5
      obtain ⟨pre, h6, h7⟩ := (c60_exact_partial _ _ _ _).mp h4
      refine ⟨seqs.take pre.length, rs.take pre.length, (seqs.drop pre.length).flatten ++ rest, ?_, ?_, ?_⟩
      · rw [← List.append_assoc, ← List.flatten_append, List.take_append_drop, h1]
      · exact List.forall₂_take _ h2
      · rw [List.map_take, h6, List.take_left]; exact h7
  · rintro ⟨seqs, rs, rest, rfl, h2, h3⟩
    have ht : ∀ (seqs : List (List Nat)) (rs : List Nat), List.Forall₂ GenUtf8 seqs rs → ∀ e0,
        ∃ s', takeN (runeCall bytesReader) rs.length ⟨false, e0, seqs.flatten ++ rest⟩ = some (rs, s') := by
      intro seqs rs h
      induction h with
      | nil => intro e0; exact ⟨_, rfl⟩
      | @cons seq r seqs rs h1 _ ih =>
        intro e0
        obtain ⟨e1, h4⟩ := rune_step seq (seqs.flatten ++ rest) r e0 h1
        obtain ⟨s', h5⟩ := ih e1
        refine ⟨s', ?_⟩
        rw [List.length_cons, takeN, List.flatten_cons, List.append_assoc, h4]
        simp only []
        rw [h5]; rfl
    have hp := parse_complete (.user 0) h3 []
    rw [List.append_nil] at hp
    exact gParseTokens_eq (runesOf_iter (runeCall bytesReader) False (.user 0) (by simp)) _ _
      (tokens_start bytesReader _ rs False (.user 0) (.inr ⟨id, ht seqs rs h2 .eoi⟩)) _ hp (.inr (by simp))

/-- C135: Parse reads no further than the end of the document: once the reader has delivered it, Parse returns, whatever the reader does next (it may
fail, deliver something else, or block). -/
theorem c135_prefix (rd : Reader ρ) (src : ρ) (rs : List Nat) (v : JVal) (s' : RuneState ρ)
    (h : takeN (runeCall rd) rs.length ⟨false, .eoi, src⟩ = some (rs, s')) (hd : IsDoc code (rs.map ch) v) :
    parseReader rd src = some (.ok v) := by
  have hp := parse_complete (.user 0) hd []
  rw [List.append_nil] at hp
  exact gParseTokens_eq (runesOf_iter (runeCall rd) False (.user 0) (by simp)) _ _
    (tokens_start rd _ rs False (.user 0) (.inr ⟨id, s', h⟩)) _ hp (.inr (by simp))

/-- A reader that delivers [] and then spaces for ever. -/
example : parseReader (fun (n : Nat) _ => ([if n = 0 then 0x5B else if n = 1 then 0x5D else 0x20], none, n + 1)) 0 = some (.ok (.arr [])) :=
  c135_prefix _ 0 [0x5B, 0x5D] _ ⟨false, .eoi, 2⟩ rfl
    ⟨[], ['[', ']'], by intro c hc; simp at hc, .arr0 [] (by intro c hc; simp at hc), .inr rfl, rfl⟩

/-- C135: a nil reader is an empty document. -/
theorem c135_nil (rd : Reader ρ) (src : ρ) : parseNil rd src = some (.error eEmptyDocument) := rfl

/-- C135: MustParse returns exactly the values that Parse returns, and panics exactly if Parse returns an error (for bytes, for which Parse returns). -/
theorem c135_must (bs : List Nat) (hb : ∀ b ∈ bs, b < 256) :
    (∀ v, mustParseReader bytesReader bs = some v ↔ parseReader bytesReader bs = some (.ok v)) ∧
    (mustParseReader bytesReader bs = none ↔ ∃ e, parseReader bytesReader bs = some (.error e)) := by
  obtain ⟨r, h, -⟩ := c135_total bs hb
  unfold mustParseReader
  rw [h]
  cases r with
  | ok v => simp
  | error e => simp

/-- C135 needs a reader that ends: of white space without an end, Parse does not return. -/
theorem c135_endless : parseReader (fun (_ : Unit) _ => ([0x20], none, ())) () = none := by
  have key : ∀ (i : It (RuneState Unit) Nat), (∀ b ∈ i.buffer, b = 0x20) → (∃ e, i.fn = some ⟨false, e, ()⟩) →
      gSkip (It.next (runeCall fun (_ : Unit) _ => ([0x20], none, ()))) It.unread i = none := by
    intro i h1 h2
    cases hx : gSkip (It.next (runeCall fun (_ : Unit) _ => ([0x20], none, ()))) It.unread i with
    | none => rfl
    | some r =>
      exfalso
      revert h1 h2
      refine gSkip.partial_correctness (It.next (runeCall fun (_ : Unit) _ => ([0x20], none, ()))) It.unread
        (fun i _ => (∀ b ∈ i.buffer, b = 0x20) → (∃ e, i.fn = some ⟨false, e, ()⟩) → False) ?_ i r hx
      intro g ih i r hg h1 h2
      obtain ⟨e, h2⟩ := h2
      unfold It.next at hg
      cases hb : i.buffer.getLast? with
      | some v =>
        have hv := h1 v (List.mem_of_getLast? hb)
        subst hv
        rw [hb] at hg
        simp only [true_or, if_true] at hg
        exact ih _ _ hg (fun b hb' => h1 b (List.dropLast_subset _ hb')) ⟨e, h2⟩
      | none =>
        rw [hb, h2] at hg
        simp [runeCall] at hg
        exact ih _ _ hg h1 ⟨.eoi, rfl⟩
  have : gLex (It.next (runeCall fun (_ : Unit) _ => ([0x20], none, ()))) It.unread (ofIter ⟨false, .eoi, ()⟩) = none := by
    simp only [gLex, It.next, ofIter, List.getLast?_nil, runeCall]
    exact key _ (by simp [It.unread]) ⟨.eoi, rfl⟩
  have h2 : It.next (readerLex fun (_ : Unit) _ => ([0x20], none, ())) (readerTokens false ()) = none := by
    rw [It.next, readerTokens]
    simp only [ofIter, List.getLast?_nil]
    rw [readerLex]
    rw [ofIter] at this
    rw [this]
  unfold parseReader gParseTokens
  rw [h2]

/-- C135 is false of readers that may return fewer bytes than asked for, or the last bytes together with EOF, as io.Reader permits: ["€"] is then
refused, and so is []. -/
theorem c135_readers_refuted :
    parseReader bytesReader ("[\"€\"]".toList.flatMap utf8) = some (.ok (.arr [.str ['€']])) ∧
    parseReader oneByteReader ("[\"€\"]".toList.flatMap utf8) = some (.error .invalidUTF8) ∧
    parseReader bytesReader ("[]".toList.flatMap utf8) = some (.ok (.arr [])) ∧
    parseReader dataErrReader ("[]".toList.flatMap utf8) = some (.error eArrValueOrBracket) := by
  have hc : IsDoc common ['[', '"', '€', '"', ']'] (.arr [.str ['€']]) :=
    ⟨[], _, by intro c hc; simp at hc, .arr _ _ (.last [] ['"', '€', '"'] [] _ (by intro c hc; simp at hc)
      (.str _ _ ⟨['€'], ['"'], one_char (by decide), .inl rfl, rfl⟩) (by intro c hc; simp at hc)) (by decide), .inr rfl, rfl⟩
  refine ⟨c135_rfc _ [] _ hc, ?_, c135_rfc ['[', ']'] [] _ ⟨[], _, by intro c hc; simp at hc, .arr0 [] (by intro c hc; simp at hc), .inr rfl, rfl⟩, ?_⟩
  · obtain ⟨r, h1, h2⟩ := c135_parse oneByteReader ("[\"€\"]".toList.flatMap utf8) [0x5B, 0x22] .invalidUTF8
      (.value rfl (.value rfl (.stop rfl)))
    rw [show List.map ch [0x5B, 0x22] = ['[', '"'] by decide, c71_reader_error .invalidUTF8 (by simp) ['[', '"'] ['€', '"', ']'] _ hc (by simp)] at h1
    cases h1
    exact h2
  · obtain ⟨r, h1, h2⟩ := c135_parse dataErrReader ("[]".toList.flatMap utf8) [0x5B] .eoi (.value rfl (.stop rfl))
    rw [show List.map ch [0x5B] = ['['] by decide] at h1
    have h3 : parse .eoi ['['] = some (.error eArrValueOrBracket) := by
      have : lex .eoi ['['] = .ok (.oBracket, []) := by decide
      unfold parse
      rw [this]
      simp only [or_true, if_true]
      rw [parseValue, parseArrFirst]
      rfl
    rw [h3] at h1
    cases h1
    exact h2

/-- C135 is false of invalid input: bytes that are not UTF-8 are accepted. -/
theorem c135_invalid_refuted : parseReader bytesReader [0x5B, 0x22, 0xED, 0xA0, 0x80, 0x22, 0x5D] = some (.ok (.arr [.str ['\uFFFD']])) ∧
    ∀ cs : List Char, cs.flatMap utf8 ≠ [0x5B, 0x22, 0xED, 0xA0, 0x80, 0x22, 0x5D] := by
  constructor
  · refine c135_prefix bytesReader _ [0x5B, 0x22, 0xD800, 0x22, 0x5D] _ ⟨false, .eoi, []⟩ rfl ?_
    rw [show List.map ch [0x5B, 0x22, 0xD800, 0x22, 0x5D] = ['[', '"', '\uFFFD', '"', ']'] by decide]
    exact ⟨[], _, by intro c hc; simp at hc, .arr _ _ (.last [] ['"', '\uFFFD', '"'] [] _ (by intro c hc; simp at hc)
      (.str _ _ ⟨['\uFFFD'], ['"'], one_char (by decide), .inl rfl, rfl⟩) (by intro c hc; simp at hc)) (by decide), .inr rfl, rfl⟩
  · intro cs hcs
    have h1 := yields_of_ofIter (yields_of_forever (c29_roundtrip cs))
    rw [hcs] at h1
    have h2 : Yields (runeCall bytesReader) ⟨false, .eoi, [0x5B, 0x22, 0xED, 0xA0, 0x80, 0x22, 0x5D]⟩ [0x5B, 0x22, 0xD800, 0x22, 0x5D] .eoi :=
      .value rfl (.value rfl (.value rfl (.value rfl (.value rfl (.stop rfl)))))
    have h3 := (h1.unique h2).1
    have h4 : (0xD800 : Nat) ∈ cs.map Char.toNat := by rw [h3]; decide
    rw [List.mem_map] at h4
    obtain ⟨c, -, hc⟩ := h4
    have := writeRune_char c
    rw [hc] at this
    exact absurd this (by decide)

/-! ### Iterate -/

/-- C135: Iterate of a reader, for every reader of finitely many runes: an iterator; the elements of the array and EOI, if Parse returns an array; the
object and EOI, if Parse returns an object; some elements and the error of Parse, if Parse returns an error. -/
theorem c135_iterate (rd : Reader ρ) (src : ρ) (rs : List Nat) (fin : Err) (h : Yields (runeCall rd) ⟨false, .eoi, src⟩ rs fin) :
    ∃ it, iterateReader rd src = some it ∧
      (∀ vs, parseReader rd src = some (.ok (.arr vs)) → it.YieldsForever vs .eoi) ∧
      (∀ kvs, parseReader rd src = some (.ok (.obj kvs)) → it.YieldsForever [.obj kvs] .eoi) ∧
      (∀ e, parseReader rd src = some (.error e) → e ≠ .eoi ∧ ∃ vs, it.YieldsForever vs e) := by
  obtain ⟨r, hr, hp⟩ := c135_parse rd src rs fin h
  rw [hp]
  have hne : ∀ e, r = .error e → e ≠ .eoi := by rintro e rfl rfl; exact parse_noEoi _ _ hr
  have H := runesOf_iter (runeCall rd) True fin (by simp)
  have hit := tokens_start rd src rs True fin (.inl ⟨trivial, h⟩)
  generalize hT : rs.map ch = t at hr hit
  unfold iterateReader gIterateTokens readerLex
  have err : ∀ e, r = .error e → ∃ it : AnyIter JVal, some (anyError e) = some it ∧
      (∀ vs, some (r.map Prod.fst) = some (.ok (.arr vs)) → it.YieldsForever vs .eoi) ∧
      (∀ kvs, some (r.map Prod.fst) = some (.ok (.obj kvs)) → it.YieldsForever [.obj kvs] .eoi) ∧
      (∀ e, some (r.map Prod.fst) = some (.error e) → e ≠ .eoi ∧ ∃ vs, it.YieldsForever vs e) := by
    rintro e rfl
    refine ⟨_, rfl, ?_, ?_, ?_⟩
    · intro vs hx; cases hx
    · intro vs hx; cases hx
    · intro e' hx; cases hx; exact ⟨hne _ rfl, [], anyError_forever _⟩
  cases hl : lex fin t with
  | error e =>
    obtain ⟨it2, h3⟩ := next_err H (.inl trivial) hit hl
    rw [h3]
    simp only [parse, hl] at hr
    cases hr
    exact err _ rfl
  | ok p =>
    obtain ⟨tok, t1⟩ := p
    obtain ⟨it2, h3, h4⟩ := next_ok H hit hl
    rw [h3]
    simp only [parse, hl] at hr
    by_cases h1 : tok = .oBrace
    · subst h1
      simp only [true_or, if_true] at hr ⊢
      rw [parseValue] at hr
      obtain ⟨it3, h5, h6⟩ := next_tok (gLex (It.next (runeCall rd)) It.unread) (tokAt_unread h4 .oBrace)
      have h7 := (refine_all H).2.2.2 _ _ _ hr ((noEoi_all fin).2.2.2 _ _ _ hr) _ h6
      rw [h5]
      simp only []
      cases r with
      | error e =>
        obtain ⟨it4, h8⟩ := h7 (.inl trivial)
        rw [h8]
        exact err _ rfl
      | ok q =>
        obtain ⟨v, t2⟩ := q
        obtain ⟨it4, h8, -⟩ := h7
        rw [h8]
        refine ⟨_, rfl, ?_, ?_, ?_⟩
        · intro vs hx
          cases hx
          obtain ⟨r', hr', hok⟩ := soundObject fin [] t1
          rw [hr] at hr'
          cases hr'
          obtain ⟨-, pre, kvs, -, -, hv, -⟩ := hok _ _ rfl
          cases hv
        · intro kvs hx; cases hx; exact c26_one _
        · intro e hx; cases hx
    · simp only []
      rw [if_neg h1]
      by_cases h2 : tok = .oBracket
      · subst h2
        simp only [or_true, if_true] at hr ⊢
        rw [parseValue] at hr
        have hi := iterFirst fin t1 r hr
        have hy : ∀ vs e, Yields (arrayCall fin) (true, t1) vs e →
            Yields (gArray (gLex (It.next (runeCall rd)) It.unread)) (true, it2.unread .oBracket) vs e :=
          fun vs e hx => gArray_yields H hx (.inl trivial) _ (tokAt_unread h4 .oBracket)
        refine ⟨_, rfl, ?_, ?_, ?_⟩
        · intro vs hx
          cases r with
          | error e => cases hx
          | ok q =>
            obtain ⟨v, t2⟩ := q
            cases hx
            obtain ⟨us, hu, hz⟩ := hi
            cases hu
            exact ofIter_forever (hy _ _ hz)
        · intro kvs hx
          cases r with
          | error e => cases hx
          | ok q =>
            obtain ⟨v, t2⟩ := q
            cases hx
            obtain ⟨us, hu, hz⟩ := hi
            cases hu
        · intro e hx
          cases r with
          | ok q => cases hx
          | error e =>
            cases hx
            obtain ⟨he, us, hz⟩ := hi
            exact ⟨he, us, ofIter_forever (hy _ _ hz)⟩
      · rw [if_neg h2]
        rw [if_neg (by rintro (h | h); exact h1 h; exact h2 h)] at hr
        cases hr
        exact err _ rfl

/-- C135: the elements of an array in RFC 8259 notation, encoded in UTF-8, are yielded in order, whatever follows the document. -/
theorem c135_iterate_text (pre rest : List Char) (vs : List JVal) (h : IsDoc common pre (.arr vs)) :
    ∃ it, iterateReader bytesReader ((pre ++ rest).flatMap utf8) = some it ∧ it.YieldsForever vs .eoi := by
  obtain ⟨it, h1, h2, -, -⟩ := c135_iterate bytesReader _ _ _ (yields_of_ofIter (yields_of_forever (c29_roundtrip (pre ++ rest))))
  exact ⟨it, h1, h2 vs (c135_rfc pre rest _ h)⟩

theorem takeN_ofIter {σ α : Type} (call : Call σ α) (n : Nat) : ∀ (s s' : σ) (vs : List α), takeN call n s = some (vs, s') →
    takeN (It.next call) n (ofIter s) = some (vs, ofIter s') := by
  induction n with
  | zero => intro s s' vs h; cases h; rfl
  | succ n ih =>
    intro s s' vs h
    simp only [takeN] at h ⊢
    cases hc : call s with
    | none => rw [hc] at h; cases h
    | some p =>
      obtain ⟨x, s1⟩ := p
      rw [hc] at h
      cases x with
      | error e => cases h
      | ok x =>
        simp only at h
        cases ht : takeN call n s1 with
        | none => rw [ht] at h; cases h
        | some q =>
          obtain ⟨ws, s2⟩ := q
          rw [ht] at h
          cases h
          have : It.next call (ofIter s) = some (.ok x, ofIter s1) := by
            simp only [It.next, ofIter, List.getLast?_nil, hc]
          rw [this]
          simp only []
          rw [ih _ _ _ ht]
          rfl

/-- An element of an array, in RFC 8259 notation, with the white space around it and the comma after it. -/
structure Item where
  before : List Char
  text : List Char
  after : List Char
  value : JVal
  hBefore : Ws before
  hText : IsVal common text value
  hAfter : Ws after

/-- The text of an element, with the comma after it. -/
def Item.chars (i : Item) : List Char := i.before ++ i.text ++ i.after ++ [',']

/-- An element is read by parseValue. -/
theorem item_reads (fin : Err) (i : Item) (w rest : List Char) (hw : Ws w) :
    ∃ tok t1, lex fin (w ++ i.before ++ i.text ++ (i.after ++ ',' :: rest)) = .ok (tok, t1) ∧
      parseValue fin tok t1 = some (.ok (i.value, i.after ++ ',' :: rest)) ∧ tok ≠ .cBracket := by
  obtain ⟨tok, s1, t1, h1, h2, h3⟩ := (complete_all fin i.text.length).1 i.text i.value (i.after ++ ',' :: rest) (Nat.le_refl _)
    ((mono_all common_le_code i.text.length).1 _ _ (Nat.le_refl _) i.hText) (.inr (.inr (delim_ws i.hAfter (.inr (.inl rfl)) rest)))
  refine ⟨tok, t1, lex_of (w := w ++ i.before) (by
    intro c hc
    rw [List.mem_append] at hc
    rcases hc with hc | hc
    · exact hw c hc
    · exact i.hBefore c hc) h2 (by rw [List.append_assoc, List.append_assoc, List.append_assoc, List.append_assoc, h1]), h3, ?_⟩
  rintro rfl
  rw [parseValue.eq_def] at h3
  have h4 : i.value = .invalid := by
    simp only [Option.some.injEq, Except.ok.injEq, Prod.mk.injEq] at h3
    exact h3.1.symm
  have h5 := i.hText
  rw [h4] at h5
  generalize i.text = s at h5
  cases h5 with
  | junk s h => exact absurd h (by decide)

theorem items_rest (fin : Err) (items : List Item) : ∀ (w rest : List Char), Ws w →
    ∃ st, takeN (arrayCall fin) items.length (false, w ++ ',' :: ((items.map Item.chars).flatten ++ rest)) = some (items.map Item.value, st) := by
  induction items with
  | nil => intro w rest _; exact ⟨_, rfl⟩
  | cons i items ih =>
    intro w rest hw
    obtain ⟨tok, t1, h1, h2, -⟩ := item_reads fin i [] ((items.map Item.chars).flatten ++ rest) (by intro c hc; cases hc)
    obtain ⟨st, h3⟩ := ih i.after rest i.hAfter
    refine ⟨st, ?_⟩
    have hl : lex fin (w ++ ',' :: (((i :: items).map Item.chars).flatten ++ rest)) =
        .ok (.comma, ((i :: items).map Item.chars).flatten ++ rest) :=
      lex_of hw .comma (by simp)
    have ht : ((i :: items).map Item.chars).flatten ++ rest =
        [] ++ i.before ++ i.text ++ (i.after ++ ',' :: ((items.map Item.chars).flatten ++ rest)) := by
      simp [Item.chars]
    have hc : arrayCall fin (false, w ++ ',' :: (((i :: items).map Item.chars).flatten ++ rest)) =
        some (.ok i.value, (false, i.after ++ ',' :: ((items.map Item.chars).flatten ++ rest))) := by
      unfold arrayCall
      simp only [Bool.false_eq_true, if_false, hl]
      rw [ht, h1]
      simp only [h2]
    rw [List.length_cons, takeN, hc]
    simp only []
    rw [h3]
    rfl

/-- C135: Iterate yields the elements of an array as they arrive: once the reader has delivered the opening bracket and some elements with the comma
after each, these elements are yielded, whatever the reader does next (it may fail, block, or go on for ever). -/
theorem c135_stream (rd : Reader ρ) (src : ρ) (rs : List Nat) (s' : RuneState ρ) (w : List Char) (hw : Ws w) (items : List Item)
    (hd : takeN (runeCall rd) rs.length ⟨false, .eoi, src⟩ = some (rs, s'))
    (ht : rs.map ch = w ++ '[' :: (items.map Item.chars).flatten) :
    ∃ it st, iterateReader rd src = some it ∧ takeN it.call items.length it.s = some (items.map Item.value, st) := by
  have H := runesOf_iter (runeCall rd) False (.user 0) (by simp)
  have hit := tokens_start rd src rs False (.user 0) (.inr ⟨id, s', hd⟩)
  rw [ht] at hit
  have hl : lex (.user 0) (w ++ '[' :: (items.map Item.chars).flatten) = .ok (.oBracket, (items.map Item.chars).flatten) :=
    lex_of hw .oBracket (by simp)
  obtain ⟨it2, h3, h4⟩ := next_ok H hit hl
  unfold iterateReader gIterateTokens readerLex
  rw [h3]
  simp only [reduceCtorEq, if_false, if_true]
  have key : ∃ st, takeN (arrayCall (.user 0)) items.length (true, (items.map Item.chars).flatten) = some (items.map Item.value, st) := by
    cases items with
    | nil => exact ⟨_, rfl⟩
    | cons i items =>
      obtain ⟨tok, t1, h1, h2, h5⟩ := item_reads (.user 0) i [] ((items.map Item.chars).flatten) (by intro c hc; cases hc)
      obtain ⟨st, h6⟩ := items_rest (.user 0) items i.after [] i.hAfter
      refine ⟨st, ?_⟩
      have ht : ((i :: items).map Item.chars).flatten = [] ++ i.before ++ i.text ++ (i.after ++ ',' :: (items.map Item.chars).flatten) := by
        simp [Item.chars]
      have hc : arrayCall (.user 0) (true, ((i :: items).map Item.chars).flatten) =
          some (.ok i.value, (false, i.after ++ ',' :: (items.map Item.chars).flatten)) := by
        unfold arrayCall
        simp only [if_true]
        rw [ht, h1]
        simp only [h2]
        rw [if_neg h5]
      rw [List.length_cons, takeN, hc]
      simp only []
      rw [List.append_nil] at h6
      rw [h6]
      rfl
  obtain ⟨st, hst⟩ := key
  obtain ⟨s'', hs⟩ := gArray_takes H items.length hst (it2.unread .oBracket) (tokAt_unread h4 .oBracket)
  exact ⟨_, _, rfl, takeN_ofIter _ _ _ _ _ hs⟩

/-- A reader of the array [1,1,1,… without an end: any number of elements is yielded. -/
example (n : Nat) : ∃ it st, iterateReader (fun (k : Nat) _ => ([if k = 0 then 0x5B else if k % 2 = 1 then 0x31 else 0x2C], none, k + 1)) 0 = some it ∧
    takeN it.call n it.s = some (List.replicate n (.num ['1']), st) := by
  have hone : IsVal common ['1'] (.num ['1']) :=
    .num _ ⟨false, ['1'], [], [], ⟨by simp, by intro c hc; simp at hc; subst hc; decide, by simp⟩, .inl rfl, .inl rfl, rfl⟩
  let item : Item := ⟨[], ['1'], [], .num ['1'], by intro c hc; simp at hc, hone, by intro c hc; simp at hc⟩
  have htake : ∀ m k, k % 2 = 1 → ∃ s', takeN (runeCall fun (k : Nat) _ => ([if k = 0 then 0x5B else if k % 2 = 1 then 0x31 else 0x2C], none, k + 1))
      ((List.replicate m [0x31, 0x2C]).flatten.length) ⟨false, .eoi, k⟩ = some ((List.replicate m [0x31, 0x2C]).flatten, s') := by
    intro m
    induction m with
    | zero => intro k _; exact ⟨_, rfl⟩
    | succ m ih =>
      intro k hk
      obtain ⟨s', h⟩ := ih (k + 2) (by omega)
      refine ⟨s', ?_⟩
      have h0 : k ≠ 0 := by omega
      have h1 : (k + 1) % 2 ≠ 1 := by omega
      rw [List.replicate_succ, List.flatten_cons, List.length_append, Nat.add_comm]
      simp only [List.length_cons, List.length_nil, takeN, runeCall]
      simp only [h0, hk, h1, if_true, if_false, List.length_cons, List.length_nil, reduceCtorEq, ne_eq, not_true_eq_false, or_self,
        List.headD_cons, Nat.reduceLT, Nat.reduceAdd, Nat.succ_ne_self, Nat.add_eq_zero_iff, Bool.false_eq_true, one_ne_zero, and_false]
      rw [h]
      rfl
  obtain ⟨s', h⟩ := htake n 1 rfl
  have := c135_stream (fun (k : Nat) _ => ([if k = 0 then 0x5B else if k % 2 = 1 then 0x31 else 0x2C], none, k + 1)) 0
    (0x5B :: (List.replicate n [0x31, 0x2C]).flatten) s' [] (by intro c hc; simp at hc) (List.replicate n item)
    (by rw [List.length_cons, takeN, show runeCall _ _ = some (.ok 0x5B, ⟨false, .eoi, 1⟩) from rfl]; simp only []; rw [h]; rfl)
    (by rw [List.map_cons, List.map_flatten, List.map_replicate, List.map_replicate, show List.map ch [0x31, 0x2C] = item.chars from by rw [show List.map ch [0x31, 0x2C] = ['1', ','] by decide]; rfl]; rfl)
  simpa [item] using this

end Micro.Json
