import Verif.Iter.WrapLemmas
set_option linter.unusedSimpArgs false
/-
Properties of the remaining constructors of package iter: C107 (CSV), C108 (Maybe), C109 (strings as runes).
-/
namespace Micro.Iter
open Micro

/-! ### C107: CSV -/

/-- Reading a CSV iterator row by row, looking at each row when it is returned: `rows` are the rows, `e` the error at the end, repeated forever. -/
inductive ReadsRows (fc : Err) : It CsvState Funcs.Slc → List (List String) → Err → Prop where
  | stop {it e} : YieldsForever (It.next (csvCall fc)) it [] e → ReadsRows fc it [] e
  | row {it st it' s fields rows e} : It.next (csvCall fc) it = some (.ok s, it') → it'.fn = some st → st.rdr.mem.elems s = fields → 
      ReadsRows fc it' rows e → ReadsRows fc it (fields :: rows) e

/-- How a CSV document goes on after rows of w fields: it ends, a record is erroneous, or a record has another number of fields. -/
inductive CsvEnd (fc : Err) (w : Nat) : List (List String × Option Err) → Err → Prop where
  | eof : CsvEnd fc w [] .eoi
  | bad {fields e rest} : e ≠ .eof → CsvEnd fc w ((fields, some e) :: rest) e
  | ragged {fields rest} : fields.length ≠ w → fc ≠ .eof → CsvEnd fc w ((fields, none) :: rest) fc

theorem readsRows_end (fc : Err) (w : Nat) (hw : 0 < w) (tail : List (List String × Option Err)) (e : Err) (he : CsvEnd fc w tail e) (r : CsvReader)
    (hr : r.mem.Ok r.last) (hrows : r.rows = tail) (hp : r.perRecord = w ∨ ∀ f, tail.head? ≠ some (f, none)) (e0 : Err) :
    ReadsRows fc (ofIter ⟨false, e0, r⟩) [] e := by
  refine .stop (ofIter_forever ?_)
  cases he with
  | eof =>
    refine .stop (s' := ⟨true, .eoi, { r with last := ⟨0, 0, 0, 0⟩ }⟩) ?_
    simp [csvCall, CsvReader.read, hrows]
  | @bad fields e rest hne =>
    obtain ⟨s, m, h, -⟩ := read_spec fc r hr fields (some e) rest hrows
    refine .stop (s' := ⟨decide (e = .eoi), e, ⟨rest, if r.perRecord = 0 then fields.length else r.perRecord, m, s⟩⟩) ?_
    simp only [csvCall, Bool.false_eq_true, if_false, h]
    simp [hne]
  | @ragged fields rest hl hne =>
    rcases hp with hp | hp
    · obtain ⟨s, m, h, -⟩ := read_spec fc r hr fields none rest hrows
      refine .stop (s' := ⟨decide (fc = .eoi), fc, ⟨rest, if r.perRecord = 0 then fields.length else r.perRecord, m, s⟩⟩) ?_
      simp only [csvCall, Bool.false_eq_true, if_false, h]
      rw [if_pos ⟨by omega, by omega, trivial⟩]
      simp [hne]
    · exact absurd rfl (hp fields)

/-- C107. OfCSV gives the rows of the document in order, each complete when it is returned; the document ends with EOI, an erroneous record, or a record with
another number of fields than the first, with its error, and the error is repeated forever. -/
theorem c107_rows (fc : Err) (w : Nat) (hw : 0 < w) (rows : List (List String)) (hrows : ∀ f ∈ rows, f.length = w)
    (tail : List (List String × Option Err)) (e : Err) (he : CsvEnd fc w tail e) (hne : rows ≠ [] ∨ ∀ f, tail.head? ≠ some (f, none)) :
    ReadsRows fc (ofIter (csvInit false (.new (rows.map (·, none) ++ tail)))) rows e := by
  suffices h : ∀ (r : CsvReader), r.mem.Ok r.last → r.rows = rows.map (·, none) ++ tail → 
      (r.perRecord = w ∨ (r.perRecord = 0 ∧ (rows ≠ [] ∨ ∀ f, tail.head? ≠ some (f, none)))) → 
      ReadsRows fc (ofIter ⟨false, .eoi, r⟩) rows e by
    exact h _ ⟨by simp [CsvReader.new], by simp [CsvReader.new], by simp [CsvReader.new]⟩ rfl (.inr ⟨rfl, hne⟩)
  clear hne
  induction rows with
  | nil =>
    intro r hr hrows hp
    exact readsRows_end fc w hw tail e he r hr (by simpa using hrows) (by rcases hp with h | ⟨-, h | h⟩; exact .inl h; simp at h; exact .inr h) _
  | cons f rows ih =>
    intro r hr hrows' hp
    have hf := hrows f (by simp)
    obtain ⟨s, m, h, h1, h2, h3, h4, -⟩ := read_spec fc r hr f none (rows.map (·, none) ++ tail) (by simpa using hrows')
    rw [if_neg (by rcases hp with hp | hp <;> omega)] at h
    have hper : (if r.perRecord = 0 then f.length else r.perRecord) = w := by
      rcases hp with hp | ⟨hp, -⟩ <;> simp [hp, hf] <;> omega
    rw [hper] at h
    refine .row (s := s) (st := ⟨false, .eoi, ⟨rows.map (·, none) ++ tail, w, m, s⟩⟩) ?_ rfl h2
      (ih (fun f hf => hrows f (by simp [hf])) ⟨rows.map (·, none) ++ tail, w, m, s⟩ h1 rfl (.inl rfl))
    show It.next (csvCall fc) (ofIter ⟨false, .eoi, r⟩) = some (.ok s, ofIter ⟨false, .eoi, ⟨rows.map (·, none) ++ tail, w, m, s⟩⟩)
    rw [ofIter, next_source _ _ _ rfl rfl]
    simp [csvCall, h, ofIter]

/-- A nil reader has no rows. -/
theorem c107_nil (fc : Err) (rdr : CsvReader) : ReadsRows fc (ofIter (csvInit true rdr)) [] .eoi :=
  .stop (ofIter_forever (.stop (s' := csvInit true rdr) (by simp [csvCall, csvInit])))

/-- Non-vacuity: two rows, and then a shorter one. -/
example : ReadsRows (.user 7) (ofIter (csvInit false (.new [(["a", "b"], none), (["c", "d"], none), (["e"], none), (["f", "g"], none)])))
    [["a", "b"], ["c", "d"]] (.user 7) :=
  c107_rows (.user 7) 2 (by decide) [["a", "b"], ["c", "d"]] (by decide) [(["e"], none), (["f", "g"], none)] (.user 7) (.ragged (by decide) (by decide))
    (.inl (by decide))

/-- C107. All rows are the same slice: once the document has been read, every row collected on the way (with ReduceToSlice for instance) holds the fields of
the last one. -/
theorem c107_rows_shared (fc : Err) (w : Nat) (hw : 0 < w) (rows : List (List String)) (hrows : ∀ f ∈ rows, f.length = w) (last : List String)
    (hlast : rows.getLast? = some last) :
    ∃ s st, takeN (It.next (csvCall fc)) rows.length (ofIter (csvInit false (.new (rows.map (·, none))))) =
      some (List.replicate rows.length s, ⟨some st, [], none⟩) ∧ st.rdr.mem.elems s = last := by
  have step : ∀ (r : CsvReader) (f : List String) (rest : List (List String)), r.mem.Ok r.last → r.rows = (f :: rest).map (·, none) → f.length = w → 
      (r.perRecord = w ∨ r.perRecord = 0) → 
      ∃ s m, It.next (csvCall fc) (ofIter ⟨false, .eoi, r⟩) = some (.ok s, ofIter ⟨false, .eoi, ⟨rest.map (·, none), w, m, s⟩⟩) ∧ m.Ok s ∧ m.elems s = f ∧
        s.len = w ∧ (w ≤ r.last.cap → s = { r.last with len := w }) := by
    intro r f rest hr hrows hf hp
    obtain ⟨s, m, h, h1, h2, h3, h4, h5⟩ := read_spec fc r hr f none (rest.map (·, none)) (by simpa using hrows)
    rw [if_neg (by rcases hp with hp | hp <;> omega)] at h
    have hper : (if r.perRecord = 0 then f.length else r.perRecord) = w := by
      rcases hp with hp | hp <;> simp [hp, hf] <;> omega
    rw [hper] at h
    refine ⟨s, m, ?_, h1, h2, by omega, by rw [← hf]; exact h5⟩
    rw [ofIter, next_source _ _ _ rfl rfl]
    simp [csvCall, h, ofIter]
  have main : ∀ (rows : List (List String)) (s : Funcs.Slc) (m : Funcs.SMem String), (∀ f ∈ rows, f.length = w) → m.Ok s → s.len = w → 
      ∃ st, takeN (It.next (csvCall fc)) rows.length (ofIter ⟨false, .eoi, ⟨rows.map (·, none), w, m, s⟩⟩) =
        some (List.replicate rows.length s, ⟨some st, [], none⟩) ∧ st.rdr.mem.elems s = (rows.getLast?).getD (m.elems s) := by
    intro rows
    induction rows with
    | nil => intro s m _ _ _; exact ⟨_, rfl, rfl⟩
    | cons f rest ih =>
      intro s m hf hok hl
      obtain ⟨s', m', k1, k2, k3, k4, k5⟩ := step ⟨(f :: rest).map (·, none), w, m, s⟩ f rest hok rfl (hf f (by simp)) (.inl rfl)
      have hs' : s' = s := by
        have := k5 (by have := hok.len; simp only; omega)
        rw [this]; simp only; rw [← hl]
      subst hs'
      obtain ⟨st, j1, j2⟩ := ih s' m' (fun g hg => hf g (by simp [hg])) k2 k4
      refine ⟨st, ?_, ?_⟩
      · simp only [List.length_cons, takeN]
        rw [k1]
        simp only
        rw [j1]
        simp [List.replicate_succ]
      · rw [j2, k3]
        cases rest with
        | nil => rfl
        | cons g rest =>
          rw [List.getLast?_cons_cons]
          cases h : (g :: rest).getLast? with
          | none => simp at h
          | some x => rfl
  cases rows with
  | nil => simp at hlast
  | cons f rest =>
    obtain ⟨s, m, k1, k2, k3, k4, k5⟩ := step (.new ((f :: rest).map (·, none))) f rest ⟨by simp [CsvReader.new], by simp [CsvReader.new], by simp [CsvReader.new]⟩
      rfl (hrows f (by simp)) (.inr rfl)
    obtain ⟨st, j1, j2⟩ := main rest s m (fun g hg => hrows g (by simp [hg])) k2 k4
    refine ⟨s, st, ?_, ?_⟩
    · simp only [List.length_cons, takeN]
      rw [show csvInit false (CsvReader.new ((f :: rest).map (·, none))) = ⟨false, .eoi, .new ((f :: rest).map (·, none))⟩ from rfl, k1]
      simp only
      rw [j1]
      simp [List.replicate_succ]
    · rw [j2, k3]
      cases rest with
      | nil => simpa using hlast
      | cons g rest => rw [List.getLast?_cons_cons] at hlast; simp [hlast]

example := c107_rows_shared (.user 1) 2 (by decide) [["a", "b"], ["c", "d"]] (by simp) ["c", "d"] rfl

/-! ### C108: Maybe -/

/-- C108 for element types that are not interfaces (reflect knows their zero value as zero): Maybe gives what Next would give: the values as results, then the
error of the iterator, again and again. -/
theorem c108_maybe_partial {σ α : Type} (ref : α → Option Union.RV) (zv : α) (v : Union.RV) (hzv : ref zv = some v) (hz : v.isZero = true) (call : Call σ α)
    (it : It σ α) (xs : List α) (e : Err) (h : YieldsForever (It.next call) it xs e) :
    ∃ stt : Nat → It σ α, stt 0 = it ∧
      (∀ i (h : i < xs.length), ∃ r, maybeNext ref zv call (stt i) = some (r, stt (i + 1)) ∧ r.hasResult = true ∧ r.hasError = false ∧ r.get = xs[i]) ∧
      (∀ i, xs.length ≤ i → ∃ r, maybeNext ref zv call (stt i) = some (r, stt (i + 1)) ∧ r.hasResult = false ∧ r.hasError = true ∧ r.error = some e) := by
  obtain ⟨stt, h0, h1, h2⟩ := h
  refine ⟨stt, h0, ?_, ?_⟩
  · intro i hi
    exact ⟨⟨xs[i], none⟩, by simp [maybeNext, h1 i hi, Union.ofResultError], rfl, rfl, rfl⟩
  · intro i hi
    exact ⟨⟨zv, some e⟩, by simp [maybeNext, h2 i hi, Union.ofResultError, hzv, hz], rfl, rfl, rfl⟩

/-- Non-vacuity: an iterator of int. -/
example : YieldsForever (It.next (sliceCall [4, 0])) (ofIter 0) [4, 0] .eoi := c26_slice [4, 0]

/-- C108 is false for interface element types: the zero value is the nil interface, which reflect does not accept, so that Maybe panics at the end of every
iterator. -/
theorem c108_maybe_interface_refuted {σ α : Type} (ref : α → Option Union.RV) (zv : α) (hzv : ref zv = none) (call : Call σ α) (it : It σ α) (e : Err)
    (h : YieldsForever (It.next call) it [] e) : maybeNext ref zv call it = none := by
  obtain ⟨stt, rfl, -, h2⟩ := h
  simp [maybeNext, h2 0 (by simp), Union.ofResultError, hzv]

/-- Non-vacuity: the type any (nil or a number), and an empty iterator. -/
example : maybeNext (fun v : Option Nat => v.map fun n => ⟨.other, false, n == 0⟩) none (sliceCall []) (ofIter 0) = none :=
  c108_maybe_interface_refuted _ none rfl _ _ .eoi (c26_slice [])

/-! ### C109: strings as runes -/

/-- C109. For valid UTF-8 OfStringAsRunes and the rune reader (StringAsRunesIterGen, OfReaderAsRunes) give the same: the characters of the text. -/
theorem c109_valid (cs : List Char) :
    YieldsForever (It.next (ofStringAsRunesCall (cs.flatMap utf8))) (ofIter 0) (cs.map Char.toNat) .eoi ∧
    YieldsForever (It.next (runeCall bytesReader)) (ofIter (stringAsRunesInit (cs.flatMap utf8))) (cs.map Char.toNat) .eoi := by
  refine ⟨?_, c29_roundtrip cs⟩
  have := c26_slice (goRunes (cs.flatMap utf8))
  rw [goRunes_valid] at this
  unfold ofStringAsRunesCall
  rw [goRunes_valid]
  exact this

/-- C109. OfStringAsRunes always gives Unicode characters and ends with EOI, whatever the bytes of the string are. -/
theorem c109_total (bs : List Nat) :
    ∃ cs : List Char, YieldsForever (It.next (ofStringAsRunesCall bs)) (ofIter 0) (cs.map Char.toNat) .eoi := by
  suffices h : ∃ cs : List Char, goRunes bs = cs.map Char.toNat by
    obtain ⟨cs, h⟩ := h
    refine ⟨cs, ?_⟩
    unfold ofStringAsRunesCall
    rw [h]
    exact c26_slice _
  suffices h : ∀ n (bs : List Nat), bs.length ≤ n → ∃ cs : List Char, goRunes bs = cs.map Char.toNat from h _ bs (Nat.le_refl _)
  intro n
  induction n with
  | zero =>
    intro bs h
    have : bs = [] := List.length_eq_zero_iff.mp (by omega)
    subst this
    exact ⟨[], by simp [goRunes]⟩
  | succ n ih =>
    intro bs h
    cases bs with
    | nil => exact ⟨[], by simp [goRunes]⟩
    | cons b rest =>
      obtain ⟨cs, hcs⟩ := ih (rest.drop (decode1 b rest).2) (by simp at h ⊢; omega)
      rw [goRunes, hcs]
      rcases decode1_cases b rest with ⟨hd, -⟩ | ⟨c, tl, rest', e1, e2, e3⟩
      · exact ⟨Char.ofNat 0xFFFD :: cs, by rw [hd]; rfl⟩
      · exact ⟨c :: cs, by rw [e3]; rfl⟩

/-- C109. The two agree for valid UTF-8 only. -/
theorem c109_agree_iff (bs : List Nat) (hb : ∀ b ∈ bs, b < 256) :
    (∃ rs e, YieldsForever (It.next (ofStringAsRunesCall bs)) (ofIter 0) rs e ∧
      YieldsForever (It.next (runeCall bytesReader)) (ofIter (stringAsRunesInit bs)) rs e) ↔ ∃ cs : List Char, bs = cs.flatMap utf8 := by
  constructor
  · rintro ⟨rs, e, h1, h2⟩
    have k1 : YieldsForever (It.next (ofStringAsRunesCall bs)) (ofIter 0) (goRunes bs) .eoi := c26_slice _
    obtain ⟨rfl, rfl⟩ := Yields.unique (yields_of_forever h1) (yields_of_forever k1)
    obtain ⟨seqs, rs, rest, e, j1, j2, j3, j4⟩ := c29_decode_partial bs hb
    obtain ⟨e1, e2⟩ := Yields.unique (yields_of_forever h2) (yields_of_forever j3)
    subst e2
    rcases j4 with ⟨rfl, -⟩ | ⟨-, h, -⟩
    · rw [List.append_nil] at j1
      subst j1
      have main : ∀ (seqs : List (List Nat)) (rs : List Nat), List.Forall₂ GenUtf8 seqs rs → rs.length ≤ (goRunes seqs.flatten).length ∧
          ((goRunes seqs.flatten).length = rs.length → ∃ cs : List Char, seqs.flatten = cs.flatMap utf8) := by
        intro seqs rs h
        induction h with
        | nil => exact ⟨by simp, fun _ => ⟨[], by simp⟩⟩
        | @cons seq r seqs rs hg _ ih =>
          obtain ⟨ih1, ih2⟩ := ih
          rw [List.flatten_cons]
          rcases goRunes_gen hg seqs.flatten with ⟨c, h1, -, h2⟩ | ⟨-, h1, h2⟩
          · rw [h2]
            simp only [List.length_cons]
            refine ⟨by omega, fun h => ?_⟩
            obtain ⟨cs, hcs⟩ := ih2 (by omega)
            exact ⟨c :: cs, by rw [hcs, h1]; simp⟩
          · rw [h2]
            simp only [List.length_cons, List.length_append, List.length_replicate]
            exact ⟨by omega, fun h => by omega⟩
      exact (main seqs rs j2).2 (by rw [e1])
    · simp at h
  · rintro ⟨cs, rfl⟩
    exact ⟨_, _, (c109_valid cs).1, (c109_valid cs).2⟩

/-- Non-vacuity: a text with characters of one to four bytes. -/
example : YieldsForever (It.next (ofStringAsRunesCall [97, 195, 169, 226, 130, 172, 240, 159, 152, 128])) (ofIter 0) [97, 233, 8364, 128512] .eoi :=
  (c109_valid "aé€😀".toList).1

/-- C109 is false without valid UTF-8: OfStringAsRunes gives U+FFFD for a wrong byte and goes on, where the rune reader stops with an error; and for an
over-long form OfStringAsRunes gives two U+FFFD, where the rune reader gives NUL. -/
theorem c109_agree_refuted :
    (YieldsForever (It.next (ofStringAsRunesCall [0xFF, 97])) (ofIter 0) [0xFFFD, 97] .eoi ∧
      Yields (runeCall bytesReader) (stringAsRunesInit [0xFF, 97]) [] .invalidUTF8) ∧
    (YieldsForever (It.next (ofStringAsRunesCall [0xC0, 0x80])) (ofIter 0) [0xFFFD, 0xFFFD] .eoi ∧
      Yields (runeCall bytesReader) (stringAsRunesInit [0xC0, 0x80]) [0] .eoi) := by
  have e1 : goRunes [0xFF, 97] = [0xFFFD, 97] := by simp [goRunes, decode1]
  have e2 : goRunes [0xC0, 0x80] = [0xFFFD, 0xFFFD] := by simp [goRunes, decode1]
  refine ⟨⟨?_, .stop rfl⟩, ⟨?_, c29_rejects_invalid_refuted.1.1⟩⟩
  · unfold ofStringAsRunesCall; rw [e1]; exact c26_slice _
  · unfold ofStringAsRunesCall; rw [e2]; exact c26_slice _

end Micro.Iter
