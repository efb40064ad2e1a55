import Verif.IO.Spec
import Verif.Iter.Props
set_option linter.unusedSimpArgs false
/-
C55-C58, C68: ErrorReader, ErrorWriter, writers and their inverses.
-/
namespace Micro.IO
open Micro Micro.Iter

/-! ### C55: ErrorReader -/

theorem readSpec_nil (err : Option Err) (ns : List Nat) :
    readSpec err [] ns = ns.map (fun _ => ([], err)) := by
  induction ns with
  | nil => rfl
  | cons n ns ih => simp [readSpec, ih]

theorem reads_done (r : ErrorReader) (h : r.input.length ≤ r.pos) (ns : List Nat) :
    r.reads ns = some (readSpec r.err [] ns) := by
  induction ns with
  | nil => rfl
  | cons n ns ih => simp [ErrorReader.reads, ErrorReader.read, h, ih, readSpec]

theorem reads_live (input spare : List Nat) (err : Option Err) (pos : Nat) (hp : pos ≤ input.length) (ns : List Nat)
    (h : NoOverrun input.length pos ns) :
    ErrorReader.reads ⟨input, spare, pos, err⟩ ns = some (readSpec err (input.drop pos) ns) := by
  induction ns generalizing pos with
  | nil => rfl
  | cons n ns ih =>
    obtain ⟨h1, h2⟩ := h
    by_cases hd : input.length ≤ pos
    · rw [reads_done _ (by simpa using hd)]
      rw [List.drop_eq_nil_of_le hd]
    · have hne : input.drop pos ≠ [] := by
        intro h0; have := congrArg List.length h0; simp at this; omega
      have e1 : min input.length n = min n (input.length - pos) := by omega
      simp only [ErrorReader.reads, ErrorReader.read, readSpec, hne, if_false, ge_iff_le, hd]
      rw [e1]
      have hle : ¬ pos + min n (input.length - pos) > (input ++ spare).length := by simp; omega
      simp only [hle, if_false]
      have e2 : pos + min n (input.length - pos) = min input.length (pos + n) := by omega
      rw [e2, ih (min input.length (pos + n)) (by omega) h2]
      simp only [Option.map_some]
      congr 1
      have e3 : List.take (min n (input.length - pos)) (List.drop pos (input ++ spare)) = List.take n (List.drop pos input) := by
        rw [List.drop_append_of_le_length hp, List.take_append_of_le_length (by simp)]
        rw [List.take_eq_take_iff]; simp
      have e4 : List.drop (min input.length (pos + n)) input = List.drop n (List.drop pos input) := by
        rw [List.drop_drop]
        rcases Nat.le_total (pos + n) input.length with h' | h'
        · rw [Nat.min_eq_right h']
        · rw [Nat.min_eq_left h', List.drop_length, List.drop_eq_nil_of_le h']
      rw [e3, e4]

/-- C55 is false: with a three byte input and a buffer of two bytes, the second Read panics. -/
theorem c55_read_refuted :
    (newErrorReader [1, 2, 3] [] (some (.user 1))).reads [2, 2] = none ∧
    readSpec (some (.user 1)) [1, 2, 3] [2, 2, 2] = [([1, 2], none), ([3], none), ([], some (.user 1))] := by
  decide

/-- C55 is false in a second way: if the input slice has spare capacity, the bytes in it (here 99),
which are not part of the input, are delivered. -/
theorem c55_spare_refuted :
    (newErrorReader [1, 2, 3] [99] (some (.user 1))).reads [2, 2] = some [([1, 2], none), ([3, 99], none)] := by
  decide

/-- C55 for every history in which no Read starting strictly inside the input asks for more than
remains: the results are exactly those of the specification. Missing: the other histories. -/
theorem c55_read_partial (input spare : List Nat) (err : Option Err) (sizes : List Nat)
    (h : NoOverrun input.length 0 sizes) :
    (newErrorReader input spare err).reads sizes = some (readSpec err input sizes) := by
  simpa [newErrorReader] using reads_live input spare err 0 (by omega) sizes h

example := c55_read_partial [1, 2, 3] [] (some (.user 1)) [2, 1, 5] (by simp [NoOverrun])

/-- The excluded histories are exactly the bad ones: without spare capacity every one of them
panics. -/
theorem c55_read_wrong (input : List Nat) (err : Option Err) (sizes : List Nat)
    (h : ¬ NoOverrun input.length 0 sizes) :
    (newErrorReader input [] err).reads sizes = none := by
  suffices ∀ pos, pos ≤ input.length → ¬ NoOverrun input.length pos sizes →
      ErrorReader.reads ⟨input, [], pos, err⟩ sizes = none from this 0 (by omega) h
  clear h
  induction sizes with
  | nil => intro pos _ h; exact absurd trivial h
  | cons n ns ih =>
    intro pos hp h
    by_cases hd : input.length ≤ pos
    · exfalso; apply h
      clear h ih
      suffices ∀ ns p, input.length ≤ p → NoOverrun input.length p ns from this _ _ hd
      intro ns
      induction ns with
      | nil => intro _ _; trivial
      | cons n ns ih => intro p hp; exact ⟨.inr (.inl hp), ih _ (by omega)⟩
    · simp only [ErrorReader.reads, ErrorReader.read, ge_iff_le, hd, if_false]
      by_cases h1 : pos = 0 ∨ n ≤ input.length - pos
      · have h2 : ¬ NoOverrun input.length (min input.length (pos + n)) ns := by
          intro h2; apply h; exact ⟨by omega, h2⟩
        have hle : ¬ pos + min input.length n > (input ++ []).length := by simp; omega
        simp only [hle, if_false]
        have e2 : pos + min input.length n = min input.length (pos + n) := by omega
        rw [e2, ih _ (by omega) h2]; rfl
      · have hgt : pos + min input.length n > (input ++ []).length := by simp; omega
        simp only [hgt, if_true]

example := c55_read_wrong [1, 2, 3] (some (.user 1)) [2, 2] (by simp [NoOverrun])

/-- One byte at a time, as the byte iterator reads, is always right. -/
theorem c55_one_byte (input spare : List Nat) (err : Option Err) (k : Nat) :
    (newErrorReader input spare err).reads (List.replicate k 1) =
      some (readSpec err input (List.replicate k 1)) := by
  apply c55_read_partial
  suffices ∀ p, NoOverrun input.length p (List.replicate k 1) from this 0
  induction k with
  | zero => intro p; trivial
  | succ k ih => intro p; exact ⟨by omega, ih _⟩

/-- The specification says what the English does: when reads of positive size continue long enough,
the chunks concatenate to the input, and afterwards every result is (0, err). -/
theorem c55_spec_meaning (err : Option Err) (input : List Nat) (sizes more : List Nat) (h : input.length ≤ sizes.sum) :
    ((readSpec err input sizes).map (·.1)).flatten = input ∧
    readSpec err input (sizes ++ more) = readSpec err input sizes ++ more.map (fun _ => ([], err)) := by
  induction sizes generalizing input with
  | nil =>
    have : input = [] := List.length_eq_zero_iff.mp (by simpa using h)
    subst this; simp [readSpec, readSpec_nil]
  | cons n ns ih =>
    simp only [readSpec, List.cons_append]
    split
    · rename_i h0; subst h0
      simp [readSpec_nil]
    · have := ih (input.drop n) (by simp at h ⊢; omega)
      simp [this.1, this.2]

/-- Non-vacuity: 2 + 1 bytes, then the error twice. -/
example : NoOverrun 3 0 [2, 1, 5, 5] ∧
    (newErrorReader [1, 2, 3] [] (some (.user 1))).reads [2, 1, 5, 5]
      = some [([1, 2], none), ([3], none), ([], some (.user 1)), ([], some (.user 1))] := by
  refine ⟨by simp [NoOverrun], by decide⟩

/-! ### C56: ErrorWriter -/

/-- C56. A new ErrorWriter with count ≥ 0: after any history of writes the recorded output is the
first `count` bytes of everything offered, and the results are those of the specification. -/
theorem c56_error_writer (count : Nat) (err : Option Err) (ps : List (List Nat)) :
    (writes ErrorWriter.write (newErrorWriter count err) ps).1 = writeSpec err count ps ∧
    (writes ErrorWriter.write (newErrorWriter count err) ps).2.output = ps.flatten.take count := by
  suffices ∀ out : List Nat, out.length ≤ count →
      (writes ErrorWriter.write ⟨count, out, err⟩ ps).1 = writeSpec err (count - out.length) ps ∧
      (writes ErrorWriter.write ⟨count, out, err⟩ ps).2.output = out ++ ps.flatten.take (count - out.length) by
    simpa [newErrorWriter] using this [] (by simp)
  induction ps with
  | nil => intro out _; simp [writes, writeSpec]
  | cons p ps ih =>
    intro out hout
    by_cases hfull : out.length = count
    · have h := ih out hout
      have e : count - out.length = 0 := by omega
      rw [e] at h ⊢
      simp only [writes, ErrorWriter.write, hfull, if_true, writeSpec]
      exact ⟨by rw [h.1], by rw [h.2]; simp⟩
    · have h0 : ¬ ((out.length : Int) = (count : Int)) := by omega
      have h1 : ¬ ((count : Int) < 0) := by omega
      have h2 : count - out.length ≠ 0 := by omega
      have e1 : (min (p.length : Int) ((count : Int) - out.length)).toNat = min p.length (count - out.length) := by omega
      have h := ih (out ++ p.take (min p.length (count - out.length))) (by simp; omega)
      simp only [writes, ErrorWriter.write, h0, h1, h2, if_false, writeSpec, e1]
      have e2 : count - (out ++ p.take (min p.length (count - out.length))).length = count - out.length - p.length := by
        simp; omega
      rw [e2] at h
      refine ⟨by rw [h.1], ?_⟩
      rw [h.2, List.flatten_cons, List.take_append]
      rw [List.append_assoc]
      congr 2
      rw [List.take_eq_take_iff]; simp; omega

/-- C56, negative count: nothing is ever stored and every write returns (0, nil). -/
theorem c56_negative (count : Int) (hc : count < 0) (err : Option Err) (ps : List (List Nat)) :
    writes ErrorWriter.write (newErrorWriter count err) ps
      = (ps.map (fun _ => (0, none)), newErrorWriter count err) := by
  induction ps with
  | nil => rfl
  | cons p ps ih =>
    have h0 : ¬ ((([] : List Nat).length : Int) = count) := by simp; omega
    have : ErrorWriter.write (newErrorWriter count err) p = (0, none, newErrorWriter count err) := by
      simp only [ErrorWriter.write, newErrorWriter, h0, hc, if_false, if_true]
    simp [writes, this, ih]

example := c56_negative (-1) (by decide) (some (.user 1)) [[1, 2], [3]]

/-- C56, the end: once count bytes are stored every write returns (0, err) and stores nothing. -/
theorem c56_full (w : ErrorWriter) (h : (w.output.length : Int) = w.count) (ps : List (List Nat)) :
    writes ErrorWriter.write w ps = (ps.map (fun _ => (0, w.err)), w) := by
  induction ps with
  | nil => rfl
  | cons p ps ih => simp [writes, ErrorWriter.write, h] at ih ⊢; simp [ih]

/-- Non-vacuity. The second write is short, with a nil error (which io.Writer forbids). -/
example : writes ErrorWriter.write (newErrorWriter 3 (some (.user 1))) [[1, 2], [3, 4], [5]]
    = ([(2, none), (1, none), (0, some (.user 1))], ⟨3, [1, 2, 3], some (.user 1)⟩) := by decide

/-! ### C57: Writer.Write -/

variable {σ T ω : Type}

theorem accepts_nil_iff (fn : WFn σ T) (s s' : σ) : Accepts fn s [] s' ↔ s = s' := by
  constructor
  · intro h; cases h; rfl
  · rintro rfl; exact .nil

/-- C57. Write returns nil exactly if every value was passed to the writing function, in order, and
none was refused. -/
theorem c57_success (fn : WFn σ T) (s s' : σ) (vs : List T) :
    writeAll fn s vs = (none, s') ↔ Accepts fn s vs s' := by
  induction vs generalizing s with
  | nil => simp [writeAll, accepts_nil_iff]
  | cons v vs ih =>
    constructor
    · intro h
      simp only [writeAll] at h
      split at h
      · simp at h
      · rename_i s1 h1; exact .cons h1 ((ih s1).mp h)
    · intro h
      cases h with
      | cons h1 h2 => simp only [writeAll, h1]; exact (ih _).mpr h2

/-- C57. Write returns an error exactly if a prefix of the values was accepted and the value after it
was refused with that error; the values after that one never reach the writing function. -/
theorem c57_failure (fn : WFn σ T) (s s' : σ) (vs : List T) (e : WErr) :
    writeAll fn s vs = (some e, s') ↔
      ∃ pre v post s1, vs = pre ++ v :: post ∧ Accepts fn s pre s1 ∧ fn s1 v = (some e, s') := by
  induction vs generalizing s with
  | nil => simp [writeAll]
  | cons v vs ih =>
    constructor
    · intro h
      simp only [writeAll] at h
      split at h
      · rename_i e1 s1 h1
        simp only [Prod.mk.injEq, Option.some.injEq] at h
        obtain ⟨rfl, rfl⟩ := h
        exact ⟨[], v, vs, s, rfl, .nil, h1⟩
      · rename_i s1 h1
        obtain ⟨pre, w, post, s2, rfl, h2, h3⟩ := (ih s1).mp h
        exact ⟨v :: pre, w, post, s2, rfl, .cons h1 h2, h3⟩
    · rintro ⟨pre, w, post, s1, heq, h2, h3⟩
      cases h2 with
      | nil =>
        simp only [List.nil_append, List.cons.injEq] at heq
        obtain ⟨rfl, rfl⟩ := heq
        simp only [writeAll, h3]
      | cons h4 h5 =>
        simp only [List.cons_append, List.cons.injEq] at heq
        obtain ⟨rfl, rfl⟩ := heq
        simp only [writeAll, h4]
        exact (ih _).mpr ⟨_, w, post, s1, rfl, h5, h3⟩

/-- C57. A slice writer never fails and appends all values in order. -/
theorem c57_slice (slc vs : List T) : writeAll sliceWriter slc vs = (none, slc ++ vs) := by
  induction vs generalizing slc with
  | nil => simp [writeAll]
  | cons v vs ih => simp [writeAll, sliceWriter, ih] at *

/-- C57. A map writer never fails; afterwards each key has the last value written for it, or its
former value if none was. -/
theorem c57_map {K V : Type} [DecidableEq K] (m : K → Option V) (vs : List (K × V)) :
    ∃ m', writeAll mapWriter m vs = (none, m') ∧
      ∀ k, m' k = ((vs.reverse.find? (fun kv => kv.1 = k)).map (·.2)).or (m k) := by
  induction vs generalizing m with
  | nil => exact ⟨m, rfl, by simp⟩
  | cons v vs ih =>
    obtain ⟨m', h1, h2⟩ := ih (fun k => if k = v.1 then some v.2 else m k)
    refine ⟨m', by simpa [writeAll, mapWriter] using h1, fun k => ?_⟩
    rw [h2, List.reverse_cons, List.find?_append]
    generalize List.find? (fun kv => decide (kv.1 = k)) vs.reverse = fd
    rcases fd with _ | w
    · by_cases hk : k = v.1
      · simp [hk]
      · have : ¬ v.1 = k := fun h => hk h.symm
        simp [hk, this]
    · simp

/-- C57. Each of the four io.Writer based writing functions reports success exactly if the destination
returned a nil error and reported at least the whole encoding as written. -/
theorem c57_io_success (wr : Writer ω) (w : ω) :
    (∀ b, (byteWriter wr w b).1 = none ↔ (wr w [b]).2.1 = none ∧ 1 ≤ (wr w [b]).1) ∧
    (∀ r, (runeWriter wr w r).1 = none ↔ (wr w (runeBytes r)).2.1 = none ∧ (runeBytes r).length ≤ (wr w (runeBytes r)).1) ∧
    (∀ p, (stringWriter wr w p).1 = none ↔ (wr w p).2.1 = none ∧ p.length ≤ (wr w p).1) ∧
    (∀ eol p, (lineWriter eol wr w p).1 = none ↔
      (wr w (p ++ eol)).2.1 = none ∧ (p ++ eol).length ≤ (wr w (p ++ eol)).1) := by
  refine ⟨fun b => ?_, fun r => ?_, fun p => ?_, fun eol p => ?_⟩
  · simp only [byteWriter]; rcases wr w [b] with ⟨n, _ | e, w'⟩ <;> simp
    by_cases h : n = 0 <;> simp [h]; omega
  · simp only [runeWriter]; rcases wr w (runeBytes r) with ⟨n, _ | e, w'⟩ <;> simp
    by_cases h : n < (runeBytes r).length <;> simp [h]; omega
  · simp only [stringWriter]; rcases wr w p with ⟨n, _ | e, w'⟩ <;> simp
    by_cases h : n < p.length <;> simp [h]; omega
  · simp only [lineWriter]; rcases wr w (p ++ eol) with ⟨n, _ | e, w'⟩ <;> simp
    by_cases h : n < p.length + eol.length <;> simp [h]; omega

/-- C57. An error of the destination is returned as is. -/
theorem c57_io_error (wr : Writer ω) (w : ω) (e : Err) :
    (∀ b, (wr w [b]).2.1 = some e → (byteWriter wr w b).1 = some (.dst e)) ∧
    (∀ r, (wr w (runeBytes r)).2.1 = some e → (runeWriter wr w r).1 = some (.dst e)) ∧
    (∀ p, (wr w p).2.1 = some e → (stringWriter wr w p).1 = some (.dst e)) ∧
    (∀ eol p, (wr w (p ++ eol)).2.1 = some e → (lineWriter eol wr w p).1 = some (.dst e)) := by
  refine ⟨fun b h => ?_, fun r h => ?_, fun p h => ?_, fun eol p h => ?_⟩
  · simp only [byteWriter]; revert h; rcases wr w [b] with ⟨n, _ | e', w'⟩ <;> simp
  · simp only [runeWriter]; revert h; rcases wr w (runeBytes r) with ⟨n, _ | e', w'⟩ <;> simp
  · simp only [stringWriter]; revert h; rcases wr w p with ⟨n, _ | e', w'⟩ <;> simp
  · simp only [lineWriter]; revert h; rcases wr w (p ++ eol) with ⟨n, _ | e', w'⟩ <;> simp

/-- A writing function that offers `enc v` to the destination and succeeds exactly if all of it was
taken. -/
theorem buffer_all (fn : WFn (List Nat) T) (enc : T → List Nat)
    (h : ∀ w v, fn w v = (none, w ++ enc v)) (w : List Nat) (vs : List T) :
    writeAll fn w vs = (none, w ++ vs.flatMap enc) := by
  induction vs generalizing w with
  | nil => simp [writeAll]
  | cons v vs ih => simp [writeAll, h, ih]

/-- C57. Writing to a buffer never fails and stores the concatenated encodings. -/
theorem c57_buffer (w : List Nat) :
    (∀ bs, writeAll (byteWriter bufferWriter) w bs = (none, w ++ bs)) ∧
    (∀ rs, writeAll (runeWriter bufferWriter) w rs = (none, w ++ rs.flatMap runeBytes)) ∧
    (∀ ps, writeAll (stringWriter bufferWriter) w ps = (none, w ++ ps.flatten)) ∧
    (∀ eol ps, writeAll (lineWriter eol bufferWriter) w ps = (none, w ++ ps.flatMap (· ++ eol))) := by
  refine ⟨fun bs => ?_, fun rs => ?_, fun ps => ?_, fun eol ps => ?_⟩
  · have := buffer_all (byteWriter bufferWriter) (fun b => [b]) (fun w v => rfl) w bs
    simpa [List.flatMap_singleton'] using this
  · exact buffer_all _ _ (fun w v => by simp [runeWriter, bufferWriter]) w rs
  · have := buffer_all (stringWriter bufferWriter) id (fun w v => by simp [stringWriter, bufferWriter]) w ps
    simpa [List.flatMap_id] using this
  · exact buffer_all _ _ (fun w v => by simp [lineWriter, bufferWriter]) w ps

theorem runeBytes_ne_nil (r : Int) : runeBytes r ≠ [] := by
  simp only [runeBytes]; (repeat' split) <;> simp

/-- What a writing function built on ErrorWriter does with a non-empty encoding. -/
theorem errorWriter_all (fn : WFn ErrorWriter T) (enc : T → List Nat) (count : Nat) (e : Err)
    (hne : ∀ v, enc v ≠ [])
    (hok : ∀ w v, (fn w v).2 = (ErrorWriter.write w (enc v)).2.2)
    (hs : ∀ w v, (fn w v).1 = none ↔
      (ErrorWriter.write w (enc v)).2.1 = none ∧ (enc v).length ≤ (ErrorWriter.write w (enc v)).1)
    (vs : List T) :
    ((writeAll fn (newErrorWriter count (some e)) vs).1 = none ↔ (vs.flatMap enc).length ≤ count) ∧
    (writeAll fn (newErrorWriter count (some e)) vs).2.output = (vs.flatMap enc).take count := by
  suffices ∀ out : List Nat, out.length ≤ count →
      ((writeAll fn ⟨count, out, some e⟩ vs).1 = none ↔ (vs.flatMap enc).length ≤ count - out.length) ∧
      (writeAll fn ⟨count, out, some e⟩ vs).2.output = out ++ (vs.flatMap enc).take (count - out.length) by
    simpa [newErrorWriter] using this [] (by simp)
  induction vs with
  | nil => intro out h; simp [writeAll]
  | cons v vs ih =>
    intro out hout
    have hpos : 0 < (enc v).length := List.length_pos_iff.mpr (hne v)
    have h1 := hs ⟨count, out, some e⟩ v
    have h2 := hok ⟨count, out, some e⟩ v
    have hw : ErrorWriter.write ⟨count, out, some e⟩ (enc v) =
        if out.length = count then (0, some e, ⟨count, out, some e⟩)
        else (min (enc v).length (count - out.length), none,
          ⟨count, out ++ (enc v).take (count - out.length), some e⟩) := by
      simp only [ErrorWriter.write]
      by_cases hf : out.length = count
      · simp [hf]
      · have h0 : ¬ ((out.length : Int) = (count : Int)) := by omega
        have h1 : ¬ ((count : Int) < 0) := by omega
        have e1 : (min ((enc v).length : Int) ((count : Int) - out.length)).toNat = min (enc v).length (count - out.length) := by omega
        simp only [h0, h1, hf, if_false, e1]
        congr 4
        rw [List.take_eq_take_iff]; omega
    rw [hw] at h1 h2
    rcases hfn : fn ⟨count, out, some e⟩ v with ⟨_ | er, w'⟩
    · rw [hfn] at h1 h2
      simp only [true_iff] at h1
      by_cases hf : out.length = count
      · simp [hf] at h1
      · simp only [hf, if_false] at h1 h2
        subst h2
        have hle : (enc v).length ≤ count - out.length := by have := h1.2; omega
        have := ih (out ++ (enc v).take (count - out.length)) (by simp; omega)
        simp only [writeAll, hfn]
        have e2 : (out ++ (enc v).take (count - out.length)).length = out.length + (enc v).length := by simp; omega
        rw [e2] at this
        refine ⟨this.1.trans ?_, ?_⟩
        · simp only [List.flatMap_cons, List.length_append]; omega
        · rw [this.2, List.flatMap_cons, List.take_append, List.append_assoc]
          congr 3; omega
    · rw [hfn] at h1 h2
      simp only [writeAll, hfn, reduceCtorEq, false_iff, List.flatMap_cons, List.length_append] at h1 ⊢
      by_cases hf : out.length = count
      · simp only [hf, if_true] at h2
        subst h2
        exact ⟨by omega, by simp [hf]⟩
      · simp only [hf, if_false, true_and] at h1 h2
        subst h2
        refine ⟨by omega, ?_⟩
        simp only
        rw [List.take_append, show count - out.length - (enc v).length = 0 by omega]; simp

/-- C57 with a destination that fails after `count` bytes: the values are stored up to exactly
`count` bytes and Write reports an error exactly if not everything was stored. (Bytes, runes and
lines; for strings see `c57_failing_strings`.) -/
theorem c57_failing (count : Nat) (e : Err) :
    (∀ bs, ((writeAll (byteWriter ErrorWriter.write) (newErrorWriter count (some e)) bs).1 = none ↔ bs.length ≤ count) ∧
      (writeAll (byteWriter ErrorWriter.write) (newErrorWriter count (some e)) bs).2.output = bs.take count) ∧
    (∀ rs, ((writeAll (runeWriter ErrorWriter.write) (newErrorWriter count (some e)) rs).1 = none ↔
        (rs.flatMap runeBytes).length ≤ count) ∧
      (writeAll (runeWriter ErrorWriter.write) (newErrorWriter count (some e)) rs).2.output
        = (rs.flatMap runeBytes).take count) ∧
    (∀ eol ps, eol ≠ [] →
      ((writeAll (lineWriter eol ErrorWriter.write) (newErrorWriter count (some e)) ps).1 = none ↔
        (ps.flatMap (· ++ eol)).length ≤ count) ∧
      (writeAll (lineWriter eol ErrorWriter.write) (newErrorWriter count (some e)) ps).2.output
        = (ps.flatMap (· ++ eol)).take count) := by
  refine ⟨fun bs => ?_, fun rs => ?_, fun eol ps heol => ?_⟩
  · have := errorWriter_all (byteWriter ErrorWriter.write) (fun b => [b]) count e (by simp)
      (fun w v => by simp only [byteWriter]; rcases ErrorWriter.write w [v] with ⟨n, _ | e, w'⟩ <;> simp <;> split <;> rfl)
      (fun w v => (c57_io_success ErrorWriter.write w).1 v) bs
    simpa [List.flatMap_singleton'] using this
  · exact errorWriter_all (runeWriter ErrorWriter.write) runeBytes count e runeBytes_ne_nil
      (fun w v => by
        simp only [runeWriter]; rcases ErrorWriter.write w (runeBytes v) with ⟨n, _ | e, w'⟩ <;> simp <;> split <;> rfl)
      (fun w v => (c57_io_success ErrorWriter.write w).2.1 v) rs
  · exact errorWriter_all (lineWriter eol ErrorWriter.write) (· ++ eol) count e (by simp [heol])
      (fun w v => by
        simp only [lineWriter]; rcases ErrorWriter.write w (v ++ eol) with ⟨n, _ | e, w'⟩ <;> simp <;> split <;> rfl)
      (fun w v => (c57_io_success ErrorWriter.write w).2.2.2 eol v) ps

/-- C57 with a failing destination, strings. An empty string written when `count` bytes are already
stored is refused, so the exact statement is for non-empty strings. -/
theorem c57_failing_strings (count : Nat) (e : Err) (ps : List (List Nat)) (hne : ∀ p ∈ ps, p ≠ []) :
    ((writeAll (stringWriter ErrorWriter.write) (newErrorWriter count (some e)) ps).1 = none ↔
        ps.flatten.length ≤ count) ∧
      (writeAll (stringWriter ErrorWriter.write) (newErrorWriter count (some e)) ps).2.output
        = ps.flatten.take count := by
  let fn : WFn ErrorWriter {p : List Nat // p ≠ []} := fun w p => stringWriter ErrorWriter.write w p.1
  have h := errorWriter_all fn (fun p => p.1) count e (fun v => v.2)
      (fun w v => by
        simp only [fn, stringWriter]
        rcases ErrorWriter.write w v.1 with ⟨n, _ | e, w'⟩ <;> simp <;> split <;> rfl)
      (fun w v => (c57_io_success ErrorWriter.write w).2.2.1 v.1) (ps.attachWith _ hne)
  have e1 : ∀ (ps : List (List Nat)) (hne : ∀ p ∈ ps, p ≠ []) w,
      writeAll fn w (ps.attachWith _ hne) = writeAll (stringWriter ErrorWriter.write) w ps := by
    intro ps
    induction ps with
    | nil => intro _ w; rfl
    | cons p ps ih =>
      intro hne w
      rw [List.attachWith_cons]
      simp only [writeAll, fn]
      split <;> simp_all
      exact ih _
  have e2 : (ps.attachWith _ hne).flatMap (fun p => p.1) = ps.flatten := by
    rw [List.flatMap_def]; simp
  rw [e1, e2] at h
  exact h

/-- Non-vacuity: three runes into a writer that takes 4 bytes: the euro sign is cut short. -/
example : writeAll (runeWriter ErrorWriter.write) (newErrorWriter 4 (some (.user 1))) [97, 98, 0x20AC]
    = (some (.runeNotWritten 0x20AC), ⟨4, [97, 98, 0xE2, 0x82], some (.user 1)⟩) := by decide

/-! ### C58: runes out and in -/

theorem runeBytes_scalar (c : Char) : runeBytes c.toNat = utf8 c := by
  have hv := c.valid
  simp only [UInt32.isValidChar, Nat.isValidChar] at hv
  have : c.val.toNat = c.toNat := rfl
  have h : ¬ (((c.toNat : Int) < 0) ∨ (c.toNat : Int) > 0x10FFFF ∨ (0xD800 ≤ (c.toNat : Int) ∧ (c.toNat : Int) ≤ 0xDFFF)) := by
    rw [this] at hv; omega
  simp only [runeBytes, h, if_false, Int.toNat_natCast, utf8]

theorem runeBytes_invalid (r : Int) (h : ¬ ScalarValue r) : runeBytes r = utf8 (Char.ofNat 0xFFFD) := by
  have : r < 0 ∨ r > 0x10FFFF ∨ (0xD800 ≤ r ∧ r ≤ 0xDFFF) := by
    simp only [ScalarValue] at h; omega
  simp only [runeBytes, this, if_true]; decide

/-- C58. For every list of runes (any int32 values): writing them with OfIOWriterAsRunes to a buffer
and reading the bytes with OfReaderAsRunes yields the same runes, with U+FFFD in place of those that
are not Unicode scalar values, and then EOI forever. -/
theorem c58_runes (rs : List Int) :
    ∃ bytes, writeAll (runeWriter bufferWriter) [] rs = (none, bytes) ∧
      YieldsForever (It.next (runeCall bytesReader)) (ofIter ⟨false, .eoi, bytes⟩)
        (rs.map (fun r => if ScalarValue r then r.toNat else 0xFFFD)) .eoi := by
  refine ⟨rs.flatMap runeBytes, by simpa using (c57_buffer []).2.1 rs, ?_⟩
  have e1 : rs.flatMap runeBytes = (rs.map (fun r => Char.ofNat (if ScalarValue r then r.toNat else 0xFFFD))).flatMap utf8 := by
    rw [List.flatMap_map]
    congr 1
    funext r
    by_cases h : ScalarValue r
    · simp only [h, if_true]
      have hval : r.toNat.isValidChar := by
        simp only [Nat.isValidChar]; simp only [ScalarValue] at h; omega
      have e := runeBytes_scalar (Char.ofNat r.toNat)
      have e2 : (Char.ofNat r.toNat).toNat = r.toNat := by
        simp [Char.ofNat, hval, Char.ofNatAux, Char.toNat]
      rw [e2] at e
      rw [← e]; congr 1; simp only [ScalarValue] at h; omega
    · simp only [h, if_false]; exact runeBytes_invalid r h
  have e3 : (rs.map (fun r => Char.ofNat (if ScalarValue r then r.toNat else 0xFFFD))).map Char.toNat
      = rs.map (fun r => if ScalarValue r then r.toNat else 0xFFFD) := by
    rw [List.map_map]
    apply List.map_congr_left
    intro r _
    have hval : (if ScalarValue r then r.toNat else 0xFFFD).isValidChar := by
      split
      · rename_i h; simp only [Nat.isValidChar]; simp only [ScalarValue] at h; omega
      · decide
    simp only [Function.comp_apply, Char.ofNat, hval, dif_pos, Char.ofNatAux, Char.toNat]
    rfl
  rw [e1, ← e3]
  exact c29_roundtrip _

/-- C58 for text: the runes of any text come back unchanged. -/
theorem c58_text (cs : List Char) :
    ∃ bytes, writeAll (runeWriter bufferWriter) [] (cs.map (fun c => (c.toNat : Int))) = (none, bytes) ∧
      YieldsForever (It.next (runeCall bytesReader)) (ofIter ⟨false, .eoi, bytes⟩) (cs.map Char.toNat) .eoi := by
  refine ⟨cs.flatMap utf8, ?_, c29_roundtrip cs⟩
  rw [(c57_buffer []).2.1]
  simp only [List.nil_append, List.flatMap_map, runeBytes_scalar]

/-- Non-vacuity: an ASCII letter, the euro sign, a surrogate and a negative number. -/
example : writeAll (runeWriter bufferWriter) [] [97, 0x20AC, 0xD800, -1]
    = (none, [97, 0xE2, 0x82, 0xAC, 0xEF, 0xBF, 0xBD, 0xEF, 0xBF, 0xBD]) := by decide

/-! ### C68: lines out and in -/

theorem splitLines_line (k : Bool) (l acc t : List Nat) (hl : ∀ c ∈ l, c ≠ 13 ∧ c ≠ 10) :
    splitLines k (l ++ t) acc = splitLines k t (acc ++ l) := by
  induction l generalizing acc with
  | nil => simp
  | cons c l ih =>
    have hc := hl c (by simp)
    rw [List.cons_append, splitLines_other k c _ acc hc.1 hc.2, ih _ (fun d hd => hl d (by simp [hd]))]
    simp

theorem noLF_line (b : Bool) (l t : List Nat) (hl : ∀ c ∈ l, c ≠ 13 ∧ c ≠ 10) :
    NoLFAfterLoneCR b (l ++ t) ↔ NoLFAfterLoneCR b t := by
  induction l with
  | nil => simp
  | cons c l ih =>
    have hc := hl c (by simp)
    rw [List.cons_append, noLF_other b c _ hc.1 hc.2]
    exact ih (fun d hd => hl d (by simp [hd]))

/-- C68. Lines (texts without CR and LF) written with OfIOWriterAsLines, with either line ending, and
read with OfReaderAsLines come back unchanged, including empty ones, and then EOI forever. -/
theorem c68_lines (eol : List Char) (heol : eol = ['\n'] ∨ eol = ['\r', '\n']) (lines : List (List Char))
    (hl : ∀ l ∈ lines, ∀ c ∈ l, c ≠ '\r' ∧ c ≠ '\n') :
    ∃ bytes, writeAll (lineWriter (eol.flatMap utf8) bufferWriter) [] (lines.map (·.flatMap utf8)) = (none, bytes) ∧
      YieldsForever (It.next (readLinesCall (runeCall bytesReader)))
        (ofIter ⟨none, false, ⟨false, .eoi, bytes⟩⟩) (lines.map (·.map Char.toNat)) .eoi := by
  have hl' : ∀ l ∈ lines, ∀ c ∈ l.map Char.toNat, c ≠ 13 ∧ c ≠ 10 := by
    intro l h c hc
    obtain ⟨d, hd, rfl⟩ := List.mem_map.mp hc
    have := hl l h d hd
    constructor
    · intro h; exact this.1 (Char.toNat_inj.mp h)
    · intro h; exact this.2 (Char.toNat_inj.mp h)
  have key : NoLFAfterLoneCR false ((lines.flatMap (· ++ eol)).map Char.toNat) ∧
      splitLines true ((lines.flatMap (· ++ eol)).map Char.toNat) [] = lines.map (·.map Char.toNat) := by
    clear hl
    induction lines with
    | nil => simp [NoLFAfterLoneCR, splitLines]
    | cons l lines ih =>
      have ih := ih (fun l h => hl' l (by simp [h]))
      have h1 := hl' l (by simp)
      simp only [List.flatMap_cons, List.map_append, List.append_assoc, List.map_cons]
      rw [noLF_line _ _ _ h1, splitLines_line _ _ _ _ h1]
      rcases heol with rfl | rfl
      · simp only [List.map_cons, List.map_nil, List.cons_append, List.nil_append]
        rw [show '\n'.toNat = 10 from rfl]
        rw [noLF_lf, splitLines_lf]
        exact ⟨⟨rfl, ih.1⟩, by rw [ih.2]⟩
      · simp only [List.map_cons, List.map_nil, List.cons_append, List.nil_append]
        rw [show '\n'.toNat = 10 from rfl, show '\r'.toNat = 13 from rfl]
        simp only [NoLFAfterLoneCR, splitLines]
        exact ⟨ih.1, by rw [ih.2]⟩
  refine ⟨(lines.flatMap (· ++ eol)).flatMap utf8, ?_, ?_⟩
  · rw [(c57_buffer []).2.2.2]
    simp [List.flatMap_assoc, List.flatMap_map]
  · have := c30_string_lines_partial _ key.1
    rwa [key.2] at this

/-- Non-vacuity: "ab", "" and "é" with CRLF. -/
example : writeAll (lineWriter [13, 10] bufferWriter) [] [[97, 98], [], utf8 'é']
    = (none, [97, 98, 13, 10, 13, 10, 0xC3, 0xA9, 13, 10]) := by decide

end Micro.IO
