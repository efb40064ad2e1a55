import Verif.Json.Props
import Verif.Json.IterLemmas
set_option linter.unusedSimpArgs false
/-
Theorems about encoding/json values, paths, writers and iteration: C63, C64, C69, C70, C71.
-/
namespace Micro.Json
open Micro Micro.Iter Micro.Stream

/-! ### C63: conversion of Values to Go values and back -/

/-- C63. The round trip works for exactly the values made of proper JSON values whose numbers contain a digit.
Partial: it should work for every Value. -/
theorem c63_roundtrip_partial (v : JVal) : toValue (toAny v) = .ok v ↔ Convertible v :=
  ⟨convertible_of v, toValue_toAny v⟩

/-- C63. Every value parsed from a JSON document survives the round trip. -/
theorem c63_parsed (t : List Char) (v : JVal) (h : IsDoc rfc t v) : toValue (toAny v) = .ok v := by
  obtain ⟨w, s, -, hs, -, -⟩ := h
  exact toValue_toAny v (convertible_all rfl hs)

example : IsDoc rfc ['[', ']'] (.arr []) := ⟨[], _, by intro c hc; simp at hc, .arr0 [] (by intro c hc; simp at hc), .inr rfl, rfl⟩

/-- C63. A NumberString is accepted iff the regular expression finds a match somewhere in it; the value keeps the whole
string. -/
theorem c63_number_string (s : List Char) (r : Except VErr JVal) :
    toValue (.numStr s) = r ↔
      ((∃ a m b, s = a ++ m ++ b ∧ NumberRegex m) ∧ r = .ok (.num s)) ∨
      ((¬ ∃ a m b, s = a ++ m ++ b ∧ NumberRegex m) ∧ r = .error .notNumber) := by
  rw [← matchNumber_iff]
  simp only [toValue]
  by_cases h : matchNumber s = true
  · simp [h, eq_comm]
  · simp [h, eq_comm]

/-- C63. An integer becomes the number with its decimal digits, and reading them back gives the integer. -/
theorem c63_integer (k : Kind) (v : Int) (h : k.InRange v) :
    ∃ ds, toValue (.int k v) = .ok (.num ds) ∧ Conv.Spells true ds v ∧ NumLit common ds := by
  refine ⟨Conv.integerToString k v, by simp [toValue], ?_, ?_⟩
  · have := Conv.spells_format k v h
    obtain ⟨ds, h1, h2, h3⟩ := this
    exact ⟨ds, h1, h2, by tauto⟩
  · have key : ∀ n : Nat, IsInt common false (natChars n) ∧ IsInt common true (natChars n) := by
      intro n
      have hz : (natChars n).head? = some '0' → natChars n = ['0'] := by
        intro hh
        by_cases hn : n = 0
        · rw [hn, natChars_zero]
        · exfalso
          have hle := natChars_pow_le n (by omega)
          cases hc : natChars n with
          | nil => exact absurd hc (natChars_ne_nil n)
          | cons c t =>
            rw [hc] at hh hle
            simp at hh; subst hh
            have hv := digitsVal_natChars n
            rw [hc, digitsVal_cons] at hv
            have hlt := digitsVal_lt t (fun d hd => natChars_digits n d (by rw [hc]; simp [hd]))
            have hz : digitVal '0' = 0 := rfl
            rw [hz] at hv
            simp at hle hv
            omega
      exact ⟨⟨natChars_ne_nil n, natChars_digits n, fun hh => .inl (hz hh)⟩,
        ⟨natChars_ne_nil n, natChars_digits n, fun hh => .inl (hz hh)⟩⟩
    have fmt : ∀ w : Int, NumLit common (Conv.formatInt w) := by
      intro w
      unfold Conv.formatInt
      split
      · exact ⟨true, natChars w.natAbs, [], [], (key _).2, .inl rfl, .inl rfl, by simp⟩
      · exact ⟨false, natChars w.natAbs, [], [], (key _).1, .inl rfl, .inl rfl, by simp⟩
    unfold Conv.integerToString
    split <;> exact fmt _

example : Kind.int8.InRange (-128) := by decide

/-- C63. The other way round: a Go value made of nil, bool, string, NumberString, map[string]any and []any that is
accepted comes back unchanged. -/
theorem c63_go_roundtrip (a : GoAny) (v : JVal) (hp : PlainGo a) (h : toValue a = .ok v) : toAny v = a :=
  toAny_toValue a v hp h

example : PlainGo (.map [(['k'], .slice [.nil, .numStr ['1']])]) ∧
    toValue (.map [(['k'], .slice [.nil, .numStr ['1']])]) = .ok (.obj [(['k'], .arr [.null, .num ['1']])]) := by
  refine ⟨.map _ ?_, ?_⟩
  · simp only [List.mem_singleton]; rintro kv rfl
    refine .slice _ ?_
    simp only [List.mem_cons, List.not_mem_nil, or_false]
    rintro v (rfl | rfl)
    · exact .nil
    · exact .numStr _
  · simp [toValue, mapToValue, convFields, sliceToValue, convElems, matchNumber, isDigit]

/-- C63 is false in general: the invalid Value (which Parse can return, see C60) becomes null, a Number made from a float NaN
cannot be converted back, and `ToValue` fails on a map[string]Value and a []Value although its constraint admits them. -/
theorem c63_refuted :
    toValue (toAny .invalid) = .ok .null ∧
    toValue (toAny (.num ['N', 'a', 'N'])) = .error .notNumber ∧
    (∀ kvs, toValue (.mapV kvs) = .error .invalidType) ∧
    (∀ vs, toValue (.sliceV vs) = .error .invalidType) ∧
    toValue (.numStr ['f', 'o', 'o', '1']) = .ok (.num ['f', 'o', 'o', '1']) := by
  refine ⟨by simp [toAny, toValue], ?_, ?_, ?_, ?_⟩
  · simp only [toAny, toValue]; rw [if_neg (by decide)]
  · intro kvs; simp [toValue]
  · intro vs; simp [toValue]
  · simp only [toValue]; rw [if_pos (by decide)]

/-! ### C64: paths -/

/-- C64. A path is accepted exactly when it is a non-empty sequence of `.key` and `[index]` parts (key without dots and
brackets, index at most MaxInt), and its steps are those parts in order. Anything else is an error. -/
theorem c64_parse (p : List Char) (ss : List Step) : parsePath p = some ss ↔ PathText p ss := parsePath_iff p ss

example : PathText ['.', 'a', '[', '0', '7', ']'] [.key ['a'], .idx 7] :=
  .more ['.', 'a'] (.key ['a']) ['[', '0', '7', ']'] _ ⟨by simp, by simp, rfl⟩
    (.one _ _ ⟨['0', '7'], by simp, by unfold AllDigits; decide, rfl, by decide, by decide⟩)

/-- C64. Rendering steps and parsing the result gives the steps back. -/
theorem c64_roundtrip (ss : List Step) (hne : ss ≠ [])
    (hk : ∀ k, Step.key k ∈ ss → k ≠ [] ∧ ∀ c ∈ k, c ≠ '.' ∧ c ≠ '[' ∧ c ≠ ']')
    (hi : ∀ n, Step.idx n ∈ ss → 0 ≤ n ∧ n ≤ 9223372036854775807) :
    parsePath (renderPath ss) = some ss := by
  rw [c64_parse]
  have step : ∀ s, s ∈ ss → ∃ t, StepText t s ∧ ∀ r, renderPath (s :: r) = t ++ renderPath r := by
    intro s hs
    cases s with
    | key k => exact ⟨'.' :: k, ⟨(hk k hs).1, (hk k hs).2, rfl⟩, fun r => by simp [renderPath]⟩
    | idx n =>
      refine ⟨'[' :: natChars n.toNat ++ [']'], ⟨natChars n.toNat, natChars_ne_nil _, natChars_digits _, rfl, ?_, (hi n hs).2⟩,
        fun r => by simp [renderPath]⟩
      have := (hi n hs).1
      rw [digitsVal_natChars]; omega
  clear hk hi
  induction ss with
  | nil => exact absurd rfl hne
  | cons s ss ih =>
    obtain ⟨t, ht, hr⟩ := step s (by simp)
    rw [hr]
    cases ss with
    | nil => simpa [renderPath] using PathText.one t s ht
    | cons s2 ss => exact .more _ _ _ _ ht (ih (by simp) fun x hx => step x (by simp [hx]))

example : parsePath (renderPath [.key ['a', 'b'], .idx 3, .key ['c']]) = some [.key ['a', 'b'], .idx 3, .key ['c']] :=
  c64_roundtrip _ (by simp) (by simp) (by simp)

/-- C64. Looking up a parsed path finds exactly the element that following the steps leads to; it fails exactly when there is
none (a step of the wrong type or a missing key or index). -/
theorem c64_lookup (p : List Char) (ss : List Step) (hp : parsePath p = some ss) (v : JVal) (hv : DistinctKeys v) :
    (∀ u, lookup ss v = some u ↔ At v ss u) ∧ (lookup ss v = none ↔ ¬ ∃ u, At v ss u) := by
  have h := fun u => lookup_iff ss v u hv (pathText_idx ((c64_parse p ss).mp hp))
  refine ⟨h, ?_⟩
  constructor
  · rintro hn ⟨u, hu⟩
    rw [(h u).mpr hu] at hn; cases hn
  · intro hn
    cases hl : lookup ss v with
    | none => rfl
    | some u => exact absurd ⟨u, (h u).mp hl⟩ hn

/-- C64. Every value Parse returns has distinct keys, so `c64_lookup` applies to it. -/
theorem c64_parsed_distinct (fin : Err) (t : List Char) (v : JVal) (rest : List Char)
    (h : parse fin t = some (.ok (v, rest))) : DistinctKeys v := by
  obtain ⟨pre, -, w, s, -, hs, -, -⟩ := (c60_exact_partial fin t v rest).mp h
  exact distinct_all hs

/-- C64. A path can be split anywhere: looking up the concatenation is looking up one part in the result of the other. -/
theorem c64_compose (a b : List Step) (v : JVal) : lookup (a ++ b) v = (lookup a v).bind (lookup b) := by
  induction a generalizing v with
  | nil => simp [lookup]
  | cons s a ih =>
    cases s with
    | key k =>
      cases v with
      | obj kvs =>
        simp only [List.cons_append, lookup]
        cases kvs.lookup k with
        | none => rfl
        | some u => exact ih u
      | _ => simp [lookup]
    | idx n =>
      cases v with
      | arr vs =>
        simp only [List.cons_append, lookup]
        by_cases h : (vs.length : Int) > n
        · rw [if_pos h, if_pos h]
          cases vs[n.toNat]? with
          | none => rfl
          | some u => exact ih u
        · rw [if_neg h, if_neg h]; rfl
      | _ => simp [lookup]

/-! ### C69: writing to a writer that may fail -/

/-- C69. Write passes the chunks of the document to the writer in order until the first failing call, whose error it
returns, and makes no further call; the chunks concatenated are the text of C59. -/
theorem c69_write {σ : Type} (w : W σ) (s s' : σ) (r : Option Err) (v : JVal) :
    (writeTo w s v = (r, s') ↔ WritesAll w s (writeChunks v) r s') ∧ (writeChunks v).flatten = written v := by
  refine ⟨⟨fun h => ?_, fun h => ?_⟩, rfl⟩
  · have := writeTo_all w v s
    rwa [h] at this
  · have := writesAll_unique (writeTo_all w v s) h
    exact Prod.ext this.1 this.2

theorem writesAll_collect (cs : List (List Char)) : ∀ s : List Char, WritesAll (fun s c => (none, s ++ c)) s cs none (s ++ cs.flatten) := by
  induction cs with
  | nil => intro s; simpa using WritesAll.done s
  | cons c cs ih => intro s; refine .next _ _ (s ++ c) _ _ _ rfl ?_; have := ih (s ++ c); simpa using this

/-- C69. A writer that does not fail receives exactly the text of C59, which Parse reads back (if no string has to be
escaped). -/
theorem c69_roundtrip (v : JVal) (hc : Clean common v) (hd : v.isDocument = true) :
    ∃ text, writeTo (fun s c => (none, s ++ c)) [] v = (none, text) ∧ parse .eoi text = some (.ok (v, [])) := by
  refine ⟨written v, ?_, ?_⟩
  · rw [(c69_write _ _ _ _ _).1]
    simpa [written] using writesAll_collect (writeChunks v) []
  · have := (c60_accepts .eoi (written v) v (written_doc hc hd) []).2
    simpa using this

/-- C69. A writer with room for n calls: exactly the first n chunks are written, and the error is returned iff there are
more. -/
theorem c69_fail_after (e : Err) (n : Nat) (v : JVal) :
    writeTo (fun (s : Nat × List (List Char)) c => if s.1 = 0 then (some e, s) else (none, (s.1 - 1, s.2 ++ [c]))) (n, []) v =
      (if n < (writeChunks v).length then some e else none,
        (n - (writeChunks v).length, (writeChunks v).take n)) := by
  rw [(c69_write _ _ _ _ _).1]
  have key : ∀ (cs : List (List Char)) (n : Nat) (acc : List (List Char)),
      WritesAll (fun (s : Nat × List (List Char)) c => if s.1 = 0 then (some e, s) else (none, (s.1 - 1, s.2 ++ [c]))) (n, acc) cs
        (if n < cs.length then some e else none) (n - cs.length, acc ++ cs.take n) := by
    intro cs
    induction cs with
    | nil => intro n acc; simpa using WritesAll.done (n, acc)
    | cons c cs ih =>
      intro n acc
      cases n with
      | zero => simpa using WritesAll.fail (w := fun (s : Nat × List (List Char)) c => if s.1 = 0 then (some e, s) else (none, (s.1 - 1, s.2 ++ [c]))) (0, acc) c e (0, acc) cs (by simp)
      | succ n =>
        refine .next _ _ (n, acc ++ [c]) _ _ _ (by simp) ?_
        have := ih n (acc ++ [c])
        simpa using this
  simpa using key (writeChunks v) n []

/-! ### C70: Iterate -/

/-- C70. Iterate agrees with Parse on every text: a document that is an array yields its elements and EOI; an object yields
itself and EOI; and where Parse fails, Iterate yields some elements and then that error, never EOI. -/
theorem c70_iterate (fin : Err) (t : List Char) : ∃ it, iterate fin t = some it ∧
    (∀ vs rest, parse fin t = some (.ok (.arr vs, rest)) → it.YieldsForever vs .eoi) ∧
    (∀ kvs rest, parse fin t = some (.ok (.obj kvs, rest)) → it.YieldsForever [.obj kvs] .eoi) ∧
    (∀ e, parse fin t = some (.error e) → e ≠ .eoi ∧ ∃ vs, it.YieldsForever vs e) := by
  unfold iterate
  cases hl : lex fin t with
  | error e =>
    refine ⟨_, rfl, ?_, ?_, ?_⟩
    · intro vs rest h; simp [parse, hl] at h
    · intro vs rest h; simp [parse, hl] at h
    · intro e' h
      simp only [parse, hl, Option.some.injEq, Except.error.injEq] at h
      subst h
      exact ⟨endErr_ok _ _ (by simp), [], anyError_forever _⟩
  | ok p =>
    obtain ⟨tok, t1⟩ := p
    simp only
    by_cases h1 : tok = .oBrace
    · subst h1
      obtain ⟨r, hr, hok⟩ := soundObject fin [] t1
      simp only [if_true, hr]
      have hp : parse fin t = some r := by unfold parse; rw [hl]; simp only [true_or, if_true]; rw [parseValue.eq_def]; exact hr
      cases r with
      | error e =>
        refine ⟨_, rfl, ?_, ?_, ?_⟩
        · intro vs rest h; rw [hp] at h; simp at h
        · intro vs rest h; rw [hp] at h; simp at h
        · intro e' h
          rw [hp] at h
          simp only [Option.some.injEq, Except.error.injEq] at h
          subst h
          exact ⟨fun he => (noEoi_all fin).2.2.2 _ _ _ hr (by rw [he]), [], anyError_forever _⟩
      | ok q =>
        obtain ⟨v, rest⟩ := q
        refine ⟨_, rfl, ?_, ?_, ?_⟩
        · intro vs rest' h
          rw [hp] at h
          obtain ⟨-, pre, kvs, -, -, hv, -⟩ := hok v rest rfl
          rw [hv] at h; simp at h
        · intro kvs rest' h
          rw [hp] at h
          simp only [Option.some.injEq, Except.ok.injEq, Prod.mk.injEq] at h
          obtain ⟨rfl, -⟩ := h
          exact c26_one _
        · intro e' h; rw [hp] at h; simp at h
    · rw [if_neg h1]
      by_cases h2 : tok = .oBracket
      · subst h2
        obtain ⟨r, hr, hok⟩ := soundFirst fin t1
        have hp : parse fin t = some r := by unfold parse; rw [hl]; simp only [or_true, if_true]; rw [parseValue.eq_def]; exact hr
        have hi := iterFirst fin t1 r hr
        simp only [if_true]
        refine ⟨_, rfl, ?_, ?_, ?_⟩
        · intro vs rest h
          rw [hp] at h
          cases h
          obtain ⟨us, hu, hy⟩ := hi
          simp at hu; subst hu
          exact ofIter_forever hy
        · intro kvs rest h
          rw [hp] at h
          cases h
          obtain ⟨us, hu, hy⟩ := hi
          simp at hu
        · intro e h
          rw [hp] at h
          cases h
          obtain ⟨he, us, hy⟩ := hi
          exact ⟨he, us, ofIter_forever hy⟩
      · rw [if_neg h2]
        have hp : parse fin t = some (.error eObjOrArr) := by unfold parse; rw [hl]; simp [h1, h2]
        refine ⟨_, rfl, ?_, ?_, ?_⟩
        · intro vs rest h; rw [hp] at h; simp at h
        · intro vs rest h; rw [hp] at h; simp at h
        · intro e' h
          rw [hp] at h
          simp only [Option.some.injEq, Except.error.injEq] at h
          subst h
          exact ⟨by simp, [], anyError_forever _⟩

/-- C70. The elements of an array in RFC 8259 notation are yielded in order, whatever follows the document. -/
theorem c70_array (fin : Err) (pre : List Char) (vs : List JVal) (h : IsDoc common pre (.arr vs)) (rest : List Char) :
    ∃ it, iterate fin (pre ++ rest) = some it ∧ it.YieldsForever vs .eoi := by
  obtain ⟨it, h1, h2, -, -⟩ := c70_iterate fin (pre ++ rest)
  exact ⟨it, h1, h2 vs rest (c60_accepts fin pre _ h rest).2⟩

example : ∃ it, iterate (.user 99) ['[', ' ', ']', 'x'] = some it ∧ it.YieldsForever [] .eoi :=
  c70_array (.user 99) ['[', ' ', ']'] []
    ⟨[], ['[', ' ', ']'], by intro c hc; simp at hc, .arr0 [' '] (by intro c hc; simp at hc; subst hc; decide), .inr rfl, rfl⟩ ['x']

/-! ### C71: truncated input and failing readers -/

/-- C71. A proper prefix of a document is never accepted, whether the text ends there or the reader fails there. -/
theorem c71_truncated (fin : Err) (a b : List Char) (v : JVal) (h : IsDoc common (a ++ b) v) (hb : b ≠ []) :
    ∃ e, parse fin a = some (.error e) ∧ e ≠ .eoi := by
  obtain ⟨r, hr⟩ := c60_terminates fin a
  cases r with
  | error e => exact ⟨e, hr, fun he => parse_noEoi fin a (by rw [hr, he])⟩
  | ok q =>
    exfalso
    obtain ⟨v', rest⟩ := q
    obtain ⟨pre, rfl, hd⟩ := (c60_exact_partial fin a v' rest).mp hr
    have h1 := parse_complete fin hd (rest ++ b)
    have h2 := (c60_accepts fin _ v h []).2
    rw [List.append_nil, List.append_assoc, h1] at h2
    simp at h2
    exact hb h2.2.2

/-- C71. If the reader fails before the document is complete, Parse returns the reader's error. -/
theorem c71_reader_error (fin : Err) (hfin : fin ≠ .eoi) (a b : List Char) (v : JVal) (h : IsDoc common (a ++ b) v)
    (hb : b ≠ []) : parse fin a = some (.error fin) := by
  obtain ⟨e, he, -⟩ := c71_truncated fin a b v h hb
  rcases (parse_ext hfin fin a _ he).2 e rfl with h1 | h1
  · rw [he, h1]
  · obtain ⟨e', h2⟩ := h1 b
    have h3 := (c60_accepts fin _ v h []).2
    rw [List.append_nil, h2] at h3
    simp at h3

/-- C71. If the reader fails anywhere, Parse returns its error, or fails with an error that does not depend on what would have
followed, or had already read the whole document. -/
theorem c71_reader_error_any (fin : Err) (hfin : fin ≠ .eoi) (a : List Char) :
    parse fin a = some (.error fin) ∨
    (∀ fin' b, ∃ e, parse fin' (a ++ b) = some (.error e)) ∨
    (∃ v rest, ∀ fin' b, parse fin' (a ++ b) = some (.ok (v, rest ++ b))) := by
  obtain ⟨r, hr⟩ := c60_terminates fin a
  cases r with
  | ok q => exact .inr (.inr ⟨q.1, q.2, fun fin' b => (parse_ext hfin fin' a _ hr).1 _ _ rfl b⟩)
  | error e =>
    by_cases h : e = fin
    · left; rw [hr, h]
    · right; left
      intro fin' b
      rcases (parse_ext hfin fin' a _ hr).2 e rfl with h1 | h1
      · exact absurd h1 h
      · exact h1 b

example : parse (.user 99) ['[', ' '] = some (.error (.user 99)) :=
  c71_reader_error _ (by simp) ['[', ' '] [']'] (.arr [])
    ⟨[], ['[', ' ', ']'], by intro c hc; simp at hc, .arr0 [' '] (by intro c hc; simp at hc; subst hc; decide), .inr rfl, rfl⟩ (by simp)

end Micro.Json
