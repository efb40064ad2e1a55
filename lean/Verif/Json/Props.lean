import Verif.Json.WriteLemmas
import Verif.Json.NumLongest
/-
C59-C62: JSON lexing, parsing and writing. `some (.ok (v, rest))` is success with value v, with rest still unread;
`fin` is how the source of the text ends (iter.EOI, or the reader's error).
-/
namespace Micro.Json
open Micro Micro.Iter

/-! ### C62 numbers -/

/-- Exactly what the number lexer accepts: a text s in the number grammar (extended by -0[0-9]*, `code`), returned
verbatim, if the text that follows does not continue the number (NumStop) and is not a reader error.
Partial: RFC 8259 (`rfc` instead of `code`) has no -0[0-9]+. -/
theorem c62_exact_partial (fin : Err) (c : Char) (hc : c = '-' ∨ isDigit c = true) (t : List Char) (tok : Tok) (rest : List Char) :
    lexNumber fin c t = .ok (tok, rest) ↔
      ∃ s, tok = .num s ∧ c :: t = s ++ rest ∧ NumLit code s ∧ NumStop s rest ∧ (rest = [] → fin = .eoi) :=
  lexNumber_iff fin c hc t tok rest

/-- What is consumed is the longest prefix of the text in the number grammar. -/
theorem c62_longest (fin : Err) (c : Char) (hc : c = '-' ∨ isDigit c = true) (t : List Char) (s rest : List Char)
    (h : lexNumber fin c t = .ok (.num s, rest)) (s' rest' : List Char) (heq : c :: t = s' ++ rest') (h' : NumLit rfc s') :
    s'.length ≤ s.length := by
  obtain ⟨_, h1, h2, h3, h4, _⟩ := (lexNumber_iff fin c hc t _ rest).mp h
  cases h1
  exact numStop_longest h3 h4 (h2 ▸ heq) h'

/-- Every number of RFC 8259 that is not continued is accepted verbatim. -/
theorem c62_accepts (fin : Err) (s rest : List Char) (h : NumLit rfc s) (hs : NumStop s rest) (he : rest = [] → fin = .eoi) :
    ∃ c t, s = c :: t ∧ lexNumber fin c (t ++ rest) = .ok (.num s, rest) := by
  obtain ⟨c, t, rfl, hc⟩ := numLit_head h
  refine ⟨c, t, rfl, (lexNumber_iff fin c hc _ _ _).mpr ⟨_, rfl, by simp, numLit_mono (by decide) h, hs, he⟩⟩

/-- -01 is accepted as a number although it is none. -/
theorem c62_refuted : lexNumber .eoi '-' ['0', '1'] = .ok (.num ['-', '0', '1'], []) ∧ ¬ NumLit rfc ['-', '0', '1'] := by
  refine ⟨by decide, ?_⟩
  rintro ⟨neg, int, f, x, ⟨i1, i2, i3⟩, hf, hx, h⟩
  have hx0 : x = [] := by
    rcases hx with rfl | ⟨e, sign, ds, he, _, _, _, rfl⟩
    · rfl
    · have : e ∈ ['-', '0', '1'] := by rw [h]; simp
      rcases he with rfl | rfl <;> simp at this
  have hf0 : f = [] := by
    rcases hf with rfl | ⟨ds, _, _, rfl⟩
    · rfl
    · have : '.' ∈ ['-', '0', '1'] := by rw [h]; simp
      simp at this
  subst hx0 hf0
  cases neg with
  | false =>
    simp at h
    subst h
    exact absurd (i2 '-' (by simp)) (by decide)
  | true =>
    simp at h
    subst h
    rcases i3 rfl with h | ⟨h, _⟩
    · cases h
    · cases h

example : NumLit rfc "-12.50e+3".toList :=
  ⟨true, ['1', '2'], ['.', '5', '0'], ['e', '+', '3'], ⟨by simp, by unfold AllDigits; decide, by simp⟩,
    .inr ⟨['5', '0'], by simp, by unfold AllDigits; decide, rfl⟩,
    .inr ⟨'e', ['+'], ['3'], .inl rfl, .inr (.inl rfl), by simp, by unfold AllDigits; decide, rfl⟩, by decide⟩
example : NumStop "-12.50e+3".toList ",4".toList := by
  intro c hc
  have : c = ',' := by revert hc; decide +revert
  subst this; decide
example : lexNumber .eoi '1' "2,".toList = .ok (.num ['1', '2'], [',']) := by decide
example : lexNumber .eoi '0' "1".toList = .error eInvalidNumber := by decide
example : lexNumber .eoi '1' ".x".toList = .error eInvalidNumber := by decide

/-! ### C61 strings -/

/-- Exactly what the string lexer accepts (t is the text after the opening quote): string literals in which \u0022
does not stand for a quotation mark but ends the string, and in which a low surrogate may precede the high one.
Partial: RFC 8259 (`rfc` instead of `code`) differs in these two points. -/
theorem c61_exact_partial (fin : Err) (t : List Char) (tok : Tok) (rest : List Char) :
    lexString fin t = .ok (tok, rest) ↔ ∃ s v, tok = .str v ∧ StrLit code s v ∧ '"' :: t = s ++ rest :=
  lexString_iff fin t tok rest

/-- Every string literal of RFC 8259 that does not use \u0022 is decoded correctly, and nothing more is consumed. -/
theorem c61_decodes (fin : Err) (s v rest : List Char) (h : StrLit common s v) :
    ∃ t, s = '"' :: t ∧ lexString fin (t ++ rest) = .ok (.str v, rest) := by
  have h' := h
  obtain ⟨b, q, _, _, rfl⟩ := h
  refine ⟨b ++ q, rfl, (lexString_iff _ _ _ _).mpr ⟨_, v, rfl, strLit_mono (by decide) (by decide) (by decide) h', by simp⟩⟩

/-- \u0022 ends the string: the literal "\u0022b" denotes the string `"b`, but the lexer returns the empty string and leaves b". -/
theorem c61_quote_refuted :
    StrLit rfc "\"\\u0022b\"".toList ['"', 'b'] ∧
    lexString .eoi "\\u0022b\"".toList = .ok (.str [], ['b', '"']) := by
  have h22 : Hex4 ['0', '0', '2', '2'] 0x22 :=
    ⟨'0', '0', '2', '2', 0, 0, 2, 2, rfl, .inl rfl, .inl rfl, .inl rfl, .inl rfl, rfl⟩
  constructor
  · refine ⟨"\\u0022b".toList, ['"'], ?_, .inl rfl, by decide⟩
    have hb : StrBody rfc ['b'] ['b'] := .plain 'b' [] [] (by decide) (by decide) (by decide) .nil
    exact StrBody.uni (m := rfc) ['0', '0', '2', '2'] 0x22 ['b'] ['b'] h22 (by unfold IsHigh; omega) (by unfold IsLow; omega) (by decide) hb
  · refine (lexString_iff _ _ _ _).mpr ⟨"\"\\u0022".toList, [], rfl, ⟨[], "\\u0022".toList, .nil, .inr ⟨rfl, _, h22, by decide⟩, by decide⟩, by decide⟩

/-- A pair of surrogates in the wrong order is accepted: "\uDC00\uD800" is read as U+10000. -/
theorem c61_swapped_refuted :
    lexString .eoi "\\uDC00\\uD800\"".toList = .ok (.str [Char.ofNat 0x10000], []) ∧
    ¬ ∃ v, StrLit rfc "\"\\uDC00\\uD800\"".toList v := by
  have hlo : Hex4 ['D', 'C', '0', '0'] 0xDC00 :=
    ⟨'D', 'C', '0', '0', 13, 12, 0, 0, rfl, .inr rfl, .inr rfl, .inl rfl, .inl rfl, rfl⟩
  have hhi : Hex4 ['D', '8', '0', '0'] 0xD800 :=
    ⟨'D', '8', '0', '0', 13, 8, 0, 0, rfl, .inr rfl, .inl rfl, .inl rfl, .inl rfl, rfl⟩
  constructor
  · refine (lexString_iff _ _ _ _).mpr ⟨"\"\\uDC00\\uD800\"".toList, _, rfl, ⟨"\\uDC00\\uD800".toList, ['"'], ?_, .inl rfl, by decide⟩, by decide⟩
    exact StrBody.swapped (m := code) ['D', 'C', '0', '0'] ['D', '8', '0', '0'] 0xDC00 0xD800 [] [] rfl hlo hhi
      ⟨by omega, by omega⟩ ⟨by omega, by omega⟩ .nil
  · rintro ⟨v, body, q, hb, hq, h⟩
    have hq : q = ['"'] := by
      rcases hq with h | ⟨h, _⟩
      · exact h
      · cases h
    subst hq
    have hbody : body = "\\uDC00\\uD800".toList := by
      have := List.append_cancel_right (as := '"' :: "\\uDC00\\uD800".toList) (bs := ['"']) (cs := '"' :: body) (by rw [← h]; decide)
      simpa using this.symm
    have key : ∀ {h' : List Char} {n : Nat} {r : List Char}, Hex4 h' n → "DC00\\uD800".toList = h' ++ r → n = 0xDC00 := by
      intro h' n r hh he
      have h1 := readHex4_of (fin := .eoi) hh r
      rw [← he] at h1
      have h2 := readHex4_of (fin := .eoi) hlo "\\uD800".toList
      have h3 : "DC00\\uD800".toList = ['D', 'C', '0', '0'] ++ "\\uD800".toList := by decide
      rw [h3, h2] at h1
      cases h1; rfl
    have hb' : "\\uDC00\\uD800".toList = '\\' :: 'u' :: "DC00\\uD800".toList := by decide
    rw [hb'] at hbody
    cases hb with
    | nil => cases hbody
    | plain c s v h1 h2 h3 => simp at hbody; exact h3 hbody.1
    | short e c s v h1 =>
      simp at hbody
      rw [hbody.1] at h1
      simp [shortEscapes] at h1
    | uni h' n s v h1 h2 h3 =>
      simp only [List.cons_append, List.cons.injEq, true_and] at hbody
      have := key h1 hbody.symm
      subst this
      exact h3 ⟨by omega, by omega⟩
    | pair a b n1 n2 s v g1 g2 hi lo =>
      simp only [List.cons_append, List.cons.injEq, true_and, List.append_assoc] at hbody
      have := key g1 hbody.symm
      subst this
      unfold IsHigh at hi; omega
    | swapped a b n1 n2 s v hsw => cases hsw

example : StrLit common "\"a\\n\\u00e9\"".toList ['a', '\n', 'é'] := by
  refine ⟨"a\\n\\u00e9".toList, ['"'], ?_, .inl rfl, by decide⟩
  refine .plain 'a' _ _ (by decide) (by decide) (by decide) ?_
  refine .short 'n' '\n' _ _ (by simp [shortEscapes]) ?_
  exact StrBody.uni (m := common) ['0', '0', 'e', '9'] 0xe9 [] []
    ⟨'0', '0', 'e', '9', 0, 0, 14, 9, rfl, .inl rfl, .inl rfl, .inl rfl, .inl rfl, rfl⟩ (by unfold IsHigh; omega) (by unfold IsLow; omega) (by decide) .nil

/-! ### C60 documents -/

/-- Parse returns for every text, however the text ends. -/
theorem c60_terminates (fin : Err) (t : List Char) : ∃ r, parse fin t = some r := by
  obtain ⟨r, h, _⟩ := parse_sound fin t
  exact ⟨r, h⟩

/-- Exactly what Parse accepts, and what it returns: a document in the grammar of RFC 8259 extended by the deviations of
`code`, followed by anything. Partial: it should be `rfc`, and nothing but white space should follow. -/
theorem c60_exact_partial (fin : Err) (t : List Char) (v : JVal) (rest : List Char) :
    parse fin t = some (.ok (v, rest)) ↔ ∃ pre, t = pre ++ rest ∧ IsDoc code pre v := by
  constructor
  · intro h
    obtain ⟨r, h1, h2⟩ := parse_sound fin t
    rw [h] at h1
    cases h1
    exact h2 v rest rfl
  · rintro ⟨pre, rfl, h⟩
    exact parse_complete fin h rest

/-- Every RFC 8259 document (object or array at the top, distinct keys) without \u0022 is accepted with its meaning, and
exactly the document is consumed. -/
theorem c60_accepts (fin : Err) (pre : List Char) (v : JVal) (h : IsDoc common pre v) (rest : List Char) :
    IsDoc rfc pre v ∧ parse fin (pre ++ rest) = some (.ok (v, rest)) :=
  ⟨isDoc_mono common_le_rfc h, parse_complete fin (isDoc_mono common_le_code h) rest⟩

/-- The meaning of a document is unique: no text has two. -/
theorem c60_unique (t : List Char) (v v' : JVal) (h : IsDoc common t v) (h' : IsDoc common t v') : v = v' := by
  have h1 := (c60_accepts .eoi t v h []).2
  have h2 := (c60_accepts .eoi t v' h' []).2
  rw [h1] at h2
  cases h2; rfl

/-- [,] is accepted, and the result contains an invalid value, which no JSON text denotes. -/
theorem c60_junk_refuted : parse .eoi ['[', ',', ']'] = some (.ok (.arr [.invalid], [])) ∧
    ¬ ∃ t, IsDoc rfc t (.arr [.invalid]) := by
  constructor
  · refine (c60_exact_partial _ _ _ _).mpr ⟨_, by simp, [], ['[', ',', ']'], ws_nil, ?_, .inr rfl, rfl⟩
    exact .arr [',', ']'] _ (IsElems.last [] [','] [] .invalid ws_nil (.junk _ rfl (by simp [junkTexts])) ws_nil) (by decide)
  · rintro ⟨t, w, s, _, hs, _, _⟩
    cases hs with
    | arr s vs h _ =>
      cases h with
      | last _ _ _ _ _ hv =>
        cases hv with
        | junk _ h => cases h
      | more _ _ _ _ _ _ _ hv => 
        cases hv with
        | junk _ h => cases h

/-- {"a":1,} is accepted although it is no JSON document. -/
theorem c60_comma_refuted : ∃ v, parse .eoi "{\"a\":1,}".toList = some (.ok (v, [])) ∧ ¬ IsDoc rfc "{\"a\":1,}".toList v := by
  have hdig : AllDigits ['1'] := by unfold AllDigits; decide
  have h1 : ∀ m, IsVal m ['1'] (.num ['1']) := fun m =>
    .num _ ⟨false, ['1'], [], [], ⟨by simp, hdig, by simp⟩, .inl rfl, .inl rfl, by simp⟩
  refine ⟨.obj [(['a'], .num ['1'])], ?_, ?_⟩
  · refine (c60_exact_partial _ _ _ _).mpr ⟨_, by simp, [], "{\"a\":1,}".toList, ws_nil, ?_, .inl (by decide), rfl⟩
    have hk : StrLit code ['"', 'a', '"'] ['a'] := ⟨['a'], ['"'], .plain 'a' [] [] (by decide) (by decide) (by decide) .nil, .inl rfl, by simp⟩
    have := IsMembers.more [] _ _ [] [] _ [] _ _ _ ws_nil hk ws_nil ws_nil (h1 code) ws_nil (IsMembers.empty [] ws_nil) (fun _ => rfl)
    exact .obj _ _ this (by simp)
  · rintro ⟨w, s, hw, hs, hh, heq⟩
    cases hs with
    | obj s kvs h _ =>
      cases h with
      | last w1 k key w2 w3 s w4 v _ _ _ _ hv hw4 =>
        have heq' : "{\"a\":1,".toList ++ ['}'] = (w ++ '{' :: (w1 ++ k ++ w2 ++ ':' :: w3 ++ s ++ w4)) ++ ['}'] := by
          have : "{\"a\":1,}".toList = "{\"a\":1,".toList ++ ['}'] := by decide
          rw [← this, heq]; simp
        have heq := List.append_cancel_right heq'
        have hs1 : s = ['1'] := by cases hv; rfl
        subst hs1
        have hlast := congrArg List.getLast? heq
        have : ("{\"a\":1,".toList).getLast? = some ',' := by decide
        rw [this] at hlast
        have hw4' : w4 = [] ∨ ∃ w' c, w4 = w' ++ [c] := by
          rcases List.eq_nil_or_concat w4 with h | ⟨w', c, h⟩
          · exact .inl h
          · exact .inr ⟨w', c, by simpa using h⟩
        rcases hw4' with rfl | ⟨w', c, rfl⟩
        · have : (w ++ '{' :: (w1 ++ k ++ w2 ++ ':' :: w3 ++ ['1'] ++ [])) = (w ++ '{' :: (w1 ++ k ++ w2 ++ ':' :: w3)) ++ ['1'] := by simp
          rw [this, List.getLast?_append] at hlast
          simp at hlast
        · have : (w ++ '{' :: (w1 ++ k ++ w2 ++ ':' :: w3 ++ ['1'] ++ (w' ++ [c]))) = (w ++ '{' :: (w1 ++ k ++ w2 ++ ':' :: w3 ++ ['1'] ++ w')) ++ [c] := by simp
          rw [this, List.getLast?_append] at hlast
          simp at hlast
          have := hw4 c (by simp)
          rw [← hlast] at this
          exact absurd this (by decide)
      | more w1 k key w2 w3 s w4 v r kvs _ _ _ _ _ _ _ ht => exact absurd (ht rfl) (by decide)

/-- What follows the document is ignored: []x is accepted. -/
theorem c60_trailing_refuted : parse .eoi ['[', ']', 'x'] = some (.ok (.arr [], ['x'])) :=
  (c60_exact_partial _ _ _ _).mpr ⟨['[', ']'], by simp, [], ['[', ']'], ws_nil, .arr0 [] ws_nil, .inr rfl, rfl⟩

example : IsDoc common " [1, null]".toList (.arr [.num ['1'], .null]) := by
  refine ⟨[' '], "[1, null]".toList, by unfold Ws; decide, ?_, .inr (by decide), by decide⟩
  have hdig : AllDigits ['1'] := by unfold AllDigits; decide
  have h1 : IsVal common ['1'] (.num ['1']) := .num _ ⟨false, ['1'], [], [], ⟨by simp, hdig, by simp⟩, .inl rfl, .inl rfl, by simp⟩
  have h2 := IsElems.last (m := common) [' '] _ [] .null (by unfold Ws; decide) .null ws_nil
  exact .arr _ _ (IsElems.more [] _ [] _ _ _ ws_nil h1 ws_nil h2) (by decide)

/-! ### C59 write and parse -/

/-- Parse(Write(v)) = v for every object or array whose strings and keys contain no quotation mark, backslash or control
character, whose numbers are JSON numbers and which contains no invalid value, in every map iteration order (the order of
the entries in the list); Parse consumes exactly what was written.
Partial: it should hold for all strings. -/
theorem c59_roundtrip_partial (fin : Err) (v : JVal) (hd : v.isDocument = true) (h : Clean code v) (rest : List Char) :
    parse fin (written v ++ rest) = some (.ok (v, rest)) :=
  parse_complete fin (written_doc h hd) rest

/-- The text written for such a value (with the numbers of RFC 8259) is a JSON document that denotes it. -/
theorem c59_text_partial (v : JVal) (hd : v.isDocument = true) (h : Clean rfc v) : IsDoc rfc (written v) v :=
  written_doc h hd

/-- Write does not escape strings: the array of the one string `","` is written as ["",""], and read back as two empty strings. -/
theorem c59_refuted : written (.arr [.str ['"', ',', '"']]) = written (.arr [.str [], .str []]) ∧
    parse .eoi (written (.arr [.str ['"', ',', '"']])) = some (.ok (.arr [.str [], .str []], [])) := by
  have e : written (.arr [.str ['"', ',', '"']]) = written (.arr [.str [], .str []]) := by
    simp [written, writeChunks, writeElems]
  refine ⟨e, ?_⟩
  have hc : Clean code (.arr [.str [], .str []]) := by
    refine .arr _ ?_
    intro v hv
    simp at hv
    subst hv
    exact .str [] (by intro c hc; cases hc)
  have := c59_roundtrip_partial .eoi _ rfl hc []
  rw [e]
  simpa using this

example : Clean rfc (.obj [(['a'], .arr [.bool true, .str ['é']])]) := by
  refine .obj _ ?_ ?_ (by simp)
  · intro kv h; simp at h; subst h; unfold PlainStr; decide
  · intro kv h
    simp at h; subst h
    refine .arr _ ?_
    intro v hv
    simp at hv
    rcases hv with rfl | rfl
    · exact .bool true
    · exact .str _ (by unfold PlainStr; decide)

end Micro.Json
