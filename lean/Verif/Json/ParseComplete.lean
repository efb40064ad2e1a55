import Verif.Json.ParseSound
set_option linter.unusedSimpArgs false
namespace Micro.Json
open Micro Micro.Iter

/-- rest starts with white space or a delimiter. -/
def Delim (rest : List Char) : Prop := ∃ c r, rest = c :: r ∧ (isWs c = true ∨ c = ']' ∨ c = ',' ∨ c = '}')

def Follow (s rest : List Char) : Prop := s.head? = some '{' ∨ s.head? = some '[' ∨ Delim rest

theorem delim_ws {w : List Char} (hw : Ws w) {c : Char} (hc : c = ']' ∨ c = ',' ∨ c = '}') (r : List Char) : Delim (w ++ c :: r) := by
  cases w with
  | nil => exact ⟨c, r, rfl, .inr hc⟩
  | cons x w => exact ⟨x, w ++ c :: r, rfl, .inl (hw x (by simp))⟩

theorem delim_props {c : Char} (h : isWs c = true ∨ c = ']' ∨ c = ',' ∨ c = '}') :
    isDigit c = false ∧ c ≠ '.' ∧ c ≠ 'e' ∧ c ≠ 'E' ∧ isLower c = false := by
  have hcases : c = ' ' ∨ c = '\n' ∨ c = '\r' ∨ c = '\t' ∨ c = ']' ∨ c = ',' ∨ c = '}' := by
    unfold isWs at h
    simp at h
    rcases h with ((((h | h) | h) | h) | h | h | h) <;> simp [h]
  rcases hcases with h | h | h | h | h | h | h <;> subst h <;> decide

theorem delim_numStop {s rest : List Char} (h : Delim rest) : NumStop s rest := by
  obtain ⟨c, r, rfl, hc⟩ := h
  have := delim_props hc
  intro d hd
  simp at hd
  subst hd
  refine ⟨this.1, fun h => absurd h this.2.1, ?_⟩
  rintro (h | h)
  · exact absurd h this.2.2.1
  · exact absurd h this.2.2.2.1

theorem delim_noLower {rest : List Char} (h : Delim rest) : NoLower rest := by
  obtain ⟨c, r, rfl, hc⟩ := h
  have := delim_props hc
  intro d hd
  simp at hd
  subst hd
  exact this.2.2.2.2

theorem delim_endOk {fin : Err} {rest : List Char} (h : Delim rest) : EndOk fin rest := by
  obtain ⟨c, r, rfl, hc⟩ := h
  intro h; cases h

theorem lex_of {fin : Err} {w s rest u : List Char} {tok : Tok} (hw : Ws w) (h : TokText fin rest tok s) (hu : u = w ++ s ++ rest) :
    lex fin u = .ok (tok, rest) := (lex_iff _ _ _ _).mpr ⟨w, s, hw, hu, h⟩

theorem follow_delim_of_num {m : Mode} {s rest : List Char} (h : NumLit m s) (hf : Follow s rest) : Delim rest := by
  obtain ⟨c, t, rfl, hc⟩ := numLit_head h
  rcases hf with hf | hf | hf
  · simp at hf; subst hf
    rcases hc with hc | hc
    · cases hc
    · exact absurd hc (by decide)
  · simp at hf; subst hf
    rcases hc with hc | hc
    · cases hc
    · exact absurd hc (by decide)
  · exact hf

/-- The text s is read as the value v, and rest is left. -/
def Reads (fin : Err) (s : List Char) (v : JVal) (rest : List Char) : Prop :=
  ∃ tok s1 t1, s ++ rest = s1 ++ t1 ∧ TokText fin t1 tok s1 ∧ parseValue fin tok t1 = some (.ok (v, rest))

def ReadsElems (fin : Err) (s : List Char) (us vs : List JVal) (rest : List Char) : Prop :=
  ∃ tok w s1 t1 v t2, Ws w ∧ s ++ rest = w ++ s1 ++ t1 ∧ TokText fin t1 tok s1 ∧ parseValue fin tok t1 = some (.ok (v, t2)) ∧
    parseArrRest fin (us ++ [v]) t2 = some (.ok (.arr (us ++ vs), rest))

theorem complete_all (fin : Err) : ∀ n : Nat,
    (∀ s v rest, s.length ≤ n → IsVal code s v → Follow s rest → Reads fin s v rest) ∧
    (∀ s vs us rest, s.length ≤ n → IsElems code s vs → ReadsElems fin s us vs rest) ∧
    (∀ s kvs obj rest, s.length ≤ n → IsMembers code s kvs → ((obj ++ kvs).map Prod.fst).Nodup →
      parseObject fin obj (s ++ rest) = some (.ok (.obj (obj ++ kvs), rest))) := by
  intro n
  induction n with
  | zero =>
    refine ⟨?_, ?_, ?_⟩
    · intro s v rest hn h
      obtain ⟨c, t, rfl, _⟩ := isVal_head h
      simp at hn
    · intro s vs us rest hn h
      cases h with
      | last => simp at hn
      | more => simp at hn
    · intro s kvs obj rest hn h
      cases h with
      | empty => simp at hn
      | last => simp at hn
      | more => simp at hn
  | succ n ih =>
    obtain ⟨ihV, ihE, ihM⟩ := ih
    have hval : ∀ s v rest, s.length ≤ n + 1 → IsVal code s v → Follow s rest → Reads fin s v rest := by
      intro s v rest hn h hf
      cases h with
      | null =>
        have hd : Delim rest := by simpa [Follow] using hf
        exact ⟨.null, _, rest, rfl, .null (delim_noLower hd) (delim_endOk hd), by rw [parseValue.eq_def]⟩
      | true =>
        have hd : Delim rest := by simpa [Follow] using hf
        exact ⟨.bool Bool.true, _, rest, rfl, .tru (delim_noLower hd) (delim_endOk hd), by rw [parseValue.eq_def]⟩
      | false =>
        have hd : Delim rest := by simpa [Follow] using hf
        exact ⟨.bool Bool.false, _, rest, rfl, .fals (delim_noLower hd) (delim_endOk hd), by rw [parseValue.eq_def]⟩
      | num s h =>
        have hd : Delim rest := follow_delim_of_num h hf
        exact ⟨.num s, s, rest, rfl, .num s h (delim_numStop hd) (delim_endOk hd), by rw [parseValue.eq_def]⟩
      | str s v h => exact ⟨.str v, s, rest, rfl, .str s v h, by rw [parseValue.eq_def]⟩
      | junk s _ h =>
        simp [junkTexts] at h
        rcases h with rfl | rfl | rfl | rfl
        · exact ⟨.cBracket, _, rest, rfl, .cBracket, by rw [parseValue.eq_def]⟩
        · exact ⟨.cBrace, _, rest, rfl, .cBrace, by rw [parseValue.eq_def]⟩
        · exact ⟨.comma, _, rest, rfl, .comma, by rw [parseValue.eq_def]⟩
        · exact ⟨.colon, _, rest, rfl, .colon, by rw [parseValue.eq_def]⟩
      | arr0 w hw =>
        refine ⟨.oBracket, ['['], w ++ [']'] ++ rest, by simp, .oBracket, ?_⟩
        rw [parseValue.eq_def]
        simp only
        rw [parseArrFirst.eq_def, lex_of (fin := fin) hw (.cBracket (rest := rest)) rfl]
        simp
      | arr s vs h hhead =>
        refine ⟨.oBracket, ['['], s ++ rest, by simp, .oBracket, ?_⟩
        rw [parseValue.eq_def]
        simp only
        obtain ⟨tok, w, s1, t1, v, t2, hw, heq, htok, hv, hr⟩ := ihE s vs [] rest (by simp at hn; omega) h
        rw [parseArrFirst.eq_def, lex_of (fin := fin) hw htok heq]
        simp only
        rw [if_neg, hv]
        · simpa using hr
        · rintro rfl
          cases htok
          apply hhead
          have hne : s ≠ [] := by cases h <;> simp
          have hnw : ∃ w0 c s0, s = w0 ++ c :: s0 ∧ Ws w0 ∧ isWs c = Bool.false := by
            cases h with
            | last w1 s w2 v hw1 hs =>
              obtain ⟨c, t, rfl, hc⟩ := isVal_head hs
              exact ⟨w1, c, t ++ w2 ++ [']'], by simp, hw1, hc⟩
            | more w1 s w2 v r vs hw1 hs =>
              obtain ⟨c, t, rfl, hc⟩ := isVal_head hs
              exact ⟨w1, c, t ++ w2 ++ ',' :: r, by simp, hw1, hc⟩
          obtain ⟨w0, c, s0, rfl, hw0, hc⟩ := hnw
          have e1 : ((w0 ++ c :: s0) ++ rest).dropWhile isWs = c :: (s0 ++ rest) := by
            rw [List.append_assoc]; exact dropWs hw0 rfl hc
          have e2 : (w ++ [']'] ++ t1).dropWhile isWs = ']' :: t1 := by
            rw [List.append_assoc]; exact dropWs hw rfl (by decide)
          rw [heq, e2] at e1
          have : (']' : Char) = c := by simp at e1; exact e1.1
          subst this
          rw [dropWs hw0 rfl hc]
          rfl
      | obj s kvs h hnd =>
        refine ⟨.oBrace, ['{'], s ++ rest, by simp, .oBrace, ?_⟩
        rw [parseValue.eq_def]
        simp only
        have := ihM s kvs [] rest (by simp at hn; omega) h (by simpa using hnd)
        simpa using this
    -- one member up to the value
    have hmember : ∀ (obj : List (List Char × JVal)) (w1 k key w2 w3 s w4 : List Char) (v : JVal) (d : Char) (tail : List Char) (res : PRes),
        Ws w1 → StrLit code k key → Ws w2 → Ws w3 → IsVal code s v → s.length ≤ n → Ws w4 → (d = ',' ∨ d = '}') →
        key ∉ obj.map Prod.fst →
        (d = ',' → parseObject fin (obj ++ [(key, v)]) tail = res) → (d = '}' → some (.ok (.obj (obj ++ [(key, v)]), tail)) = res) →
        parseObject fin obj (w1 ++ k ++ w2 ++ ':' :: w3 ++ s ++ w4 ++ d :: tail) = res := by
      intro obj w1 k key w2 w3 s w4 v d tail res h1 hk h2 h3 hs hn h4 hd hmem hc1 hc2
      obtain ⟨tok, s1, t1, heq, htok, hpv⟩ := ihV s v (w4 ++ d :: tail) hn hs
        (.inr (.inr (delim_ws h4 (by rcases hd with rfl | rfl <;> simp) tail)))
      rw [parseObject.eq_def]
      rw [lex_of (fin := fin) (rest := w2 ++ ':' :: w3 ++ s ++ w4 ++ d :: tail) h1 (.str k key hk) (by simp)]
      simp only
      rw [if_neg hmem]
      rw [lex_of (fin := fin) (rest := w3 ++ s ++ w4 ++ d :: tail) h2 .colon (by simp)]
      simp only
      rw [lex_of (fin := fin) (rest := t1) h3 htok (by rw [List.append_assoc w3 s1 t1, ← heq]; simp)]
      simp only
      rw [hpv]
      simp only [Option.bind_eq_bind, Option.bind_some]
      rcases hd with rfl | rfl
      · rw [lex_of (fin := fin) (rest := tail) h4 .comma (by simp)]
        exact hc1 rfl
      · rw [lex_of (fin := fin) (rest := tail) h4 .cBrace (by simp)]
        exact hc2 rfl
    refine ⟨hval, ?_, ?_⟩
    · intro s vs us rest hn h
      cases h with
      | last w1 s w2 v h1 hs h2 =>
        simp at hn
        obtain ⟨tok, s1, t1, heq, htok, hpv⟩ := ihV s v (w2 ++ [']'] ++ rest) (by omega) hs
          (.inr (.inr (by simpa using delim_ws h2 (.inl rfl) rest)))
        refine ⟨tok, w1, s1, t1, v, _, h1, ?_, htok, hpv, ?_⟩
        · rw [List.append_assoc w1 s1 t1, ← heq]; simp
        · rw [parseArrRest.eq_def, lex_of (fin := fin) (rest := rest) h2 .cBracket rfl]
      | more w1 s w2 v r vs h1 hs h2 hr =>
        simp at hn
        obtain ⟨tok, s1, t1, heq, htok, hpv⟩ := ihV s v (w2 ++ ',' :: r ++ rest) (by omega) hs
          (.inr (.inr (by simpa using delim_ws h2 (.inr (.inl rfl)) (r ++ rest))))
        refine ⟨tok, w1, s1, t1, v, _, h1, ?_, htok, hpv, ?_⟩
        · rw [List.append_assoc w1 s1 t1, ← heq]; simp
        · obtain ⟨tok', w', s1', t1', v', t2', hw', heq', htok', hv', hr'⟩ := ihE r vs (us ++ [v]) rest (by omega) hr
          rw [parseArrRest.eq_def, lex_of (fin := fin) (rest := r ++ rest) h2 .comma (by simp)]
          simp only
          rw [lex_of (fin := fin) (rest := t1') hw' htok' heq']
          simp only
          rw [hv']
          simpa using hr'
    · intro s kvs obj rest hn h hnd
      cases h with
      | empty w hw =>
        rw [parseObject.eq_def, lex_of (fin := fin) (rest := rest) hw .cBrace (by simp)]
        simp
      | last w1 k key w2 w3 s w4 v h1 hk h2 h3 hs h4 =>
        simp at hn
        have hmem : key ∉ obj.map Prod.fst := by
          rw [List.map_append, List.nodup_append] at hnd
          intro h
          exact hnd.2.2 key h key (by simp) rfl
        have := hmember obj w1 k key w2 w3 s w4 v '}' rest (some (.ok (.obj (obj ++ [(key, v)]), rest))) h1 hk h2 h3 hs (by omega) h4 (.inr rfl) hmem
          (fun h => absurd h (by decide)) (fun _ => rfl)
        simpa using this
      | more w1 k key w2 w3 s w4 v r kvs h1 hk h2 h3 hs h4 hr _ =>
        simp at hn
        have hmem : key ∉ obj.map Prod.fst := by
          rw [List.map_append, List.nodup_append] at hnd
          intro h
          exact hnd.2.2 key h key (by simp) rfl
        have := hmember obj w1 k key w2 w3 s w4 v ',' (r ++ rest) (some (.ok (.obj (obj ++ (key, v) :: kvs), rest))) h1 hk h2 h3 hs (by omega) h4 (.inl rfl) hmem
          (fun _ => by
            have := ihM r kvs (obj ++ [(key, v)]) rest (by omega) hr (by simpa using hnd)
            simpa using this) (fun h => absurd h (by decide))
        simpa using this

theorem parse_complete (fin : Err) {pre : List Char} {v : JVal} (h : IsDoc code pre v) (rest : List Char) :
    parse fin (pre ++ rest) = some (.ok (v, rest)) := by
  obtain ⟨w, s, hw, hs, hhead, rfl⟩ := h
  have hf : Follow s rest := by rcases hhead with h | h; exact .inl h; exact .inr (.inl h)
  obtain ⟨tok, s1, t1, heq, htok, hv⟩ := (complete_all fin s.length).1 s v rest (Nat.le_refl _) hs hf
  unfold parse
  rw [lex_of (fin := fin) (rest := t1) hw htok (by rw [List.append_assoc, heq]; simp)]
  simp only
  rw [if_pos, hv]
  obtain ⟨c, p, rfl, _⟩ := isVal_head hs
  simp at hhead
  cases htok with
  | oBracket => simp
  | oBrace => simp
  | str s1 v' hs' =>
    obtain ⟨b, q, _, _, rfl⟩ := hs'
    simp at heq
    rcases hhead with rfl | rfl <;> exact absurd heq.1 (by decide)
  | num s1 hn =>
    obtain ⟨c', t', rfl, hc⟩ := numLit_head hn
    simp at heq
    rw [← heq.1] at hc
    rcases hhead with rfl | rfl <;> (rcases hc with hc | hc <;> exact absurd hc (by decide))
  | cBracket => simp at heq; rcases hhead with rfl | rfl <;> exact absurd heq.1 (by decide)
  | cBrace => simp at heq; rcases hhead with rfl | rfl <;> exact absurd heq.1 (by decide)
  | comma => simp at heq; rcases hhead with rfl | rfl <;> exact absurd heq.1 (by decide)
  | colon => simp at heq; rcases hhead with rfl | rfl <;> exact absurd heq.1 (by decide)
  | tru => simp at heq; rcases hhead with rfl | rfl <;> exact absurd heq.1 (by decide)
  | fals => simp at heq; rcases hhead with rfl | rfl <;> exact absurd heq.1 (by decide)
  | null => simp at heq; rcases hhead with rfl | rfl <;> exact absurd heq.1 (by decide)

/-- A mode that allows at least as much. -/
structure Mode.Le (m m' : Mode) : Prop where
  qe : m.quoteEscape = true → m'.quoteEscape = true
  qc : m.quoteCloses = true → m'.quoteCloses = true
  sw : m.swapped = true → m'.swapped = true
  mz : m.minusZero = true → m'.minusZero = true
  jk : m.junk = true → m'.junk = true
  tc : m.trailingComma = true → m'.trailingComma = true

theorem mono_all {m m' : Mode} (hm : m.Le m') : ∀ n : Nat,
    (∀ s v, s.length ≤ n → IsVal m s v → IsVal m' s v) ∧ (∀ s vs, s.length ≤ n → IsElems m s vs → IsElems m' s vs) ∧
    (∀ s kvs, s.length ≤ n → IsMembers m s kvs → IsMembers m' s kvs) := by
  intro n
  induction n with
  | zero =>
    refine ⟨?_, ?_, ?_⟩
    · intro s v hn h
      obtain ⟨c, t, rfl, _⟩ := isVal_head h
      simp at hn
    · intro s vs hn h
      cases h with
      | last => simp at hn
      | more => simp at hn
    · intro s kvs hn h
      cases h with
      | empty => simp at hn
      | last => simp at hn
      | more => simp at hn
  | succ n ih =>
    obtain ⟨ihV, ihE, ihM⟩ := ih
    have str : ∀ {s v : List Char}, StrLit m s v → StrLit m' s v := strLit_mono hm.qe hm.sw hm.qc
    refine ⟨?_, ?_, ?_⟩
    · intro s v hn h
      cases h with
      | null => exact .null
      | true => exact .true
      | false => exact .false
      | num s h => exact .num s (numLit_mono hm.mz h)
      | str s v h => exact .str s v (str h)
      | arr0 w hw => exact .arr0 w hw
      | arr s vs h hh => exact .arr s vs (ihE s vs (by simp at hn; omega) h) hh
      | obj s kvs h hh => exact .obj s kvs (ihM s kvs (by simp at hn; omega) h) hh
      | junk s h hh => exact .junk s (hm.jk h) hh
    · intro s vs hn h
      cases h with
      | last w1 s w2 v h1 hs h2 => simp at hn; exact .last w1 s w2 v h1 (ihV s v (by omega) hs) h2
      | more w1 s w2 v r vs h1 hs h2 hr => simp at hn; exact .more w1 s w2 v r vs h1 (ihV s v (by omega) hs) h2 (ihE r vs (by omega) hr)
    · intro s kvs hn h
      cases h with
      | empty w hw => exact .empty w hw
      | last w1 k key w2 w3 s w4 v h1 hk h2 h3 hs h4 =>
        simp at hn
        exact .last w1 k key w2 w3 s w4 v h1 (str hk) h2 h3 (ihV s v (by omega) hs) h4
      | more w1 k key w2 w3 s w4 v r kvs h1 hk h2 h3 hs h4 hr ht =>
        simp at hn
        exact .more w1 k key w2 w3 s w4 v r kvs h1 (str hk) h2 h3 (ihV s v (by omega) hs) h4 (ihM r kvs (by omega) hr) (fun h => hm.tc (ht h))

theorem isDoc_mono {m m' : Mode} (hm : m.Le m') {t : List Char} {v : JVal} (h : IsDoc m t v) : IsDoc m' t v := by
  obtain ⟨w, s, hw, hs, hh, rfl⟩ := h
  exact ⟨w, s, hw, (mono_all hm s.length).1 s v (Nat.le_refl _) hs, hh, rfl⟩

theorem common_le_rfc : common.Le rfc := ⟨by decide, by decide, by decide, by decide, by decide, by decide⟩
theorem common_le_code : common.Le code := ⟨by decide, by decide, by decide, by decide, by decide, by decide⟩

end Micro.Json
