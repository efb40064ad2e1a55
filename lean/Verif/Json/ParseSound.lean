import Verif.Json.LexLemmas
set_option linter.unusedSimpArgs false
namespace Micro.Json
open Micro Micro.Iter

theorem isVal_head {m : Mode} {s : List Char} {v : JVal} (h : IsVal m s v) : ∃ c t, s = c :: t ∧ isWs c = false := by
  cases h with
  | null => exact ⟨_, _, rfl, by decide⟩
  | true => exact ⟨_, _, rfl, by decide⟩
  | false => exact ⟨_, _, rfl, by decide⟩
  | num s hn =>
    obtain ⟨c, t, h, hc⟩ := numLit_head hn
    refine ⟨c, t, h, ?_⟩
    rcases hc with rfl | hc
    · decide
    · unfold isWs
      have h1 := digit_ne hc (d := ' ') (by decide)
      have h2 := digit_ne hc (d := '\n') (by decide)
      have h3 := digit_ne hc (d := '\r') (by decide)
      have h4 := digit_ne hc (d := '\t') (by decide)
      simp [h1, h2, h3, h4]
  | str s v hs =>
    obtain ⟨b, q, _, _, rfl⟩ := hs
    exact ⟨'"', b ++ q, rfl, by decide⟩
  | arr0 w => exact ⟨_, _, rfl, by decide⟩
  | arr s vs => exact ⟨_, _, rfl, by decide⟩
  | obj s kvs => exact ⟨_, _, rfl, by decide⟩
  | junk s _ h =>
    simp [junkTexts] at h
    rcases h with rfl | rfl | rfl | rfl <;> exact ⟨_, _, rfl, by decide⟩

/-- What follows an element of an array. -/
inductive ElemsTail (m : Mode) : List Char → List JVal → Prop
  | close (w) : Ws w → ElemsTail m (w ++ [']']) []
  | more (w r vs) : Ws w → IsElems m r vs → ElemsTail m (w ++ ',' :: r) vs

theorem isElems_iff_tail {m : Mode} {w s r : List Char} {v : JVal} {vs : List JVal} (hw : Ws w) (hs : IsVal m s v)
    (h : ElemsTail m r vs) : IsElems m (w ++ s ++ r) (v :: vs) := by
  cases h with
  | close w2 h2 =>
    have := IsElems.last (m := m) w s w2 v hw hs h2
    simpa using this
  | more w2 r vs h2 hr =>
    have := IsElems.more (m := m) w s w2 v r vs hw hs h2 hr
    simpa using this

def SoundValue (fin : Err) (tok : Tok) (s t : List Char) : Prop :=
  ∃ r, parseValue fin tok t = some r ∧ ∀ v rest, r = .ok (v, rest) → rest.length ≤ t.length ∧ ∃ pre, s ++ t = pre ++ rest ∧ IsVal code pre v

def SoundObject (fin : Err) (obj : List (List Char × JVal)) (t : List Char) : Prop :=
  ∃ r, parseObject fin obj t = some r ∧ ∀ v rest, r = .ok (v, rest) → rest.length ≤ t.length ∧
    ∃ pre kvs, t = pre ++ rest ∧ IsMembers code pre kvs ∧ v = .obj (obj ++ kvs) ∧
      ((obj.map Prod.fst).Nodup → ((obj ++ kvs).map Prod.fst).Nodup)

def SoundFirst (fin : Err) (t : List Char) : Prop :=
  ∃ r, parseArrFirst fin t = some r ∧ ∀ v rest, r = .ok (v, rest) → rest.length ≤ t.length ∧
    ∃ pre, t = pre ++ rest ∧ IsVal code ('[' :: pre) v

def SoundRest (fin : Err) (vs : List JVal) (t : List Char) : Prop :=
  ∃ r, parseArrRest fin vs t = some r ∧ ∀ v rest, r = .ok (v, rest) → rest.length ≤ t.length ∧
    ∃ pre us, t = pre ++ rest ∧ ElemsTail code pre us ∧ v = .arr (vs ++ us)

theorem soundValue {fin : Err} {tok : Tok} {s t : List Char} (ht : TokText fin t tok s) (ho : SoundObject fin [] t)
    (ha : SoundFirst fin t) : SoundValue fin tok s t := by
  unfold SoundValue
  rw [parseValue.eq_def]
  cases ht with
  | oBracket =>
    obtain ⟨r, h1, h2⟩ := ha
    refine ⟨r, h1, fun v rest hr => ?_⟩
    obtain ⟨h3, pre, rfl, h4⟩ := h2 v rest hr
    exact ⟨h3, '[' :: pre, by simp, h4⟩
  | oBrace =>
    obtain ⟨r, h1, h2⟩ := ho
    refine ⟨r, h1, fun v rest hr => ?_⟩
    obtain ⟨h3, pre, kvs, rfl, h4, rfl, h5⟩ := h2 v rest hr
    exact ⟨h3, '{' :: pre, by simp, .obj pre _ h4 (h5 (by simp))⟩
  | cBracket =>
    refine ⟨_, rfl, fun v rest hr => ?_⟩
    cases hr; exact ⟨Nat.le_refl _, _, rfl, .junk _ rfl (by simp [junkTexts])⟩
  | cBrace =>
    refine ⟨_, rfl, fun v rest hr => ?_⟩
    cases hr; exact ⟨Nat.le_refl _, _, rfl, .junk _ rfl (by simp [junkTexts])⟩
  | comma =>
    refine ⟨_, rfl, fun v rest hr => ?_⟩
    cases hr; exact ⟨Nat.le_refl _, _, rfl, .junk _ rfl (by simp [junkTexts])⟩
  | colon =>
    refine ⟨_, rfl, fun v rest hr => ?_⟩
    cases hr; exact ⟨Nat.le_refl _, _, rfl, .junk _ rfl (by simp [junkTexts])⟩
  | str s v h =>
    refine ⟨_, rfl, fun v rest hr => ?_⟩
    cases hr; exact ⟨Nat.le_refl _, _, rfl, .str _ _ h⟩
  | num s h _ _ =>
    refine ⟨_, rfl, fun v rest hr => ?_⟩
    cases hr; exact ⟨Nat.le_refl _, _, rfl, .num _ h⟩
  | tru =>
    refine ⟨_, rfl, fun v rest hr => ?_⟩
    cases hr; exact ⟨Nat.le_refl _, _, rfl, .true⟩
  | fals =>
    refine ⟨_, rfl, fun v rest hr => ?_⟩
    cases hr; exact ⟨Nat.le_refl _, _, rfl, .false⟩
  | null =>
    refine ⟨_, rfl, fun v rest hr => ?_⟩
    cases hr; exact ⟨Nat.le_refl _, _, rfl, .null⟩

theorem head_ne_of {fin : Err} {tok : Tok} {s t pre rest w : List Char} {v : JVal} (ht : TokText fin t tok s) (hne : tok ≠ .cBracket)
    (h : s ++ t = pre ++ rest) (hv : IsVal code pre v) (hw : Ws w) (u : List Char) :
    ((w ++ pre ++ u).dropWhile isWs).head? ≠ some ']' := by
  obtain ⟨c, p, rfl, hc⟩ := isVal_head hv
  have hd := dropWs hw (s := c :: p ++ u) (c := c) (t := p ++ u) rfl hc
  rw [List.append_assoc, hd]
  simp only [List.head?_cons, ne_eq, Option.some.injEq]
  rintro rfl
  cases ht with
  | cBracket => exact hne rfl
  | str s v hs =>
    obtain ⟨b, q, _, _, rfl⟩ := hs
    simp at h
  | num s hn =>
    obtain ⟨c, t, rfl, hc⟩ := numLit_head hn
    simp at h
    rcases hc with rfl | hc
    · exact absurd h.1 (by decide)
    · rw [h.1] at hc; exact absurd hc (by decide)
  | oBracket => simp at h
  | oBrace => simp at h
  | cBrace => simp at h
  | comma => simp at h
  | colon => simp at h
  | tru => simp at h
  | fals => simp at h
  | null => simp at h

theorem sound_all (fin : Err) : ∀ n : Nat,
    (∀ obj t, t.length ≤ n → SoundObject fin obj t) ∧ (∀ t, t.length ≤ n → SoundFirst fin t) ∧
    (∀ vs t, t.length ≤ n → SoundRest fin vs t) := by
  have err : ∀ {e : Err} {P : JVal → List Char → Prop}, ∃ r, some (Except.error (α := JVal × List Char) e) = some r ∧
      ∀ v rest, r = .ok (v, rest) → P v rest := by
    intro e P; exact ⟨_, rfl, fun v rest h => by cases h⟩
  intro n
  induction n with
  | zero =>
    have hnil : lex fin [] = .error fin := rfl
    refine ⟨?_, ?_, ?_⟩
    · intro obj t ht
      have : t = [] := List.length_eq_zero_iff.mp (by omega)
      subst this
      unfold SoundObject
      rw [parseObject.eq_def, hnil]
      exact err
    · intro t ht
      have : t = [] := List.length_eq_zero_iff.mp (by omega)
      subst this
      unfold SoundFirst
      rw [parseArrFirst.eq_def, hnil]
      exact err
    · intro obj t ht
      have : t = [] := List.length_eq_zero_iff.mp (by omega)
      subst this
      unfold SoundRest
      rw [parseArrRest.eq_def, hnil]
      exact err
  | succ n ih =>
    obtain ⟨ihO, ihF, ihR⟩ := ih
    have val : ∀ tok s t, t.length ≤ n → TokText fin t tok s → SoundValue fin tok s t :=
      fun tok s t ht hs => soundValue hs (ihO [] t ht) (ihF t ht)
    refine ⟨?_, ?_, ?_⟩
    · intro obj t ht
      unfold SoundObject
      rw [parseObject.eq_def]
      cases hl : lex fin t with
      | error e => exact err
      | ok p =>
        obtain ⟨tok, t1⟩ := p
        have hlen := lex_length hl
        rw [lex_iff] at hl
        obtain ⟨w1, s1, hw1, rfl, htok⟩ := hl
        cases htok with
        | cBrace =>
          refine ⟨_, rfl, fun v rest hr => ?_⟩
          cases hr
          exact ⟨by omega, w1 ++ ['}'], [], by simp, .empty w1 hw1, by simp, by simp⟩
        | str s1 k hk =>
          simp only
          by_cases hmem : k ∈ obj.map Prod.fst
          · rw [if_pos hmem]; exact err
          rw [if_neg hmem]
          cases hl : lex fin t1 with
          | error e => exact err
          | ok p =>
            obtain ⟨tok, t2⟩ := p
            have hlen2 := lex_length hl
            rw [lex_iff] at hl
            obtain ⟨w2, s2, hw2, rfl, htok⟩ := hl
            cases htok with
            | colon =>
              simp only
              cases hl : lex fin t2 with
              | error e => exact err
              | ok p =>
                obtain ⟨tok, t3⟩ := p
                have hlen3 := lex_length hl
                rw [lex_iff] at hl
                obtain ⟨w3, s3, hw3, rfl, htok3⟩ := hl
                simp only
                obtain ⟨r, hr, hval⟩ := val tok s3 t3 (by omega) htok3
                rw [hr]
                simp only [Option.bind_eq_bind, Option.bind_some]
                cases r with
                | error e => exact err
                | ok q =>
                  obtain ⟨v, t4⟩ := q
                  obtain ⟨hlen4, pre, hpre, hv⟩ := hval v t4 rfl
                  simp only
                  have hmid : w3 ++ s3 ++ t3 = w3 ++ pre ++ t4 := by
                    rw [List.append_assoc, hpre, ← List.append_assoc]
                  rw [hmid]
                  cases hl : lex fin t4 with
                  | error e => exact err
                  | ok p =>
                    obtain ⟨tok, t5⟩ := p
                    have hlen5 := lex_length hl
                    rw [lex_iff] at hl
                    obtain ⟨w4, s4, hw4, rfl, htok⟩ := hl
                    cases htok with
                    | comma =>
                      simp only
                      obtain ⟨r, hr, hobj⟩ := ihO (obj ++ [(k, v)]) t5 (by omega)
                      refine ⟨r, hr, fun v' rest hr' => ?_⟩
                      obtain ⟨hlen6, pre', kvs, rfl, hmem', rfl, hnd⟩ := hobj v' rest hr'
                      refine ⟨by simp at hlen hlen2 hlen3 hlen4 hlen5 hlen6 ⊢; omega, _, (k, v) :: kvs, ?_, .more w1 s1 k w2 w3 pre w4 v pre' kvs hw1 hk hw2 hw3 hv hw4 hmem' (fun _ => rfl), by simp, ?_⟩
                      · simp
                      · intro h
                        have := hnd (by
                          rw [List.map_append, List.nodup_append]
                          refine ⟨h, by simp, ?_⟩
                          intro a ha b hb
                          simp at hb
                          subst hb
                          rintro rfl
                          exact hmem ha)
                        simpa using this
                    | cBrace =>
                      refine ⟨_, rfl, fun v' rest hr' => ?_⟩
                      cases hr'
                      refine ⟨by simp at hlen hlen2 hlen3 hlen4 hlen5 ⊢; omega, _, [(k, v)], ?_, .last w1 s1 k w2 w3 pre w4 v hw1 hk hw2 hw3 hv hw4, by simp, ?_⟩
                      · simp
                      · intro h
                        rw [List.map_append, List.nodup_append]
                        refine ⟨h, by simp, ?_⟩
                        intro a ha b hb
                        simp at hb
                        subst hb
                        rintro rfl
                        exact hmem ha
                    | _ => exact err
            | _ => exact err
        | _ => exact err
    · intro t ht
      unfold SoundFirst
      rw [parseArrFirst.eq_def]
      cases hl : lex fin t with
      | error e => exact err
      | ok p =>
        obtain ⟨tok, t1⟩ := p
        have hlen := lex_length hl
        rw [lex_iff] at hl
        obtain ⟨w1, s1, hw1, rfl, htok⟩ := hl
        simp only
        by_cases hb : tok = .cBracket
        · rw [if_pos hb]
          subst hb
          cases htok
          refine ⟨_, rfl, fun v rest hr => ?_⟩
          cases hr
          exact ⟨by omega, w1 ++ [']'], by simp, .arr0 w1 hw1⟩
        rw [if_neg hb]
        obtain ⟨r, hr, hval⟩ := val tok s1 t1 (by omega) htok
        rw [hr]
        simp only [Option.bind_eq_bind, Option.bind_some]
        cases r with
        | error e => exact err
        | ok q =>
          obtain ⟨v, t2⟩ := q
          obtain ⟨hlen2, pre, hpre, hv⟩ := hval v t2 rfl
          simp only
          obtain ⟨r, hr, hrest⟩ := ihR [v] t2 (by omega)
          refine ⟨r, hr, fun v' rest hr' => ?_⟩
          obtain ⟨hlen3, pre', us, rfl, htail, rfl⟩ := hrest v' rest hr'
          refine ⟨by omega, w1 ++ pre ++ pre', ?_, .arr _ _ (isElems_iff_tail hw1 hv htail) (head_ne_of htok hb hpre hv hw1 _)⟩
          rw [List.append_assoc, hpre]; simp
    · intro vs t ht
      unfold SoundRest
      rw [parseArrRest.eq_def]
      cases hl : lex fin t with
      | error e => exact err
      | ok p =>
        obtain ⟨tok, t1⟩ := p
        have hlen := lex_length hl
        rw [lex_iff] at hl
        obtain ⟨w1, s1, hw1, rfl, htok⟩ := hl
        cases htok with
        | comma =>
          simp only
          cases hl : lex fin t1 with
          | error e => exact err
          | ok p =>
            obtain ⟨tok, t2⟩ := p
            have hlen2 := lex_length hl
            rw [lex_iff] at hl
            obtain ⟨w2, s2, hw2, rfl, htok2⟩ := hl
            simp only
            obtain ⟨r, hr, hval⟩ := val tok s2 t2 (by omega) htok2
            rw [hr]
            simp only [Option.bind_eq_bind, Option.bind_some]
            cases r with
            | error e => exact err
            | ok q =>
              obtain ⟨v, t3⟩ := q
              obtain ⟨hlen3, pre, hpre, hv⟩ := hval v t3 rfl
              simp only
              obtain ⟨r, hr, hrest⟩ := ihR (vs ++ [v]) t3 (by omega)
              refine ⟨r, hr, fun v' rest hr' => ?_⟩
              obtain ⟨hlen4, pre', us, rfl, htail, rfl⟩ := hrest v' rest hr'
              refine ⟨by omega, w1 ++ ',' :: (w2 ++ pre ++ pre'), v :: us, ?_, .more w1 _ _ hw1 (isElems_iff_tail hw2 hv htail), by simp⟩
              have : w2 ++ s2 ++ t2 = w2 ++ pre ++ pre' ++ rest := by
                rw [List.append_assoc, hpre]; simp
              rw [this]; simp
        | cBracket =>
          refine ⟨_, rfl, fun v rest hr => ?_⟩
          cases hr
          exact ⟨by omega, w1 ++ [']'], [], by simp, .close w1 hw1, by simp⟩
        | _ => exact err

theorem soundObject (fin : Err) (obj t) : SoundObject fin obj t := (sound_all fin t.length).1 obj t (Nat.le_refl _)
theorem soundFirst (fin : Err) (t) : SoundFirst fin t := (sound_all fin t.length).2.1 t (Nat.le_refl _)
theorem soundRest (fin : Err) (vs t) : SoundRest fin vs t := (sound_all fin t.length).2.2 vs t (Nat.le_refl _)
theorem soundVal {fin : Err} {tok : Tok} {s t : List Char} (ht : TokText fin t tok s) : SoundValue fin tok s t :=
  soundValue ht (soundObject fin [] t) (soundFirst fin t)

theorem tok_of_lex {fin : Err} {t rest : List Char} {tok : Tok} (h : lex fin t = .ok (tok, rest)) :
    ∃ w s, Ws w ∧ t = w ++ s ++ rest ∧ TokText fin rest tok s := (lex_iff _ _ _ _).mp h

/-- The parser returns, and what it accepts is a document. -/
theorem parse_sound (fin : Err) (t : List Char) :
    ∃ r, parse fin t = some r ∧ ∀ v rest, r = .ok (v, rest) → ∃ pre, t = pre ++ rest ∧ IsDoc code pre v := by
  unfold parse
  cases hl : lex fin t with
  | error e => exact ⟨_, rfl, fun v rest h => by cases h⟩
  | ok p =>
    obtain ⟨tok, t1⟩ := p
    simp only
    obtain ⟨w, s, hw, rfl, htok⟩ := tok_of_lex hl
    by_cases hb : tok = .oBrace ∨ tok = .oBracket
    · rw [if_pos hb]
      obtain ⟨r, hr, hval⟩ := soundVal htok
      refine ⟨r, hr, fun v rest h => ?_⟩
      obtain ⟨_, pre, hpre, hv⟩ := hval v rest h
      refine ⟨w ++ pre, by rw [List.append_assoc, hpre]; simp, w, pre, hw, hv, ?_, rfl⟩
      obtain ⟨c, p, rfl, _⟩ := isVal_head hv
      rcases hb with rfl | rfl <;> cases htok
      · simp at hpre; left; simp [← hpre.1]
      · simp at hpre; right; simp [← hpre.1]
    · rw [if_neg hb]; exact ⟨_, rfl, fun v rest h => by cases h⟩

end Micro.Json
