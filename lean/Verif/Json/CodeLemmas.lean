import Verif.Json.CodeLex
import Verif.Json.IterLemmas
import Verif.Json.AccProps
/-
The parser on an iterator of tokens (Verif/Json/CodeModel.lean) returns what the parser on the text (Verif/Json/Model.lean) returns.
-/
set_option linter.unusedSimpArgs false
namespace Micro.Json
open Micro Micro.Iter Micro.Stream

section
variable {ι : Type} {nx : Call ι Nat} {un : ι → Nat → ι} {kn : Prop} {fin : Err} {R : ι → List Nat → Prop}

/-- The iterator of tokens has still to deliver the tokens put back, and then those of the text `t`. -/
def TokAt (R : ι → List Nat → Prop) (it : It ι Tok) (toks : List Tok) (t : List Char) : Prop :=
  it.buffer = toks.reverse ∧ ∃ i rs, it.fn = some i ∧ R i rs ∧ rs.map ch = t

theorem next_tok {it : It ι Tok} {tok : Tok} {toks : List Tok} {t : List Char} (lx : Call ι Tok) (h : TokAt R it (tok :: toks) t) :
    ∃ it', It.next lx it = some (.ok tok, it') ∧ TokAt R it' toks t := by
  obtain ⟨h1, i, rs, h2, h3, h4⟩ := h
  refine ⟨{ it with buffer := toks.reverse }, ?_, rfl, i, rs, h2, h3, h4⟩
  unfold It.next
  rw [h1]
  simp

theorem next_err (H : RunesOf nx un kn fin R) {it : It ι Tok} {t : List Char} {e : Err} (hk : kn ∨ e ≠ fin)
    (h : TokAt R it [] t) (hl : lex fin t = .error e) :
    ∃ it', It.next (gLex nx un) it = some (.error e, it') := by
  obtain ⟨h1, i, rs, h2, h3, rfl⟩ := h
  have := gLex_ref H rs i h3
  rw [hl] at this
  obtain ⟨j, hj⟩ := this hk
  refine ⟨{ it with fn := none, lastErr := some e }, ?_⟩
  unfold It.next
  rw [h1, h2]
  simp [hj]

theorem next_ok (H : RunesOf nx un kn fin R) {it : It ι Tok} {t t' : List Char} {tok : Tok} (h : TokAt R it [] t)
    (hl : lex fin t = .ok (tok, t')) : ∃ it', It.next (gLex nx un) it = some (.ok tok, it') ∧ TokAt R it' [] t' := by
  obtain ⟨h1, i, rs, h2, h3, rfl⟩ := h
  have := gLex_ref H rs i h3
  rw [hl] at this
  obtain ⟨a, j, rs', hj, rfl, h5, h6⟩ := this
  refine ⟨{ it with fn := some j }, ?_, h1, j, rs', rfl, h5, h6⟩
  unfold It.next
  rw [h1, h2]
  simp [hj]

theorem tokAt_unread {it : It ι Tok} {toks : List Tok} {t : List Char} (h : TokAt R it toks t) (tok : Tok) :
    TokAt R (it.unread tok) (tok :: toks) t := by
  obtain ⟨h1, h2⟩ := h
  exact ⟨by simp [It.unread, h1], h2⟩

theorem tok_match {t t' : List Char} {tok : Tok} (hl : lex fin t = .ok (tok, t')) : ∀ s, tok = .num s → matchNumber s = true := by
  rintro s rfl
  obtain ⟨w, s', -, -, h⟩ := tok_of_lex hl
  cases h with
  | num _ h1 _ _ => exact numLit_match h1

theorem lookup_isSome (obj : List (List Char × JVal)) (k : List Char) : (obj.lookup k).isSome = true ↔ k ∈ obj.map Prod.fst := by
  induction obj with
  | nil => simp
  | cons p obj ih =>
    obtain ⟨k', v⟩ := p
    rw [List.lookup_cons, List.map_cons, List.mem_cons]
    by_cases h : k = k'
    · subst h; simp
    · rw [show (k == k') = false by simpa using h]
      simp only [h, false_or]
      exact ih

/-- The results agree. -/
def PRef (kn : Prop) (fin : Err) (R : ι → List Nat → Prop) (res : Option (Except Err JVal × It ι Tok)) (r : Except Err (JVal × List Char)) : Prop :=
  match r with
  | .ok (v, t) => ∃ it, res = some (.ok v, it) ∧ TokAt R it [] t
  | .error e => kn ∨ e ≠ fin → ∃ it, res = some (.error e, it)

/-- The results agree, for the elements of an array. -/
def ARef (kn : Prop) (fin : Err) (R : ι → List Nat → Prop) (res : Option (Except Err (List JVal) × It ι Tok)) (r : Except Err (JVal × List Char)) : Prop :=
  match r with
  | .ok (v, t) => ∃ vs it, v = .arr vs ∧ res = some (.ok vs, it) ∧ TokAt R it [] t
  | .error e => kn ∨ e ≠ fin → ∃ it, res = some (.error e, it)

theorem pref_of {e : Err} {res : Option (Except Err JVal × It ι Tok)} (h : kn ∨ e ≠ fin → ∃ it, res = some (.error e, it)) :
    PRef kn fin R res (.error e) := h

theorem aref_of {e : Err} {res : Option (Except Err (List JVal) × It ι Tok)} (h : kn ∨ e ≠ fin → ∃ it, res = some (.error e, it)) :
    ARef kn fin R res (.error e) := h

theorem hk_lex (H : RunesOf nx un kn fin R) {e m : Err} (h : kn ∨ endErr e m ≠ fin) : kn ∨ e ≠ fin := by
  by_cases hn : kn
  · exact .inl hn
  · rcases h with h | h
    · exact .inl h
    · right
      rintro rfl
      exact h (endErr_ne (H.ne hn))

/-- One call of the function of the array iterator, in ReduceToSlice. -/
theorem gReduce_step {κ : Type} {lx : Call κ Tok} {slc : List JVal} {b : Bool} {it : It κ Tok} :
    gReduce lx slc (ofIter b) it = match gArray lx (b, it) with
      | none => none
      | some (.error e, _, it) => if e = .eoi then some (.ok slc, it) else some (.error e, it)
      | some (.ok v, b', it) => gReduce lx (slc ++ [v]) (ofIter b') it := by
  rw [gReduce]
  simp only [nextOn, ofIter, List.getLast?_nil]
  cases gArray lx (b, it) with
  | none => rfl
  | some p =>
    obtain ⟨r, b', it'⟩ := p
    cases r <;> rfl

theorem gArray_first {κ : Type} {lx : Call κ Tok} {it it1 it2 : It κ Tok} {x : Except Err Tok} {tok : Tok}
    (h1 : It.next lx it = some (x, it1)) (h2 : It.next lx it1 = some (.ok tok, it2)) (hc : tok ≠ .cBracket) :
    gArray lx (true, it) = gValue lx (it2.unread tok) >>= fun r => match r with
      | (.error e, it) => some (.error e, true, it)
      | (.ok value, it) => some (.ok value, false, it) := by
  rw [gArray]
  simp only [if_true, h1, h2]
  cases tok <;> first | rfl | exact absurd rfl hc

theorem refine_all (H : RunesOf nx un kn fin R) :
    (∀ tok t r, parseValue fin tok t = some r → r ≠ .error .eoi → (∀ s, tok = .num s → matchNumber s = true) →
      ∀ it, TokAt R it [tok] t → PRef kn fin R (gValue (gLex nx un) it) r) ∧
    (∀ t r, parseArrFirst fin t = some r → r ≠ .error .eoi →
      ∀ it, TokAt R it [.oBracket] t → ARef kn fin R (gReduce (gLex nx un) [] (ofIter true) it) r) ∧
    (∀ vs t r, parseArrRest fin vs t = some r → r ≠ .error .eoi →
      ∀ it, TokAt R it [] t → ARef kn fin R (gReduce (gLex nx un) vs (ofIter false) it) r) ∧
    (∀ obj t r, parseObject fin obj t = some r → r ≠ .error .eoi →
      ∀ it, TokAt R it [] t → PRef kn fin R (gObject (gLex nx un) obj it) r) := by
  refine parseValue.mutual_partial_correctness fin
    (fun tok t r => r ≠ .error .eoi → (∀ s, tok = .num s → matchNumber s = true) →
      ∀ it, TokAt R it [tok] t → PRef kn fin R (gValue (gLex nx un) it) r)
    (fun t r => r ≠ .error .eoi → ∀ it, TokAt R it [.oBracket] t → ARef kn fin R (gReduce (gLex nx un) [] (ofIter true) it) r)
    (fun vs t r => r ≠ .error .eoi → ∀ it, TokAt R it [] t → ARef kn fin R (gReduce (gLex nx un) vs (ofIter false) it) r)
    (fun obj t r => r ≠ .error .eoi → ∀ it, TokAt R it [] t → PRef kn fin R (gObject (gLex nx un) obj it) r) ?_ ?_ ?_ ?_
  · intro pa po ha ho tok t r h hr hm it hit
    obtain ⟨it1, h1, h2⟩ := next_tok (gLex nx un) hit
    rw [gValue, h1]
    cases tok <;> simp only at h ⊢
    case oBrace =>
      obtain ⟨it2, h3, h4⟩ := next_tok (gLex nx un) (tokAt_unread h2 .oBrace)
      simp only [h3]
      exact ho _ _ _ h hr _ h4
    case oBracket =>
      have := ha _ _ h hr _ (tokAt_unread h2 .oBracket)
      cases r with
      | error e => refine pref_of fun hk => ?_; obtain ⟨it2, h3⟩ := this hk; rw [h3]; exact ⟨it2, rfl⟩
      | ok p =>
        obtain ⟨v, t'⟩ := p
        obtain ⟨vs, it2, rfl, h3, h4⟩ := this
        rw [h3]; exact ⟨it2, rfl, h4⟩
    case num s =>
      rw [if_pos (hm s rfl)]
      cases h; exact ⟨it1, rfl, h2⟩
    all_goals (cases h; exact ⟨it1, rfl, h2⟩)
  · intro pv pr hv hr' t r h hr it hit
    obtain ⟨it1, h1, h2⟩ := next_tok (gLex nx un) hit
    rw [gReduce_step]
    cases hl : lex fin t with
    | error e =>
      rw [hl] at h; cases h
      refine aref_of fun hk => ?_
      obtain ⟨it2, h3⟩ := next_err H (hk_lex H hk) h2 hl
      rw [gArray]
      simp only [if_true, h1, h3]
      refine ⟨it2, ?_⟩
      rw [endErr_eq, if_neg (endErr_ok _ _ (by simp))]
    | ok p =>
      obtain ⟨tok, t1⟩ := p
      rw [hl] at h
      simp only at h
      obtain ⟨it2, h3, h4⟩ := next_ok H h2 hl
      by_cases hc : tok = .cBracket
      · subst hc
        rw [if_pos rfl] at h; cases h
        rw [gArray]
        simp only [if_true, h1, h3]
        exact ⟨[], it2, rfl, rfl, h4⟩
      · rw [if_neg hc] at h
        rw [gArray_first h1 h3 hc]
        cases hp : pv tok t1 with
        | none => rw [hp] at h; simp at h
        | some r1 =>
          rw [hp] at h
          simp only [Option.bind_eq_bind, Option.bind_some] at h
          cases r1 with
          | error e =>
            cases h
            refine aref_of fun hk => ?_
            obtain ⟨it3, h5⟩ := hv _ _ _ hp hr (tok_match hl) _ (tokAt_unread h4 tok) hk
            rw [h5]
            refine ⟨it3, ?_⟩
            simp only [Option.bind_eq_bind, Option.bind_some]
            rw [if_neg (fun he => hr (by rw [he]))]
          | ok q =>
            obtain ⟨v, t2⟩ := q
            obtain ⟨it3, h5, h6⟩ := hv _ _ _ hp (by simp) (tok_match hl) _ (tokAt_unread h4 tok)
            rw [h5]
            exact hr' _ _ _ h hr _ h6
  · intro pv pr hv hr' vs t r h hr it hit
    rw [gReduce_step, gArray]
    simp only [Bool.false_eq_true, if_false]
    cases hl : lex fin t with
    | error e =>
      rw [hl] at h; cases h
      refine aref_of fun hk => ?_
      obtain ⟨it2, h3⟩ := next_err H (hk_lex H hk) hit hl
      simp only [h3]
      refine ⟨it2, ?_⟩
      rw [endErr_eq, if_neg (endErr_ok _ _ (by simp))]
    | ok p =>
      obtain ⟨tok, t1⟩ := p
      rw [hl] at h
      obtain ⟨it2, h3, h4⟩ := next_ok H hit hl
      rw [h3]
      cases tok <;> simp only at h ⊢
      case comma =>
        cases hl2 : lex fin t1 with
        | error e =>
          rw [hl2] at h; cases h
          refine aref_of fun hk => ?_
          obtain ⟨it3, h5⟩ := next_err H (hk_lex H hk) h4 hl2
          simp only [h5]
          refine ⟨it3, ?_⟩
          rw [endErr_eq, if_neg (endErr_ok _ _ (by simp))]
        | ok p =>
          obtain ⟨tok, t2⟩ := p
          rw [hl2] at h
          simp only at h
          obtain ⟨it3, h5, h6⟩ := next_ok H h4 hl2
          rw [h5]
          simp only []
          cases hp : pv tok t2 with
          | none => rw [hp] at h; simp at h
          | some r1 =>
            rw [hp] at h
            simp only [Option.bind_eq_bind, Option.bind_some] at h
            cases r1 with
            | error e =>
              cases h
              refine aref_of fun hk => ?_
              obtain ⟨it4, h7⟩ := hv _ _ _ hp hr (tok_match hl2) _ (tokAt_unread h6 tok) hk
              rw [h7]
              refine ⟨it4, ?_⟩
              simp only [Option.bind_eq_bind, Option.bind_some]
              rw [if_neg (fun he => hr (by rw [he]))]
            | ok q =>
              obtain ⟨v, t3⟩ := q
              obtain ⟨it4, h7, h8⟩ := hv _ _ _ hp (by simp) (tok_match hl2) _ (tokAt_unread h6 tok)
              rw [h7]
              exact hr' _ _ _ h hr _ h8
      case cBracket => cases h; exact ⟨vs, it2, rfl, rfl, h4⟩
      all_goals (cases h; exact fun _ => ⟨it2, rfl⟩)
  · intro pv po hv ho obj t r h hr it hit
    rw [gObject]
    cases hl : lex fin t with
    | error e =>
      rw [hl] at h; cases h
      refine pref_of fun hk => ?_
      obtain ⟨it2, h3⟩ := next_err H (hk_lex H hk) hit hl
      simp only [h3, endErr_eq]
      exact ⟨it2, rfl⟩
    | ok p =>
      obtain ⟨tok, t1⟩ := p
      rw [hl] at h
      obtain ⟨it2, h3, h4⟩ := next_ok H hit hl
      rw [h3]
      cases tok <;> simp only at h ⊢
      case cBrace => cases h; exact ⟨it2, rfl, h4⟩
      case str k =>
        simp only [lookup_isSome]
        by_cases hk : k ∈ obj.map Prod.fst
        · rw [if_pos hk] at h ⊢; cases h; exact fun _ => ⟨it2, rfl⟩
        rw [if_neg hk] at h ⊢
        cases hl2 : lex fin t1 with
        | error e =>
          rw [hl2] at h; cases h
          refine pref_of fun hk => ?_
          obtain ⟨it3, h5⟩ := next_err H (hk_lex H hk) h4 hl2
          simp only [h5, endErr_eq]
          exact ⟨it3, rfl⟩
        | ok p =>
          obtain ⟨tok2, t2⟩ := p
          rw [hl2] at h
          obtain ⟨it3, h5, h6⟩ := next_ok H h4 hl2
          rw [h5]
          cases tok2 <;> simp only at h ⊢
          case colon =>
            cases hl3 : lex fin t2 with
            | error e =>
              rw [hl3] at h; cases h
              refine pref_of fun hk => ?_
              obtain ⟨it4, h7⟩ := next_err H (hk_lex H hk) h6 hl3
              simp only [h7, endErr_eq]
              exact ⟨it4, rfl⟩
            | ok p =>
              obtain ⟨tok3, t3⟩ := p
              rw [hl3] at h
              simp only at h
              obtain ⟨it4, h7, h8⟩ := next_ok H h6 hl3
              rw [h7]
              simp only []
              cases hp : pv tok3 t3 with
              | none => rw [hp] at h; simp at h
              | some r1 =>
                rw [hp] at h
                simp only [Option.bind_eq_bind, Option.bind_some] at h
                cases r1 with
                | error e =>
                  cases h
                  refine pref_of fun hk => ?_
                  obtain ⟨it5, h9⟩ := hv _ _ _ hp hr (tok_match hl3) _ (tokAt_unread h8 tok3) hk
                  rw [h9]
                  exact ⟨it5, rfl⟩
                | ok q =>
                  obtain ⟨v, t4⟩ := q
                  obtain ⟨it5, h9, h10⟩ := hv _ _ _ hp (by simp) (tok_match hl3) _ (tokAt_unread h8 tok3)
                  rw [h9]
                  simp only [Option.bind_eq_bind, Option.bind_some]
                  simp only at h
                  cases hl4 : lex fin t4 with
                  | error e =>
                    rw [hl4] at h; cases h
                    refine pref_of fun hk => ?_
                    obtain ⟨it6, h11⟩ := next_err H (hk_lex H hk) h10 hl4
                    simp only [h11, endErr_eq]
                    exact ⟨it6, rfl⟩
                  | ok p =>
                    obtain ⟨tok4, t5⟩ := p
                    rw [hl4] at h
                    obtain ⟨it6, h11, h12⟩ := next_ok H h10 hl4
                    rw [h11]
                    cases tok4 <;> simp only at h ⊢
                    case comma => exact ho _ _ _ h hr _ h12
                    case cBrace => cases h; exact ⟨it6, rfl, h12⟩
                    all_goals (cases h; exact fun _ => ⟨it6, rfl⟩)
          all_goals (cases h; exact fun _ => ⟨it3, rfl⟩)
      all_goals (cases h; exact fun _ => ⟨it2, rfl⟩)

/-- Parse of an iterator of tokens is Parse of the text. -/
theorem gParseTokens_eq (H : RunesOf nx un kn fin R) (it : It ι Tok) (t : List Char) (hit : TokAt R it [] t) (r) (hp : parse fin t = some r)
    (hk : kn ∨ r ≠ .error fin) : gParseTokens (gLex nx un) it = some (r.map Prod.fst) := by
  unfold parse at hp
  unfold gParseTokens
  cases hl : lex fin t with
  | error e =>
    rw [hl] at hp; cases hp
    obtain ⟨it2, h3⟩ := next_err H (hk_lex (m := eEmptyDocument) H (hk.imp id fun h h' => h (by rw [h']))) hit hl
    rw [h3]; rfl
  | ok p =>
    obtain ⟨tok, t1⟩ := p
    obtain ⟨it2, h3, h4⟩ := next_ok H hit hl
    rw [hl] at hp
    rw [h3]
    simp only at hp ⊢
    by_cases hc : tok = .oBrace ∨ tok = .oBracket
    · rw [if_pos hc] at hp ⊢
      have := (refine_all H).1 _ _ _ hp ((noEoi_all fin).1 _ _ _ hp) (tok_match hl) _ (tokAt_unread h4 tok)
      cases r with
      | error e => obtain ⟨it3, h5⟩ := this (hk.imp id fun h h' => h (by rw [h'])); rw [h5]; rfl
      | ok q => obtain ⟨v, t2⟩ := q; obtain ⟨it3, h5, -⟩ := this; rw [h5]; rfl
    · rw [if_neg hc] at hp ⊢
      cases hp; rfl

/-! ### Iterate -/

/-- The iterating function of parseArray on an iterator of tokens is that on the text. -/
theorem gArray_ref (H : RunesOf nx un kn fin R) (b b' : Bool) (t t' : List Char) (res : Except Err JVal)
    (h : arrayCall fin (b, t) = some (res, (b', t'))) (hk : kn ∨ res ≠ .error fin) (it : It ι Tok)
    (hit : TokAt R it (if b then [.oBracket] else []) t) :
    ∃ it', gArray (gLex nx un) (b, it) = some (res, b', it') ∧ ∀ v, res = .ok v → b' = false ∧ TokAt R it' [] t' := by
  have hk' : ∀ e, res = .error e → kn ∨ e ≠ fin := fun e he => hk.imp id fun h h' => h (by rw [he, h'])
  have val : ∀ (tok : Tok) (u u' : List Char) (it : It ι Tok), lex fin u = .ok (tok, u') → TokAt R it [] u' → ∀ r, parseValue fin tok u' = some r →
      PRef kn fin R (gValue (gLex nx un) (it.unread tok)) r := fun tok u u' it hl ht r hr =>
    (refine_all H).1 _ _ _ hr ((noEoi_all fin).1 _ _ _ hr) (tok_match hl) _ (tokAt_unread ht tok)
  cases b with
  | true =>
    obtain ⟨it1, h1, h2⟩ := next_tok (gLex nx un) hit
    unfold arrayCall at h
    simp only [if_true] at h
    cases hl : lex fin t with
    | error e =>
      rw [hl] at h; cases h
      obtain ⟨it2, h3⟩ := next_err H (hk_lex H (hk' _ rfl)) h2 hl
      refine ⟨it2, ?_, by intro v hv; cases hv⟩
      rw [gArray]; simp only [if_true, h1, h3, endErr_eq]
    | ok p =>
      obtain ⟨tok, t1⟩ := p
      obtain ⟨it2, h3, h4⟩ := next_ok H h2 hl
      rw [hl] at h
      simp only at h
      by_cases hc : tok = .cBracket
      · subst hc
        rw [if_pos rfl] at h; cases h
        exact ⟨it2, by rw [gArray]; simp only [if_true, h1, h3], by intro v hv; cases hv⟩
      · rw [if_neg hc] at h
        rw [gArray_first h1 h3 hc]
        cases hp : parseValue fin tok t1 with
        | none => rw [hp] at h; cases h
        | some r =>
          have hv := val _ _ _ _ hl h4 _ hp
          rw [hp] at h
          cases r with
          | error e =>
            cases h
            obtain ⟨it3, h5⟩ := hv (hk' _ rfl)
            exact ⟨it3, by rw [h5]; rfl, by intro v hv; cases hv⟩
          | ok q =>
            obtain ⟨v, t2⟩ := q
            cases h
            obtain ⟨it3, h5, h6⟩ := hv
            exact ⟨it3, by rw [h5]; rfl, fun _ _ => ⟨rfl, h6⟩⟩
  | false =>
    unfold arrayCall at h
    simp only [Bool.false_eq_true, if_false] at h hit
    rw [gArray]
    simp only [Bool.false_eq_true, if_false]
    cases hl : lex fin t with
    | error e =>
      rw [hl] at h; cases h
      obtain ⟨it2, h3⟩ := next_err H (hk_lex H (hk' _ rfl)) hit hl
      exact ⟨it2, by simp only [h3, endErr_eq], by intro v hv; cases hv⟩
    | ok p =>
      obtain ⟨tok, t1⟩ := p
      obtain ⟨it2, h3, h4⟩ := next_ok H hit hl
      rw [hl] at h
      rw [h3]
      cases tok <;> simp only at h ⊢
      case comma =>
        cases hl2 : lex fin t1 with
        | error e =>
          rw [hl2] at h; cases h
          obtain ⟨it3, h5⟩ := next_err H (hk_lex H (hk' _ rfl)) h4 hl2
          exact ⟨it3, by simp only [h5, endErr_eq], by intro v hv; cases hv⟩
        | ok p =>
          obtain ⟨tok, t2⟩ := p
          obtain ⟨it3, h5, h6⟩ := next_ok H h4 hl2
          rw [hl2] at h
          rw [h5]
          simp only at h ⊢
          cases hp : parseValue fin tok t2 with
          | none => rw [hp] at h; cases h
          | some r =>
            have hv := val _ _ _ _ hl2 h6 _ hp
            rw [hp] at h
            cases r with
            | error e =>
              cases h
              obtain ⟨it4, h7⟩ := hv (hk' _ rfl)
              exact ⟨it4, by rw [h7]; rfl, by intro v hv; cases hv⟩
            | ok q =>
              obtain ⟨v, t2⟩ := q
              cases h
              obtain ⟨it4, h7, h8⟩ := hv
              exact ⟨it4, by rw [h7]; rfl, fun _ _ => ⟨rfl, h8⟩⟩
      all_goals (cases h; exact ⟨it2, rfl, by intro v hv; cases hv⟩)

/-- The elements of an array are yielded as from the text. -/
theorem gArray_yields (H : RunesOf nx un kn fin R) {st : Bool × List Char} {vs : List JVal} {e : Err} (h : Yields (arrayCall fin) st vs e)
    (hk : kn ∨ e ≠ fin) (it : It ι Tok) (hit : TokAt R it (if st.1 then [.oBracket] else []) st.2) :
    Yields (gArray (gLex nx un)) (st.1, it) vs e := by
  induction h generalizing it with
  | @stop s s' e h =>
    obtain ⟨it', h1, -⟩ := gArray_ref H s.1 s'.1 s.2 s'.2 _ h (hk.imp id fun h h' => h (Except.error.inj h')) it hit
    exact .stop h1
  | @value s s' x xs e h hy ih =>
    obtain ⟨it', h1, h2⟩ := gArray_ref H s.1 s'.1 s.2 s'.2 _ h (.inr (by simp)) it hit
    obtain ⟨h3, h4⟩ := h2 x rfl
    refine .value h1 (ih hk it' ?_)
    rw [h3]; exact h4

/-- The first elements of an array are yielded as from the text, whatever comes later. -/
theorem gArray_takes (H : RunesOf nx un kn fin R) (n : Nat) : ∀ {st st' : Bool × List Char} {vs : List JVal},
    takeN (arrayCall fin) n st = some (vs, st') → ∀ (it : It ι Tok), TokAt R it (if st.1 then [.oBracket] else []) st.2 →
    ∃ s', takeN (gArray (gLex nx un)) n (st.1, it) = some (vs, s') := by
  induction n with
  | zero => intro st st' vs h it _; cases h; exact ⟨_, rfl⟩
  | succ n ih =>
    intro st st' vs h it hit
    simp only [takeN] at h ⊢
    cases hc : arrayCall fin st with
    | none => rw [hc] at h; cases h
    | some p =>
      obtain ⟨x, s1⟩ := p
      rw [hc] at h
      cases x with
      | error e => cases h
      | ok x =>
        simp only at h
        cases ht : takeN (arrayCall fin) n s1 with
        | none => rw [ht] at h; cases h
        | some q =>
          obtain ⟨ws, s2⟩ := q
          rw [ht] at h
          cases h
          obtain ⟨it', h1, h2⟩ := gArray_ref H st.1 s1.1 st.2 s1.2 _ hc (.inr (by simp)) it hit
          obtain ⟨h3, h4⟩ := h2 x rfl
          obtain ⟨s'', h5⟩ := ih ht it' (by rw [h3]; exact h4)
          refine ⟨s'', ?_⟩
          rw [h1]
          simp only []
          rw [h5]; rfl

/-! ### Runes from an iterator -/

/-- The iterator delivers `rs`, and then `fin` for ever if `kn`. -/
def RunesLeft {σ : Type} (c : Call σ Nat) (kn : Prop) (fin : Err) (it : It σ Nat) (rs : List Nat) : Prop :=
  ∃ pend more, it.buffer = pend.reverse ∧ rs = pend ++ more ∧
    ((∃ s, it.fn = some s ∧ ((kn ∧ Yields c s more fin) ∨ (¬ kn ∧ ∃ s', takeN c more.length s = some (more, s')))) ∨
      (kn ∧ it.fn = none ∧ more = [] ∧ it.lastErr = some fin))

theorem runesOf_iter {σ : Type} (c : Call σ Nat) (kn : Prop) (fin : Err) (hne : ¬ kn → fin ≠ .eoi) :
    RunesOf (It.next c) It.unread kn fin (RunesLeft c kn fin) where
  ne := hne
  cons := by
    rintro it r rs ⟨pend, more, h1, h2, h3⟩
    cases pend with
    | cons q pend =>
      simp only [List.cons_append, List.cons.injEq] at h2
      obtain ⟨rfl, rfl⟩ := h2
      refine ⟨{ it with buffer := pend.reverse }, ?_, pend, more, rfl, rfl, h3⟩
      unfold It.next; rw [h1]; simp
    | nil =>
      rw [List.nil_append] at h2
      subst h2
      rcases h3 with ⟨s, h4, h5⟩ | ⟨-, -, h5, -⟩
      · rcases h5 with ⟨hn, h5⟩ | ⟨hn, s', h5⟩
        · cases h5 with
          | @value _ s' _ _ _ hc hy =>
            refine ⟨{ it with fn := some s' }, ?_, [], rs, h1, rfl, .inl ⟨s', rfl, .inl ⟨hn, hy⟩⟩⟩
            unfold It.next; rw [h1, h4]; simp [hc]
        · simp only [List.length_cons, takeN] at h5
          cases hc : c s with
          | none => rw [hc] at h5; cases h5
          | some p =>
            obtain ⟨x, s1⟩ := p
            rw [hc] at h5
            cases x with
            | error e => cases h5
            | ok x =>
              simp only at h5
              cases ht : takeN c rs.length s1 with
              | none => rw [ht] at h5; cases h5
              | some q =>
                obtain ⟨ws, s2⟩ := q
                rw [ht] at h5
                simp only [Option.map_some, Option.some.injEq, Prod.mk.injEq, List.cons.injEq] at h5
                obtain ⟨⟨rfl, rfl⟩, rfl⟩ := h5
                refine ⟨{ it with fn := some s1 }, ?_, [], ws, h1, rfl, .inl ⟨s1, rfl, .inr ⟨hn, s2, ht⟩⟩⟩
                unfold It.next; rw [h1, h4]; simp [hc]
      · cases h5
  nil := by
    rintro hn it ⟨pend, more, h1, h2, h3⟩
    obtain ⟨rfl, rfl⟩ := List.append_eq_nil_iff.mp h2.symm
    rcases h3 with ⟨s, h4, h5⟩ | ⟨-, h5, -, h6⟩
    · rcases h5 with ⟨-, h5⟩ | ⟨h5, -⟩
      · cases h5 with
        | @stop _ s' _ hc =>
          refine ⟨{ it with fn := none, lastErr := some fin }, ?_, [], [], h1, rfl, .inr ⟨hn, rfl, rfl, rfl⟩⟩
          unfold It.next; rw [h1, h4]; simp [hc]
      · exact absurd hn h5
    · refine ⟨it, ?_, [], [], h1, rfl, .inr ⟨hn, h5, rfl, h6⟩⟩
      unfold It.next; rw [h1, h5]; simp [It.stopped, h6]
  un := by
    rintro it r rs ⟨pend, more, h1, rfl, h3⟩
    exact ⟨r :: pend, more, by simp [It.unread, h1], rfl, h3⟩

end
end Micro.Json
