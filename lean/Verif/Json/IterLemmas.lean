import Verif.Json.ValueLemmas
import Verif.Stream.Props
set_option linter.unusedSimpArgs false
/- Lemmas about parse errors and Iterate. -/
namespace Micro.Json
open Micro Micro.Iter Micro.Stream

/-- No parsing function fails with EOI. -/
theorem noEoi_all (fin : Err) :
    (∀ tok t r, parseValue fin tok t = some r → r ≠ .error .eoi) ∧
    (∀ t r, parseArrFirst fin t = some r → r ≠ .error .eoi) ∧
    (∀ vs t r, parseArrRest fin vs t = some r → r ≠ .error .eoi) ∧
    (∀ obj t r, parseObject fin obj t = some r → r ≠ .error .eoi) := by
  have E : ∀ {e m : Err}, m ≠ .eoi → (Except.error (endErr e m) : Except Err (JVal × List Char)) ≠ .error .eoi := by
    intro e m h h'; exact endErr_ok e m h (Except.error.inj h')
  refine parseValue.mutual_partial_correctness fin (fun _ _ r => r ≠ .error .eoi) (fun _ r => r ≠ .error .eoi)
    (fun _ _ r => r ≠ .error .eoi) (fun _ _ r => r ≠ .error .eoi) ?_ ?_ ?_ ?_
  · intro pa po ha ho tok t r h
    split at h <;> first | exact ho _ _ _ h | exact ha _ _ h | (cases h; simp)
  · intro pv pr hv hr t r h
    split at h
    · cases h; exact E (by simp)
    · split at h
      · cases h; simp
      · rename_i tok t1 _ _
        cases hp : pv tok t1 with
        | none => rw [hp] at h; simp at h
        | some r1 =>
          have := hv _ _ _ hp
          rw [hp] at h
          simp only [Option.bind_eq_bind, Option.bind_some] at h
          split at h
          · cases h; exact this
          · exact hr _ _ _ h
  · intro pv pr hv hr vs t r h
    split at h
    · cases h; exact E (by simp)
    · split at h
      · cases h; exact E (by simp)
      · rename_i tok t1 _
        cases hp : pv tok t1 with
        | none => rw [hp] at h; simp at h
        | some r1 =>
          have := hv _ _ _ hp
          rw [hp] at h
          simp only [Option.bind_eq_bind, Option.bind_some] at h
          split at h
          · cases h; exact this
          · exact hr _ _ _ h
    · cases h; simp
    · cases h; simp
  · intro pv po hv ho obj t r h
    split at h
    · cases h; exact E (by simp)
    · cases h; simp
    · split at h
      · cases h; simp
      · split at h
        · cases h; exact E (by simp)
        · split at h
          · cases h; exact E (by simp)
          · rename_i tok t1 _
            cases hp : pv tok t1 with
            | none => rw [hp] at h; simp at h
            | some r1 =>
              have := hv _ _ _ hp
              rw [hp] at h
              simp only [Option.bind_eq_bind, Option.bind_some] at h
              split at h
              · cases h; exact this
              · split at h
                · cases h; exact E (by simp)
                · exact ho _ _ _ h
                · cases h; simp
                · cases h; simp
        · cases h; simp
    · cases h; simp

theorem parse_noEoi (fin : Err) (t : List Char) : parse fin t ≠ some (.error .eoi) := by
  intro h
  unfold parse at h
  split at h
  · simp only [Option.some.injEq, Except.error.injEq] at h
    exact endErr_ok _ _ (by simp) h
  · split at h
    · exact (noEoi_all fin).1 _ _ _ h rfl
    · simp at h

/-- What the iterating function of parseArray yields, given what ReduceToSlice collects. -/
def IterOf (fin : Err) (st : Bool × List Char) (us : List JVal) (r : Except Err (JVal × List Char)) : Prop :=
  match r with
  | .ok (v, _) => ∃ vs, v = .arr (us ++ vs) ∧ Yields (arrayCall fin) st vs .eoi
  | .error e => e ≠ .eoi ∧ ∃ vs, Yields (arrayCall fin) st vs e

theorem iterRest (fin : Err) (n : Nat) : ∀ (t : List Char) (us : List JVal) (r), t.length ≤ n →
    parseArrRest fin us t = some r → IterOf fin (false, t) us r := by
  induction n with
  | zero =>
    intro t us r hn h
    have : t = [] := List.length_eq_zero_iff.mp (by omega)
    subst this
    rw [parseArrRest.eq_def] at h
    simp [lex] at h
    subst h
    exact ⟨endErr_ok _ _ (by simp), [], .stop (s' := (false, [])) (by simp [arrayCall, lex])⟩
  | succ n ih =>
    intro t us r hn h
    rw [parseArrRest.eq_def] at h
    cases hl : lex fin t with
    | error e =>
      rw [hl] at h
      cases h
      exact ⟨endErr_ok _ _ (by simp), [], .stop (s' := (false, [])) (by simp [arrayCall, hl])⟩
    | ok p =>
      obtain ⟨tok, t1⟩ := p
      have hlen := lex_length hl
      rw [hl] at h
      by_cases h1 : tok = .comma
      · subst h1
        simp only at h
        cases hl2 : lex fin t1 with
        | error e =>
          rw [hl2] at h
          cases h
          exact ⟨endErr_ok _ _ (by simp), [], .stop (s' := (false, [])) (by simp [arrayCall, hl, hl2])⟩
        | ok p2 =>
          obtain ⟨tok2, t2⟩ := p2
          have hlen2 := lex_length hl2
          obtain ⟨_, s, _, hs⟩ := (lex_iff fin t1 tok2 t2).mp hl2
          obtain ⟨r2, hr2, hok⟩ := soundVal (s := s) (by tauto)
          rw [hl2] at h
          simp only [hr2, Option.bind_eq_bind, Option.bind_some] at h
          cases r2 with
          | error e =>
            cases h
            exact ⟨fun he => (noEoi_all fin).1 _ _ _ hr2 (by rw [he]), [],
              .stop (s' := (false, [])) (by simp [arrayCall, hl, hl2, hr2])⟩
          | ok q =>
            obtain ⟨v, t3⟩ := q
            have hlen3 := (hok v t3 rfl).1
            simp only at h
            have hI := ih t3 (us ++ [v]) r (by omega) h
            have hc : arrayCall fin (false, t) = some (.ok v, (false, t3)) := by simp [arrayCall, hl, hl2, hr2]
            cases r with
            | ok q =>
              obtain ⟨w, rest⟩ := q
              obtain ⟨vs, hw, hy⟩ := hI
              exact ⟨v :: vs, by simpa using hw, .value hc hy⟩
            | error e =>
              obtain ⟨he, vs, hy⟩ := hI
              exact ⟨he, v :: vs, .value hc hy⟩
      · by_cases h2 : tok = .cBracket
        · subst h2
          simp only [Option.some.injEq] at h
          subst h
          exact ⟨[], by simp, .stop (s' := (false, t1)) (by simp [arrayCall, hl])⟩
        · have : r = .error eArrCommaOrBracket := by
            revert h; cases tok <;> simp_all
          subst this
          refine ⟨by simp, [], .stop (s' := (false, t1)) ?_⟩
          unfold arrayCall
          simp only [Bool.false_eq_true, if_false, hl]

theorem iterFirst (fin : Err) (t : List Char) (r) (h : parseArrFirst fin t = some r) : IterOf fin (true, t) [] r := by
  rw [parseArrFirst.eq_def] at h
  cases hl : lex fin t with
  | error e =>
    rw [hl] at h
    cases h
    exact ⟨endErr_ok _ _ (by simp), [], .stop (s' := (true, [])) (by simp [arrayCall, hl])⟩
  | ok p =>
    obtain ⟨tok, t1⟩ := p
    rw [hl] at h
    simp only at h
    by_cases h2 : tok = .cBracket
    · subst h2
      simp only [if_true, Option.some.injEq] at h
      subst h
      exact ⟨[], by simp, .stop (s' := (true, t1)) (by simp [arrayCall, hl])⟩
    · rw [if_neg h2] at h
      obtain ⟨_, s, _, hs⟩ := (lex_iff fin t tok t1).mp hl
      obtain ⟨r2, hr2, hok⟩ := soundVal (s := s) (by tauto)
      simp only [hr2, Option.bind_eq_bind, Option.bind_some] at h
      cases r2 with
      | error e =>
        cases h
        exact ⟨fun he => (noEoi_all fin).1 _ _ _ hr2 (by rw [he]), [],
          .stop (s' := (true, [])) (by simp [arrayCall, hl, hr2, h2])⟩
      | ok q =>
        obtain ⟨v, t3⟩ := q
        simp only at h
        have hI := iterRest fin t3.length t3 [v] r (Nat.le_refl _) h
        have hc : arrayCall fin (true, t) = some (.ok v, (false, t3)) := by simp [arrayCall, hl, hr2, h2]
        cases r with
        | ok q =>
          obtain ⟨w, rest⟩ := q
          obtain ⟨vs, hw, hy⟩ := hI
          exact ⟨v :: vs, by simpa using hw, .value hc hy⟩
        | error e =>
          obtain ⟨he, vs, hy⟩ := hI
          exact ⟨he, v :: vs, .value hc hy⟩

/-! ### Extending the text -/

theorem head_app {r b : List Char} (hr : r ≠ []) : (r ++ b).head? = r.head? := by
  cases r with
  | nil => exact absurd rfl hr
  | cons c r => rfl

theorem endOk_ne {fin : Err} (hfin : fin ≠ .eoi) {rest : List Char} (h : EndOk fin rest) : rest ≠ [] := fun e => hfin (h e)

theorem tok_ext {fin : Err} (hfin : fin ≠ .eoi) {rest s : List Char} {tok : Tok} (h : TokText fin rest tok s)
    (fin' : Err) (b : List Char) : TokText fin' (rest ++ b) tok s := by
  have key : EndOk fin rest → (rest ++ b).head? = rest.head? ∧ EndOk fin' (rest ++ b) := by
    intro he
    have := endOk_ne hfin he
    exact ⟨head_app this, fun h => absurd (List.append_eq_nil_iff.mp h).1 this⟩
  cases h with
  | oBracket => exact .oBracket
  | cBracket => exact .cBracket
  | oBrace => exact .oBrace
  | cBrace => exact .cBrace
  | comma => exact .comma
  | colon => exact .colon
  | str _ v h => exact .str _ v h
  | num _ h1 h2 h3 => exact .num _ h1 (by unfold NumStop; rw [(key h3).1]; exact h2) (key h3).2
  | tru h2 h3 => exact .tru (by unfold NoLower; rw [(key h3).1]; exact h2) (key h3).2
  | fals h2 h3 => exact .fals (by unfold NoLower; rw [(key h3).1]; exact h2) (key h3).2
  | null h2 h3 => exact .null (by unfold NoLower; rw [(key h3).1]; exact h2) (key h3).2

theorem lex_ok_ext {fin : Err} (hfin : fin ≠ .eoi) {t rest : List Char} {tok : Tok} (h : lex fin t = .ok (tok, rest))
    (fin' : Err) (b : List Char) : lex fin' (t ++ b) = .ok (tok, rest ++ b) := by
  obtain ⟨w, s, hw, rfl, hs⟩ := (lex_iff fin t tok rest).mp h
  rw [lex_iff]
  exact ⟨w, s, hw, by simp, tok_ext hfin hs fin' b⟩

/-- The error is the reader's, or the function fails however the text continues. -/
def ErrExt {α : Type} (fin : Err) (f : Err → List Char → Except Err α) (t : List Char) : Prop :=
  ∀ e, f fin t = .error e → e = fin ∨ ∀ fin' b, ∃ e', f fin' (t ++ b) = .error e'

theorem endErr_fin {fin : Err} (hfin : fin ≠ .eoi) (m : Err) : endErr fin m = fin := if_neg hfin

theorem readHex_err {fin : Err} (hfin : fin ≠ .eoi) (n : Nat) : ∀ (v : Nat) (t : List Char), ErrExt fin (fun f t => readHex f n v t) t := by
  induction n with
  | zero => intro v t e h; simp [readHex] at h
  | succ n ih =>
    intro v t e h
    cases t with
    | nil => simp only [readHex, endErr_fin hfin] at h; cases h; exact .inl rfl
    | cons c t =>
      simp only [readHex] at h ⊢
      simp only [List.cons_append, readHex]
      cases hx : hexVal c with
      | none => right; intro _ _; exact ⟨_, rfl⟩
      | some d => rw [hx] at h; exact ih _ _ _ h

theorem readHex_ok {fin : Err} (n : Nat) : ∀ (v : Nat) (t : List Char) (x : Nat) (r : List Char), readHex fin n v t = .ok (x, r) →
    ∀ fin' b, readHex fin' n v (t ++ b) = .ok (x, r ++ b) := by
  induction n with
  | zero => intro v t x r h fin' b; simp [readHex] at h ⊢; exact ⟨h.1, by rw [h.2]⟩
  | succ n ih =>
    intro v t x r h fin' b
    cases t with
    | nil => simp [readHex] at h
    | cons c t =>
      simp only [readHex, List.cons_append] at h ⊢
      cases hx : hexVal c with
      | none => rw [hx] at h; cases h
      | some d => rw [hx] at h; exact ih _ _ _ _ h _ _

theorem lexSurrogate_err {fin : Err} (hfin : fin ≠ .eoi) (h : Nat) (t : List Char) : ErrExt fin (fun f t => lexSurrogate f h t) t := by
  intro e he
  simp only [lexSurrogate, endErr_fin hfin] at he ⊢
  split at he
  · rename_i hs
    simp only [hs, if_true]
    cases t with
    | nil => cases he; exact .inl rfl
    | cons c t =>
      simp only [List.cons_append] at he ⊢
      split at he
      · rename_i hc; simp only [if_pos hc]; exact .inr fun _ _ => ⟨_, rfl⟩
      · rename_i hc; simp only [if_neg hc]
        cases t with
        | nil => cases he; exact .inl rfl
        | cons c t =>
          simp only [List.cons_append] at he ⊢
          split at he
          · rename_i hc; simp only [if_pos hc]; exact .inr fun _ _ => ⟨_, rfl⟩
          · rename_i hc; simp only [if_neg hc]
            cases hx : readHex fin 4 0 t with
            | error e' =>
              rw [hx] at he
              cases he
              rcases readHex_err hfin 4 0 t _ hx with h1 | h1
              · exact .inl h1
              · right; intro f b
                obtain ⟨e2, h2⟩ := h1 f b
                simp only at h2
                exact ⟨e2, by rw [h2]⟩
            | ok p =>
              obtain ⟨x, r⟩ := p
              rw [hx] at he
              right; intro f b
              rw [readHex_ok 4 0 t x r hx f b]
              simp only at he ⊢
              split at he
              · rename_i h; rw [if_pos h]; exact ⟨_, rfl⟩
              · rename_i h; rw [if_neg h]
                split at he
                · exact ⟨_, rfl⟩
                · cases he
  · cases he

theorem lexSurrogate_ok {fin : Err} (h : Nat) (t : List Char) (x : Nat) (r : List Char) (he : lexSurrogate fin h t = .ok (x, r)) (fin' b) :
    lexSurrogate fin' h (t ++ b) = .ok (x, r ++ b) := by
  unfold lexSurrogate at he ⊢
  split at he
  · rename_i hs
    simp only [hs, if_true]
    cases t with
    | nil => cases he
    | cons c t =>
      simp only [List.cons_append] at he ⊢
      split at he
      · cases he
      · rename_i hc; rw [if_neg hc]
        cases t with
        | nil => cases he
        | cons c t =>
          simp only [List.cons_append] at he ⊢
          split at he
          · cases he
          · rename_i hc; rw [if_neg hc]
            cases hx : readHex fin 4 0 t with
            | error e' => rw [hx] at he; cases he
            | ok p =>
              obtain ⟨y, q⟩ := p
              rw [hx] at he
              rw [readHex_ok 4 0 t y q hx fin' b]
              simp only at he ⊢
              split at he
              · cases he
              · rename_i h; rw [if_neg h]
                split at he
                · cases he
                · cases he; rfl
  · rename_i hs; rw [if_neg hs]; cases he; rfl

theorem lexEscape_err {fin : Err} (hfin : fin ≠ .eoi) (t : List Char) : ErrExt fin lexEscape t := by
  intro e he
  cases t with
  | nil => simp only [lexEscape, endErr_fin hfin] at he; cases he; exact .inl rfl
  | cons c t =>
    simp only [List.cons_append, lexEscape] at he ⊢
    split at he
    · cases he
    · rename_i hc; simp only [if_neg hc]
      split at he
      · cases he
      · split at he
        · rename_i hu; simp only [if_pos hu]
          cases hr : readHex fin 4 0 t with
          | error e' =>
            rw [hr] at he
            cases he
            rcases readHex_err hfin 4 0 t _ hr with h1 | h1
            · exact .inl h1
            · right; intro f b
              obtain ⟨e2, h2⟩ := h1 f b
              simp only at h2
              exact ⟨e2, by rw [h2]⟩
          | ok p =>
            obtain ⟨x, r⟩ := p
            rw [hr] at he
            simp only at he
            cases hs : lexSurrogate fin x r with
            | error e' =>
              rw [hs] at he
              cases he
              rcases lexSurrogate_err hfin x r _ hs with h1 | h1
              · exact .inl h1
              · right; intro f b
                obtain ⟨e2, h2⟩ := h1 f b
                simp only at h2
                rw [readHex_ok 4 0 t x r hr f b]
                exact ⟨e2, by simp only [h2]⟩
            | ok p => rw [hs] at he; cases he
        · rename_i hu; simp only [if_neg hu]; exact .inr fun _ _ => ⟨_, rfl⟩

theorem lexEscape_ok {fin : Err} (t : List Char) (x) (r : List Char) (he : lexEscape fin t = .ok (x, r)) (fin' b) :
    lexEscape fin' (t ++ b) = .ok (x, r ++ b) := by
  cases t with
  | nil => simp [lexEscape] at he
  | cons c t =>
    simp only [List.cons_append, lexEscape] at he ⊢
    split at he
    · rename_i hc; rw [if_pos hc]; cases he; rfl
    · rename_i hc; rw [if_neg hc]
      split at he
      · cases he; rfl
      · split at he
        · rename_i hu; rw [if_pos hu]
          cases hr : readHex fin 4 0 t with
          | error e' => rw [hr] at he; cases he
          | ok p =>
            obtain ⟨y, q⟩ := p
            rw [hr] at he
            rw [readHex_ok 4 0 t y q hr fin' b]
            simp only at he ⊢
            cases hs : lexSurrogate fin y q with
            | error e' => rw [hs] at he; cases he
            | ok p =>
              obtain ⟨z, q2⟩ := p
              rw [hs] at he
              rw [lexSurrogate_ok y q z q2 hs fin' b]
              cases he; rfl
        · cases he

theorem lexStrLoop_err {fin : Err} (hfin : fin ≠ .eoi) (n : Nat) : ∀ (str t : List Char), t.length ≤ n →
    ErrExt fin (fun f t => lexStrLoop f str t) t := by
  induction n with
  | zero =>
    intro str t hn e he
    have : t = [] := List.length_eq_zero_iff.mp (by omega)
    subst this
    simp only at he
    rw [lexStrLoop, endErr_fin hfin] at he
    cases he; exact .inl rfl
  | succ n ih =>
    intro str t hn e he
    cases t with
    | nil => simp only at he; rw [lexStrLoop, endErr_fin hfin] at he; cases he; exact .inl rfl
    | cons c t =>
      simp only [List.cons_append] at he ⊢
      simp only [List.length_cons] at hn
      rw [lexStrLoop] at he
      by_cases h1 : c < ' '
      · right; intro f b; rw [lexStrLoop, if_pos h1]; exact ⟨_, rfl⟩
      · rw [if_neg h1] at he
        by_cases h2 : c = '\\'
        · rw [if_pos h2] at he
          cases hx : lexEscape fin t with
          | error e' =>
            rw [hx] at he
            cases he
            rcases lexEscape_err hfin t _ hx with h3 | h3
            · exact .inl h3
            · right; intro f b
              obtain ⟨e2, h4⟩ := h3 f b
              rw [lexStrLoop, if_neg h1, if_pos h2, h4]
              exact ⟨_, rfl⟩
          | ok p =>
            obtain ⟨⟨cont, x⟩, r⟩ := p
            rw [hx] at he
            have hl := lexEscape_length hx
            simp only at he
            by_cases h3 : cont = false ∧ x = '"'
            · rw [if_pos h3] at he; cases he
            · rw [if_neg h3] at he
              rcases ih (str ++ [x]) r (by omega) e he with h4 | h4
              · exact .inl h4
              · right; intro f b
                obtain ⟨e2, h5⟩ := h4 f b
                rw [lexStrLoop, if_neg h1, if_pos h2, lexEscape_ok t _ r hx f b]
                simp only at h5 ⊢
                rw [if_neg h3]
                exact ⟨e2, h5⟩
        · rw [if_neg h2] at he
          by_cases h3 : c = '"'
          · rw [if_pos h3] at he; cases he
          · rw [if_neg h3] at he
            rcases ih (str ++ [c]) t (by omega) e he with h4 | h4
            · exact .inl h4
            · right; intro f b
              obtain ⟨e2, h5⟩ := h4 f b
              rw [lexStrLoop, if_neg h1, if_neg h2, if_neg h3]
              exact ⟨e2, h5⟩

theorem numExpLoop_err {fin : Err} (hfin : fin ≠ .eoi) (t : List Char) : ∀ (str : List Char) (hd : Bool),
    ErrExt fin (fun f t => numExpLoop f str hd t) t := by
  induction t with
  | nil =>
    intro str hd e he
    simp only [numExpLoop, hfin, false_and, if_false, endErr_fin hfin] at he
    cases he; exact .inl rfl
  | cons c t ih =>
    intro str hd e he
    simp only [List.cons_append, numExpLoop] at he ⊢
    split at he
    · rename_i h; simp only [if_pos h]; exact ih _ _ e he
    · rename_i h; simp only [if_neg h]
      split at he
      · cases he
      · rename_i h2; simp only [if_neg h2]; exact .inr fun _ _ => ⟨_, rfl⟩

theorem numExp_err {fin : Err} (hfin : fin ≠ .eoi) (str t : List Char) : ErrExt fin (fun f t => numExp f str t) t := by
  intro e he
  cases t with
  | nil => simp only [numExp, endErr_fin hfin] at he; cases he; exact .inl rfl
  | cons c t =>
    simp only [List.cons_append, numExp] at he ⊢
    split at he
    · rename_i h; simp only [if_pos h]; exact numExpLoop_err hfin _ _ _ e he
    · rename_i h; simp only [if_neg h]; exact numExpLoop_err hfin (c :: t) _ _ e he

theorem numFrac_err {fin : Err} (hfin : fin ≠ .eoi) (t : List Char) : ∀ (str : List Char) (hd : Bool),
    ErrExt fin (fun f t => numFrac f str hd t) t := by
  induction t with
  | nil =>
    intro str hd e he
    simp only [numFrac, hfin, if_false] at he
    cases he; exact .inl rfl
  | cons c t ih =>
    intro str hd e he
    simp only [List.cons_append, numFrac] at he ⊢
    split at he
    · rename_i h; simp only [if_pos h]; exact ih _ _ e he
    · rename_i h; simp only [if_neg h]
      split at he
      · rename_i h2; simp only [if_pos h2]
        split at he
        · rename_i h3; simp only [if_pos h3]; exact numExp_err hfin _ _ e he
        · rename_i h3; simp only [if_neg h3]; exact .inr fun _ _ => ⟨_, rfl⟩
      · rename_i h2; simp only [if_neg h2]
        split at he
        · cases he
        · rename_i h3; simp only [if_neg h3]; exact .inr fun _ _ => ⟨_, rfl⟩

theorem numInt_err {fin : Err} (hfin : fin ≠ .eoi) (t : List Char) : ∀ (str : List Char) (hd lz : Bool),
    ErrExt fin (fun f t => numInt f str hd lz t) t := by
  induction t with
  | nil =>
    intro str hd lz e he
    simp only [numInt, hfin, if_false] at he
    cases he; exact .inl rfl
  | cons c t ih =>
    intro str hd lz e he
    simp only [List.cons_append, numInt] at he ⊢
    split at he
    · rename_i h; simp only [if_pos h]
      split at he
      · rename_i h2; simp only [if_pos h2]; exact .inr fun _ _ => ⟨_, rfl⟩
      · rename_i h2; simp only [if_neg h2]; exact ih _ _ _ e he
    · rename_i h; simp only [if_neg h]
      split at he
      · rename_i h2; simp only [if_pos h2]
        split at he
        · rename_i h3; simp only [if_pos h3]; exact numFrac_err hfin _ _ _ e he
        · rename_i h3; simp only [if_neg h3]; exact .inr fun _ _ => ⟨_, rfl⟩
      · rename_i h2; simp only [if_neg h2]
        split at he
        · rename_i h3; simp only [if_pos h3]
          split at he
          · rename_i h4; simp only [if_pos h4]; exact numExp_err hfin _ _ e he
          · rename_i h4; simp only [if_neg h4]; exact .inr fun _ _ => ⟨_, rfl⟩
        · rename_i h3; simp only [if_neg h3]
          split at he
          · cases he
          · rename_i h4; simp only [if_neg h4]; exact .inr fun _ _ => ⟨_, rfl⟩

theorem takeWhile_ext {p : Char → Bool} {t : List Char} (h : t.dropWhile p ≠ []) (b : List Char) :
    (t ++ b).takeWhile p = t.takeWhile p ∧ (t ++ b).dropWhile p = t.dropWhile p ++ b := by
  induction t with
  | nil => simp at h
  | cons c t ih =>
    by_cases hc : p c = true
    · rw [List.dropWhile_cons_of_pos hc] at h
      simp [hc, ih h]
    · simp [hc]

theorem lexBooleanNull_err {fin : Err} (hfin : fin ≠ .eoi) (t : List Char) : ErrExt fin lexBooleanNull t := by
  intro e he
  unfold lexBooleanNull at he
  simp only at he
  by_cases h1 : t.dropWhile isLower = []
  · rw [if_pos ⟨h1, hfin⟩] at he; cases he; exact .inl rfl
  · rw [if_neg (fun h => h1 h.1)] at he
    right; intro f b
    unfold lexBooleanNull
    simp only [takeWhile_ext h1 b]
    rw [if_neg (by intro h; exact h1 (List.append_eq_nil_iff.mp h.1).1)]
    split at he
    · cases he
    · rename_i h2; rw [if_neg h2]
      split at he
      · cases he
      · rename_i h2; rw [if_neg h2]
        split at he
        · cases he
        · rename_i h2; rw [if_neg h2]; exact ⟨_, rfl⟩

theorem lex_err {fin : Err} (hfin : fin ≠ .eoi) (t : List Char) : ErrExt fin lex t := by
  intro e he
  unfold lex at he
  by_cases h1 : t.dropWhile isWs = []
  · rw [h1] at he; cases he; exact .inl rfl
  · have hext := fun b => (takeWhile_ext h1 b).2
    cases hd : t.dropWhile isWs with
    | nil => exact absurd hd h1
    | cons c u =>
      rw [hd] at he
      simp only at he
      have hl : ∀ f b, lex f (t ++ b) = (match c :: (u ++ b) with
        | [] => .error f
        | c :: t =>
          if c = '[' then .ok (.oBracket, t)
          else if c = ']' then .ok (.cBracket, t)
          else if c = '{' then .ok (.oBrace, t)
          else if c = '}' then .ok (.cBrace, t)
          else if c = ',' then .ok (.comma, t)
          else if c = ':' then .ok (.colon, t)
          else if c = '"' then lexString f t
          else if c = '-' ∨ isDigit c = true then lexNumber f c t
          else if c = 't' ∨ c = 'f' ∨ c = 'n' then lexBooleanNull f (c :: t)
          else .error eInvalidChar) := by
        intro f b
        unfold lex
        rw [hext b, hd]; rfl
      simp only [hl]
      iterate 6 (split at he; (cases he); (rename_i h; simp only [if_neg h]))
      split at he
      · rename_i h; simp only [if_pos h]
        unfold lexString at he ⊢
        cases hx : lexStrLoop fin [] u with
        | error e' =>
          rw [hx] at he; cases he
          rcases lexStrLoop_err hfin _ [] u (Nat.le_refl _) _ hx with h2 | h2
          · exact .inl h2
          · right; intro f b
            obtain ⟨e2, h3⟩ := h2 f b
            simp only at h3
            exact ⟨e2, by rw [h3]⟩
        | ok p => rw [hx] at he; cases he
      · rename_i h; simp only [if_neg h]
        split at he
        · rename_i h; simp only [if_pos h]
          unfold lexNumber at he ⊢
          cases hx : numInt fin [c] (decide (c ≠ '-')) (decide (c = '0')) u with
          | error e' =>
            rw [hx] at he; cases he
            rcases numInt_err hfin u _ _ _ _ hx with h2 | h2
            · exact .inl h2
            · right; intro f b
              obtain ⟨e2, h3⟩ := h2 f b
              simp only at h3
              exact ⟨e2, by rw [h3]⟩
          | ok p => rw [hx] at he; cases he
        · rename_i h; simp only [if_neg h]
          split at he
          · rename_i h; simp only [if_pos h]
            rcases lexBooleanNull_err hfin (c :: u) _ he with h2 | h2
            · exact .inl h2
            · right; intro f b
              exact h2 f b
          · rename_i h; simp only [if_neg h]; exact .inr fun _ _ => ⟨_, rfl⟩

/-- What a parsing function returns for a longer text, if the reader failed at the end of the shorter one. -/
def Ext (fin : Err) (f : List Char → PRes) (t : List Char) (r : Except Err (JVal × List Char)) : Prop :=
  (∀ v rest, r = .ok (v, rest) → ∀ b, f (t ++ b) = some (.ok (v, rest ++ b))) ∧
  (∀ e, r = .error e → e = fin ∨ ∀ b, ∃ e', f (t ++ b) = some (.error e'))

theorem ext_ok {fin : Err} {f : List Char → PRes} {t rest : List Char} {v : JVal}
    (h : ∀ b, f (t ++ b) = some (.ok (v, rest ++ b))) : Ext fin f t (.ok (v, rest)) :=
  ⟨(by intro v' rest' h'; cases h'; exact h), (by intro e h; cases h)⟩

theorem ext_err {fin : Err} {f : List Char → PRes} {t : List Char} {e : Err}
    (h : e = fin ∨ ∀ b, ∃ e', f (t ++ b) = some (.error e')) : Ext fin f t (.error e) :=
  ⟨(by intro v rest h'; cases h'), (by intro e' h'; cases h'; exact h)⟩

theorem ext_congr {fin : Err} {f g : List Char → PRes} {t u : List Char} {r : Except Err (JVal × List Char)}
    (h : ∀ b, f (t ++ b) = g (u ++ b)) (hg : Ext fin g u r) : Ext fin f t r := by
  refine ⟨fun v rest hr b => by rw [h]; exact hg.1 v rest hr b, fun e hr => ?_⟩
  rcases hg.2 e hr with h1 | h1
  · exact .inl h1
  · exact .inr fun b => by rw [h]; exact h1 b

theorem ext_all {fin : Err} (hfin : fin ≠ .eoi) (fin' : Err) :
    (∀ tok t r, parseValue fin tok t = some r → Ext fin (parseValue fin' tok) t r) ∧
    (∀ t r, parseArrFirst fin t = some r → Ext fin (parseArrFirst fin') t r) ∧
    (∀ vs t r, parseArrRest fin vs t = some r → Ext fin (parseArrRest fin' vs) t r) ∧
    (∀ obj t r, parseObject fin obj t = some r → Ext fin (parseObject fin' obj) t r) := by
  have L : ∀ {t : List Char} {e m : Err} {f : List Char → PRes}, lex fin t = .error e →
      (∀ b e', lex fin' (t ++ b) = .error e' → ∃ e'', f (t ++ b) = some (.error e'')) →
      Ext fin f t (.error (endErr e m)) := by
    intro t e m f h hf
    apply ext_err
    rcases lex_err hfin t e h with h1 | h1
    · left; rw [h1, endErr_fin hfin]
    · right; intro b
      obtain ⟨e', h2⟩ := h1 fin' b
      exact hf b e' h2
  refine parseValue.mutual_partial_correctness fin (fun tok t r => Ext fin (parseValue fin' tok) t r)
    (fun t r => Ext fin (parseArrFirst fin') t r) (fun vs t r => Ext fin (parseArrRest fin' vs) t r)
    (fun obj t r => Ext fin (parseObject fin' obj) t r) ?_ ?_ ?_ ?_
  · intro pa po ha ho tok t r h
    cases tok <;> simp only at h
    case oBrace => exact ext_congr (fun b => by rw [parseValue.eq_def]) (ho _ _ _ h)
    case oBracket => exact ext_congr (fun b => by rw [parseValue.eq_def]) (ha _ _ h)
    all_goals (cases h; exact ext_ok fun b => by rw [parseValue.eq_def])
  · intro pv pr hv hr t r h
    cases hl : lex fin t with
    | error e =>
      rw [hl] at h; cases h
      exact L hl fun b e' h' => ⟨_, by rw [parseArrFirst.eq_def, h']⟩
    | ok p =>
      obtain ⟨tok, t1⟩ := p
      rw [hl] at h
      simp only at h
      have hx := lex_ok_ext hfin hl fin'
      by_cases h2 : tok = .cBracket
      · rw [if_pos h2] at h; cases h
        exact ext_ok fun b => by rw [parseArrFirst.eq_def, hx]; simp [h2]
      · rw [if_neg h2] at h
        have hf : ∀ b, parseArrFirst fin' (t ++ b) = parseValue fin' tok (t1 ++ b) >>= fun r => match r with
            | .error e => some (.error e)
            | .ok (v, t) => parseArrRest fin' [v] t := by
          intro b; rw [parseArrFirst.eq_def, hx]; simp only [if_neg h2]; rfl
        cases hp : pv tok t1 with
        | none => rw [hp] at h; simp at h
        | some r1 =>
          have hE := hv _ _ _ hp
          rw [hp] at h
          simp only [Option.bind_eq_bind, Option.bind_some] at h
          cases r1 with
          | error e =>
            cases h
            apply ext_err
            rcases hE.2 e rfl with h3 | h3
            · exact .inl h3
            · right; intro b
              obtain ⟨e', h4⟩ := h3 b
              exact ⟨e', by rw [hf, h4]; rfl⟩
          | ok q =>
            obtain ⟨v, t2⟩ := q
            exact ext_congr (fun b => by rw [hf, hE.1 v t2 rfl]; rfl) (hr _ _ _ h)
  · intro pv pr hv hr vs t r h
    cases hl : lex fin t with
    | error e =>
      rw [hl] at h; cases h
      exact L hl fun b e' h' => ⟨_, by rw [parseArrRest.eq_def, h']⟩
    | ok p =>
      obtain ⟨tok, t1⟩ := p
      rw [hl] at h
      have hx := lex_ok_ext hfin hl fin'
      cases tok <;> simp only at h
      case comma =>
        cases hl2 : lex fin t1 with
        | error e =>
          rw [hl2] at h; cases h
          refine ext_congr (g := fun u => match lex fin' u with
            | .error e => some (.error (endErr e eArrValue))
            | .ok (tok, t) =>
              parseValue fin' tok t >>= fun r => match r with
              | .error e => some (.error e)
              | .ok (v, t) => parseArrRest fin' (vs ++ [v]) t) (u := t1) (fun b => by rw [parseArrRest.eq_def, hx]; rfl) ?_
          exact L hl2 fun b e' h' => ⟨_, by simp only [h']; rfl⟩
        | ok p =>
          obtain ⟨tok, t2⟩ := p
          rw [hl2] at h
          simp only at h
          have hx2 := lex_ok_ext hfin hl2 fin'
          have hf : ∀ b, parseArrRest fin' vs (t ++ b) = parseValue fin' tok (t2 ++ b) >>= fun r => match r with
              | .error e => some (.error e)
              | .ok (v, t) => parseArrRest fin' (vs ++ [v]) t := by
            intro b; rw [parseArrRest.eq_def, hx]; simp only [hx2]; rfl
          cases hp : pv tok t2 with
          | none => rw [hp] at h; simp at h
          | some r1 =>
            have hE := hv _ _ _ hp
            rw [hp] at h
            simp only [Option.bind_eq_bind, Option.bind_some] at h
            cases r1 with
            | error e =>
              cases h
              apply ext_err
              rcases hE.2 e rfl with h3 | h3
              · exact .inl h3
              · right; intro b
                obtain ⟨e', h4⟩ := h3 b
                exact ⟨e', by rw [hf, h4]; rfl⟩
            | ok q =>
              obtain ⟨v, t3⟩ := q
              exact ext_congr (fun b => by rw [hf, hE.1 v t3 rfl]; rfl) (hr _ _ _ h)
      case cBracket => cases h; exact ext_ok fun b => by rw [parseArrRest.eq_def, hx]
      all_goals (cases h; exact ext_err (.inr fun b => ⟨_, by rw [parseArrRest.eq_def, hx]⟩))
  · intro pv po hv ho obj t r h
    cases hl : lex fin t with
    | error e =>
      rw [hl] at h; cases h
      exact L hl fun b e' h' => ⟨_, by rw [parseObject.eq_def, h']⟩
    | ok p =>
      obtain ⟨tok, t1⟩ := p
      rw [hl] at h
      have hx := lex_ok_ext hfin hl fin'
      cases tok <;> simp only at h
      case cBrace => cases h; exact ext_ok fun b => by rw [parseObject.eq_def, hx]
      case str k =>
        by_cases hk : k ∈ obj.map Prod.fst
        · rw [if_pos hk] at h; cases h
          exact ext_err (.inr fun b => ⟨_, by rw [parseObject.eq_def, hx]; simp only [if_pos hk]; rfl⟩)
        · rw [if_neg hk] at h
          cases hl2 : lex fin t1 with
          | error e =>
            rw [hl2] at h; cases h
            apply ext_err
            rcases lex_err hfin t1 e hl2 with h1 | h1
            · left; rw [h1, endErr_fin hfin]
            · right; intro b
              obtain ⟨e', h2⟩ := h1 fin' b
              exact ⟨_, by rw [parseObject.eq_def, hx]; simp only [if_neg hk, h2]; rfl⟩
          | ok p =>
            obtain ⟨tok, t2⟩ := p
            rw [hl2] at h
            have hx2 := lex_ok_ext hfin hl2 fin'
            cases tok <;> simp only at h
            case colon =>
              cases hl3 : lex fin t2 with
              | error e =>
                rw [hl3] at h; cases h
                apply ext_err
                rcases lex_err hfin t2 e hl3 with h1 | h1
                · left; rw [h1, endErr_fin hfin]
                · right; intro b
                  obtain ⟨e', h2⟩ := h1 fin' b
                  exact ⟨_, by rw [parseObject.eq_def, hx]; simp only [if_neg hk, hx2, h2]; rfl⟩
              | ok p =>
                obtain ⟨tok, t3⟩ := p
                rw [hl3] at h
                simp only at h
                have hx3 := lex_ok_ext hfin hl3 fin'
                have hf : ∀ b, parseObject fin' obj (t ++ b) = parseValue fin' tok (t3 ++ b) >>= fun r => match r with
                    | .error e => some (.error e)
                    | .ok (v, t) =>
                      match lex fin' t with
                      | .error e => some (.error (endErr e eObjCommaOrBrace))
                      | .ok (.comma, t) => parseObject fin' (obj ++ [(k, v)]) t
                      | .ok (.cBrace, t) => some (.ok (.obj (obj ++ [(k, v)]), t))
                      | .ok _ => some (.error eObjCommaOrBrace) := by
                  intro b; rw [parseObject.eq_def, hx]; simp only [if_neg hk, hx2, hx3]; rfl
                cases hp : pv tok t3 with
                | none => rw [hp] at h; simp at h
                | some r1 =>
                  have hE := hv _ _ _ hp
                  rw [hp] at h
                  simp only [Option.bind_eq_bind, Option.bind_some] at h
                  cases r1 with
                  | error e =>
                    cases h
                    apply ext_err
                    rcases hE.2 e rfl with h3 | h3
                    · exact .inl h3
                    · right; intro b
                      obtain ⟨e', h4⟩ := h3 b
                      exact ⟨e', by rw [hf, h4]; rfl⟩
                  | ok q =>
                    obtain ⟨v, t4⟩ := q
                    simp only at h
                    have hE1 := hE.1 v t4 rfl
                    cases hl4 : lex fin t4 with
                    | error e =>
                      rw [hl4] at h; cases h
                      apply ext_err
                      rcases lex_err hfin t4 e hl4 with h1 | h1
                      · left; rw [h1, endErr_fin hfin]
                      · right; intro b
                        obtain ⟨e', h2⟩ := h1 fin' b
                        exact ⟨_, by rw [hf, hE1]; simp only [Option.bind_eq_bind, Option.bind_some, h2]; rfl⟩
                    | ok p =>
                      obtain ⟨tok, t5⟩ := p
                      rw [hl4] at h
                      have hx4 := lex_ok_ext hfin hl4 fin'
                      cases tok <;> simp only at h
                      case comma =>
                        exact ext_congr (fun b => by rw [hf, hE1]; simp only [Option.bind_eq_bind, Option.bind_some, hx4]) (ho _ _ _ h)
                      case cBrace =>
                        cases h
                        exact ext_ok fun b => by rw [hf, hE1]; simp only [Option.bind_eq_bind, Option.bind_some, hx4]
                      all_goals (cases h; exact ext_err (.inr fun b => ⟨_, by
                        rw [hf, hE1]; simp only [Option.bind_eq_bind, Option.bind_some, hx4]; rfl⟩))
            all_goals (cases h; exact ext_err (.inr fun b => ⟨_, by
                        rw [parseObject.eq_def, hx]; simp only [if_neg hk, hx2]; rfl⟩))
      all_goals (cases h; exact ext_err (.inr fun b => ⟨_, by rw [parseObject.eq_def, hx]⟩))

theorem parse_ext {fin : Err} (hfin : fin ≠ .eoi) (fin' : Err) (t : List Char) (r) (h : parse fin t = some r) :
    Ext fin (parse fin') t r := by
  unfold parse at h
  cases hl : lex fin t with
  | error e =>
    rw [hl] at h; cases h
    apply ext_err
    rcases lex_err hfin t e hl with h1 | h1
    · left; rw [h1, endErr_fin hfin]
    · right; intro b
      obtain ⟨e', h2⟩ := h1 fin' b
      exact ⟨_, by unfold parse; rw [h2]⟩
  | ok p =>
    obtain ⟨tok, t1⟩ := p
    rw [hl] at h
    simp only at h
    have hx := lex_ok_ext hfin hl fin'
    by_cases hc : tok = .oBrace ∨ tok = .oBracket
    · rw [if_pos hc] at h
      exact ext_congr (fun b => by unfold parse; rw [hx]; simp only [if_pos hc]) ((ext_all hfin fin').1 _ _ _ h)
    · rw [if_neg hc] at h; cases h
      exact ext_err (.inr fun b => ⟨_, by unfold parse; rw [hx]; simp only [if_neg hc]; rfl⟩)

end Micro.Json
