import Verif.Json.IterLemmas
import Verif.Json.ValueProps
/-
Lemmas for C155: Iterate of a text that goes on, or stops.
-/
namespace Micro.Json
open Micro Micro.Iter Micro.Stream

theorem ws_split {w w' s s' : List Char} {c c' : Char} (hw : Ws w) (hw' : Ws w') (hc : isWs c = false) (hc' : isWs c' = false)
    (h : w ++ c :: s = w' ++ c' :: s') : w = w' ∧ c = c' ∧ s = s' := by
  have h1 : (w ++ c :: s).dropWhile isWs = c :: s := dropWs hw rfl hc
  have h2 : (w' ++ c' :: s').dropWhile isWs = c' :: s' := dropWs hw' rfl hc'
  rw [h, h2] at h1
  simp only [List.cons.injEq] at h1
  obtain ⟨rfl, rfl⟩ := h1
  exact ⟨List.append_cancel_right h, rfl, rfl⟩

theorem tok_more {fin : Err} {rest s : List Char} {tok : Tok} (hr : rest ≠ []) (h : TokText fin rest tok s)
    (fin' : Err) (b : List Char) : TokText fin' (rest ++ b) tok s := by
  have k1 := head_app (b := b) hr
  have k2 : EndOk fin' (rest ++ b) := fun h => absurd (List.append_eq_nil_iff.mp h).1 hr
  cases h with
  | oBracket => exact .oBracket
  | cBracket => exact .cBracket
  | oBrace => exact .oBrace
  | cBrace => exact .cBrace
  | comma => exact .comma
  | colon => exact .colon
  | str _ v h => exact .str _ v h
  | num _ h1 h2 h3 => exact .num _ h1 (by unfold NumStop; rw [k1]; exact h2) k2
  | tru h2 h3 => exact .tru (by unfold NoLower; rw [k1]; exact h2) k2
  | fals h2 h3 => exact .fals (by unfold NoLower; rw [k1]; exact h2) k2
  | null h2 h3 => exact .null (by unfold NoLower; rw [k1]; exact h2) k2

/-- The token whose text begins like a literal is that literal. -/
theorem tok_lit {fin : Err} {rest s : List Char} {tok : Tok} (h : TokText fin rest tok s) :
    (s.head? = some 't' → tok = .bool true ∧ s = ['t', 'r', 'u', 'e']) ∧
    (s.head? = some 'f' → tok = .bool false ∧ s = ['f', 'a', 'l', 's', 'e']) ∧
    (s.head? = some 'n' → tok = .null ∧ s = ['n', 'u', 'l', 'l']) ∧
    ((∃ c, s.head? = some c ∧ (c = '-' ∨ isDigit c = true)) → tok = .num s) := by
  cases h with
  | str _ v h =>
    obtain ⟨b, q, -, -, rfl⟩ := h
    refine ⟨by simp, by simp, by simp, ?_⟩
    rintro ⟨c, h1, h2⟩
    simp at h1; subst h1
    rcases h2 with h2 | h2
    · cases h2
    · exact absurd h2 (by decide)
  | num _ h =>
    obtain ⟨c, t, rfl, hc⟩ := numLit_head h
    refine ⟨?_, ?_, ?_, fun _ => rfl⟩ <;>
    · intro h
      simp at h; subst h
      rcases hc with hc | hc
      · cases hc
      · exact absurd hc (by decide)
  | _ =>
    refine ⟨by simp, by simp, by simp, ?_⟩
    rintro ⟨c, h1, h2⟩
    simp at h1; subst h1
    rcases h2 with h2 | h2
    · cases h2
    · exact absurd h2 (by decide)

/-- What lexing the longer text gives, when lexing the shorter one gives a token. -/
theorem lex_cut {fin : Err} {a rest : List Char} {tok : Tok} (h : lex fin a = .ok (tok, rest)) (fin' : Err) (b : List Char) :
    lex fin' (a ++ b) = .ok (tok, rest ++ b) ∨
    (fin = .eoi ∧ rest = [] ∧ ((∃ e, lex fin' (a ++ b) = .error e) ∨
      ∃ s s' r, tok = .num s ∧ lex fin' (a ++ b) = .ok (.num s', r) ∧ s <+: s')) := by
  by_cases hf : fin = .eoi
  swap
  · exact .inl (lex_ok_ext hf h fin' b)
  subst hf
  obtain ⟨w, s, hw, hws, hs⟩ := (lex_iff .eoi a tok rest).mp h
  by_cases hr : rest = []
  swap
  · left
    rw [lex_iff]
    exact ⟨w, s, hw, by rw [hws]; simp, tok_more hr hs fin' b⟩
  subst hr
  obtain ⟨c, t, hct, hc⟩ := tokText_head hs
  cases hl : lex fin' (a ++ b) with
  | error e =>
    cases hs with
    | num | tru | fals | null => exact .inr ⟨rfl, rfl, .inl ⟨e, rfl⟩⟩
    | _ =>
      exfalso
      rw [hws, List.append_nil] at hl
      rw [lex_of hw (fin := fin') (rest := b) (by first | exact .oBracket | exact .cBracket | exact .oBrace | exact .cBrace | exact .comma | exact .colon | (rename_i h; exact .str _ _ h)) rfl] at hl
      cases hl
  | ok p =>
    obtain ⟨tok', r⟩ := p
    obtain ⟨w', s', hw', hws', hs'⟩ := (lex_iff fin' _ tok' r).mp hl
    obtain ⟨c', t', hct', hc'⟩ := tokText_head hs'
    rw [hws, hct, hct'] at hws'
    simp only [List.append_nil, List.append_assoc, List.cons_append] at hws'
    obtain ⟨rfl, rfl, htt⟩ := ws_split hw hw' hc hc' hws'
    obtain ⟨l1, l2, l3, l4⟩ := tok_lit hs'
    rw [hct'] at l1 l2 l3 l4
    cases hs with
    | num _ hn h2 h3 =>
      right
      refine ⟨rfl, rfl, .inr ?_⟩
      obtain ⟨d, u, hdu, hd⟩ := numLit_head hn
      rw [hct] at hdu
      simp only [List.cons.injEq] at hdu
      obtain ⟨rfl, rfl⟩ := hdu
      have := l4 ⟨c, rfl, hd⟩
      subst this
      refine ⟨_, _, r, rfl, rfl, ?_⟩
      rw [hct]
      rcases List.append_eq_append_iff.mp htt with ⟨x, hx1, hx2⟩ | ⟨x, hx1, hx2⟩
      · exact ⟨x, by rw [hx1]; rfl⟩
      · by_cases hx : x = []
        · subst hx; simp at hx1; subst hx1; exact ⟨[], by simp⟩
        · exfalso
          cases hs' with
          | num _ k1 k2 k3 =>
            have : lex .eoi a = .ok (.num (c :: t'), x) := by
              rw [lex_iff]
              refine ⟨w, c :: t', hw, by rw [hws, hct, hx1]; simp, .num _ k1 ?_ (fun h => absurd h hx)⟩
              unfold NumStop at k2 ⊢
              rw [hx2, head_app hx] at k2
              exact k2
            rw [h] at this
            simp only [Except.ok.injEq, Prod.mk.injEq] at this
            exact hx this.2.symm
    | tru h2 h3 =>
      simp only [List.cons.injEq] at hct
      obtain ⟨rfl, rfl⟩ := hct
      obtain ⟨rfl, k⟩ := l1 rfl
      simp only [List.cons.injEq, true_and] at k
      subst k
      left
      simp only [List.append_cancel_left_eq] at htt
      rw [htt]; rfl
    | fals h2 h3 =>
      simp only [List.cons.injEq] at hct
      obtain ⟨rfl, rfl⟩ := hct
      obtain ⟨rfl, k⟩ := l2 rfl
      simp only [List.cons.injEq, true_and] at k
      subst k
      left
      simp only [List.append_cancel_left_eq] at htt
      rw [htt]; rfl
    | null h2 h3 =>
      simp only [List.cons.injEq] at hct
      obtain ⟨rfl, rfl⟩ := hct
      obtain ⟨rfl, k⟩ := l3 rfl
      simp only [List.cons.injEq, true_and] at k
      subst k
      left
      simp only [List.append_cancel_left_eq] at htt
      rw [htt]; rfl
    | _ =>
      left
      rw [hws, List.append_nil] at hl
      rw [lex_of hw (fin := fin') (rest := b) (by first | exact .oBracket | exact .cBracket | exact .oBrace | exact .cBrace | exact .comma | exact .colon | (rename_i h; exact .str _ _ h)) rfl] at hl
      cases hl; rfl

/-- A value that has been read is read in the same way when the text goes on. -/
theorem parseValue_more {fin : Err} {tok : Tok} {t rest : List Char} {v : JVal} (h : parseValue fin tok t = some (.ok (v, rest)))
    (fin' : Err) (b : List Char) : parseValue fin' tok (t ++ b) = some (.ok (v, rest ++ b)) := by
  have key : ∀ c, (∀ fin t, lex fin (c :: t) = .ok (tok, t)) → (tok = .oBrace ∨ tok = .oBracket) →
      parseValue fin' tok (t ++ b) = some (.ok (v, rest ++ b)) := by
    intro c hc ht
    have hp : parse fin (c :: t) = some (.ok (v, rest)) := by unfold parse; rw [hc]; simp only; rw [if_pos ht]; exact h
    obtain ⟨pre, h1, h2⟩ := (c60_exact_partial fin _ v rest).mp hp
    have h3 := parse_complete fin' h2 (rest ++ b)
    rw [← List.append_assoc, ← h1, List.cons_append] at h3
    unfold parse at h3
    rw [hc] at h3
    simp only at h3
    rw [if_pos ht] at h3
    exact h3
  cases tok with
  | oBrace => exact key '{' (fun fin t => lex_of (w := []) ws_nil .oBrace (by simp)) (.inl rfl)
  | oBracket => exact key '[' (fun fin t => lex_of (w := []) ws_nil .oBracket (by simp)) (.inr rfl)
  | _ =>
    rw [parseValue.eq_def] at h ⊢
    simp only [Option.some.injEq, Except.ok.injEq, Prod.mk.injEq] at h ⊢
    obtain ⟨rfl, rfl⟩ := h
    exact ⟨rfl, rfl⟩

theorem lex_nil (fin : Err) : ∃ e, lex fin [] = .error e := by simp [lex]

/-- One element of the shorter and the longer text. -/
theorem arrayCall_cut {fin : Err} {first : Bool} {a : List Char} {x : JVal} {st : Bool × List Char}
    (h : arrayCall fin (first, a) = some (.ok x, st)) (fin' : Err) (b : List Char) :
    st.1 = false ∧ (arrayCall fin' (first, a ++ b) = some (.ok x, (false, st.2 ++ b)) ∨
      (fin = .eoi ∧ st.2 = [] ∧
        ((∃ e st', arrayCall fin' (first, a ++ b) = some (.error e, st') ∧ e ≠ .eoi) ∨
          ∃ s s' st', x = .num s ∧ arrayCall fin' (first, a ++ b) = some (.ok (.num s'), st') ∧ s <+: s'))) := by
  cases first with
  | true =>
    unfold arrayCall at h ⊢
    simp only [if_true] at h ⊢
    cases hl : lex fin a with
    | error e => rw [hl] at h; simp at h
    | ok p =>
      obtain ⟨tok, t1⟩ := p
      rw [hl] at h
      simp only at h
      by_cases hb : tok = .cBracket
      · rw [if_pos hb] at h; simp at h
      rw [if_neg hb] at h
      cases hv : parseValue fin tok t1 with
      | none => rw [hv] at h; cases h
      | some r =>
        rw [hv] at h
        cases r with
        | error e => simp at h
        | ok q =>
          obtain ⟨v, t2⟩ := q
          simp only [Option.some.injEq, Prod.mk.injEq, Except.ok.injEq] at h
          obtain ⟨rfl, rfl⟩ := h
          refine ⟨rfl, ?_⟩
          rcases lex_cut hl fin' b with h1 | ⟨hf, rfl, ⟨e, he⟩ | ⟨s, s', r, rfl, h1, h2⟩⟩
          · left
            rw [h1]
            simp only
            rw [if_neg hb, parseValue_more hv fin' b]
          · right
            rw [he]
            refine ⟨hf, ?_, .inl ⟨_, _, rfl, endErr_ok _ _ (by simp)⟩⟩
            obtain ⟨_, s, _, hs⟩ := (lex_iff fin a tok []).mp hl
            obtain ⟨r2, hr2, hok⟩ := soundVal (s := s) (by tauto)
            rw [hv] at hr2; cases hr2
            have := (hok v t2 rfl).1
            simp at this
            exact this
          · right
            rw [h1]
            rw [parseValue.eq_def] at hv
            simp only [Option.some.injEq, Except.ok.injEq, Prod.mk.injEq] at hv
            obtain ⟨rfl, rfl⟩ := hv
            refine ⟨hf, rfl, .inr ⟨s, s', (false, r), rfl, ?_, h2⟩⟩
            simp only
            rw [if_neg (by simp), parseValue.eq_def]
  | false =>
    unfold arrayCall at h ⊢
    simp only [Bool.false_eq_true, if_false] at h ⊢
    cases hl : lex fin a with
    | error e => rw [hl] at h; simp at h
    | ok p =>
      obtain ⟨tok, t1⟩ := p
      rw [hl] at h
      have hcm : tok = .comma := by
        revert h
        cases tok <;> simp
      subst hcm
      simp only at h
      cases hl2 : lex fin t1 with
      | error e => rw [hl2] at h; simp at h
      | ok p =>
        obtain ⟨tok, t2⟩ := p
        rw [hl2] at h
        simp only at h
        have h0 : lex fin' (a ++ b) = .ok (.comma, t1 ++ b) := by
          rcases lex_cut hl fin' b with h1 | ⟨-, rfl, -⟩
          · exact h1
          · obtain ⟨e, he⟩ := lex_nil fin
            rw [he] at hl2; cases hl2
        rw [h0]
        simp only
        cases hv : parseValue fin tok t2 with
        | none => rw [hv] at h; cases h
        | some r =>
          rw [hv] at h
          cases r with
          | error e => simp at h
          | ok q =>
            obtain ⟨v, t3⟩ := q
            simp only [Option.some.injEq, Prod.mk.injEq, Except.ok.injEq] at h
            obtain ⟨rfl, rfl⟩ := h
            refine ⟨rfl, ?_⟩
            rcases lex_cut hl2 fin' b with h1 | ⟨hf, rfl, ⟨e, he⟩ | ⟨s, s', r, rfl, h1, h2⟩⟩
            · left
              rw [h1]
              simp only
              rw [parseValue_more hv fin' b]
            · right
              rw [he]
              refine ⟨hf, ?_, .inl ⟨_, _, rfl, endErr_ok _ _ (by simp)⟩⟩
              obtain ⟨_, s, _, hs⟩ := (lex_iff fin t1 tok []).mp hl2
              obtain ⟨r2, hr2, hok⟩ := soundVal (s := s) (by tauto)
              rw [hv] at hr2; cases hr2
              have := (hok v t3 rfl).1
              simp at this
              exact this
            · right
              rw [h1]
              rw [parseValue.eq_def] at hv
              simp only [Option.some.injEq, Except.ok.injEq, Prod.mk.injEq] at hv
              obtain ⟨rfl, rfl⟩ := hv
              refine ⟨hf, rfl, .inr ⟨s, s', (false, r), rfl, ?_, h2⟩⟩
              simp only
              rw [parseValue.eq_def]

/-- The elements `xs` that come from a text which ends with `fin`, compared with the elements `ys` and the end `e` of a text that goes on: the same
ones first; and if the text ends, perhaps one more, made of a number that is cut off, or one that is followed by something wrong. -/
def CutOf (fin e : Err) (xs ys : List JVal) : Prop :=
  xs <+: ys ∨ (fin = .eoi ∧ ∃ us x, xs = us ++ [x] ∧ ((ys = us ∧ e ≠ .eoi) ∨
    ∃ s s' r, x = .num s ∧ ys = us ++ .num s' :: r ∧ s <+: s'))

theorem cutOf_cons {fin e : Err} {x : JVal} {xs ys : List JVal} (h : CutOf fin e xs ys) : CutOf fin e (x :: xs) (x :: ys) := by
  rcases h with h | ⟨hf, us, y, rfl, ⟨rfl, he⟩ | ⟨s, s', r, rfl, rfl, hs⟩⟩
  · exact .inl (List.cons_prefix_cons.mpr ⟨rfl, h⟩)
  · exact .inr ⟨hf, x :: ys, y, rfl, .inl ⟨rfl, he⟩⟩
  · exact .inr ⟨hf, x :: us, _, rfl, .inr ⟨s, s', r, rfl, rfl, hs⟩⟩

theorem array_cut {fin : Err} {st : Bool × List Char} {xs : List JVal} {e : Err} (h : Yields (arrayCall fin) st xs e) (fin' : Err)
    (b : List Char) : ∀ {ys e'}, Yields (arrayCall fin') (st.1, st.2 ++ b) ys e' → CutOf fin e' xs ys := by
  induction h with
  | stop h => intro ys e' _; exact .inl (List.nil_prefix)
  | @value s s' x xs e h ht ih =>
    intro ys e' hy
    obtain ⟨k0, k1 | ⟨hf, k2, k3⟩⟩ := arrayCall_cut h fin' b
    · cases hy with
      | stop g => rw [k1] at g; cases g
      | value g hy =>
        rw [k1] at g
        simp only [Option.some.injEq, Prod.mk.injEq, Except.ok.injEq] at g
        obtain ⟨rfl, rfl⟩ := g
        rw [← k0] at hy
        exact cutOf_cons (ih hy)
    · have hx : xs = [] := by
        have hs : s' = (false, []) := Prod.ext k0 k2
        rw [hs] at ht
        cases ht with
        | stop => rfl
        | value g _ => simp [arrayCall, lex] at g
      subst hx
      right
      refine ⟨hf, [], x, rfl, ?_⟩
      rcases k3 with ⟨er, st', k3, k4⟩ | ⟨n, n', st', k3, k4, k5⟩
      · left
        cases hy with
        | stop g => rw [k3] at g; cases g; exact ⟨rfl, k4⟩
        | value g hy => rw [k3] at g; cases g
      · right
        cases hy with
        | stop g => rw [k4] at g; cases g
        | value g hy =>
          rw [k4] at g
          simp only [Option.some.injEq, Prod.mk.injEq, Except.ok.injEq] at g
          obtain ⟨rfl, rfl⟩ := g
          exact ⟨n, n', _, k3, rfl, k5⟩

end Micro.Json
