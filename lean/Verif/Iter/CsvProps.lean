import Verif.Iter.CsvLemmas
import Verif.Iter.WrapProps
set_option linter.unusedSimpArgs false
/-
C154: CSV documents, from the text to the rows.
-/
namespace Micro.Iter.Csv
open Micro Micro.Iter

/-! ### The automaton and the grammar -/

theorem esc_append (a b : List Char) : esc (a ++ b) = esc a ++ esc b := by
  induction a with
  | nil => rfl
  | cons c a ih => simp only [List.cons_append, esc]; split <;> simp [ih]

theorem run_esc (es : Errs) (f t : List Char) : ∀ cur acc, run es (.quoted cur) (esc f ++ t) acc = run es (.quoted (cur ++ f)) t acc := by
  induction f with
  | nil => intro cur acc; simp [esc]
  | cons c f ih =>
    intro cur acc
    by_cases h : c = '"'
    · subst h; simp [esc, run, ih]
    · simp [esc, run, h, ih]

theorem run_chars (es : Errs) (f t : List Char) (hf : ∀ c ∈ f, c ≠ ',' ∧ c ≠ '"' ∧ c ≠ '\n') :
    ∀ cur acc, run es (.plain cur) (f ++ t) acc = run es (.plain (cur ++ f)) t acc := by
  induction f with
  | nil => intro cur acc; simp
  | cons c f ih =>
    intro cur acc
    obtain ⟨h1, h2, h3⟩ := hf c (by simp)
    simp only [List.cons_append, run, h1, h2, h3, if_false]
    rw [ih (fun d hd => hf d (by simp [hd]))]
    simp

/-- A field, followed by a comma, LF or the end. -/
theorem run_field (es : Errs) (t f : List Char) (h : Field t f) (acc : List (List Char)) (u : List Char) :
    run es .start (t ++ ',' :: u) acc = run es .start u (acc ++ [f]) ∧
    run es .start (t ++ '\n' :: u) acc = ((acc ++ [f], none), u) ∧ run es .start t acc = ((acc ++ [f], none), []) := by
  cases h with
  | plain f hf =>
    have hh : ∀ u, u.head? ≠ some '"' → run es .start (t ++ u) acc = run es (.plain t) u acc := by
      intro u hu
      rw [run_start, run_chars es t u hf]
      · rfl
      · cases t with
        | nil => exact hu
        | cons c t => simpa using (hf c (by simp)).2.1
    refine ⟨?_, ?_, ?_⟩
    · rw [hh _ (by simp)]; simp [run]
    · rw [hh _ (by simp)]; simp [run]
    · have := hh [] (by simp); rw [List.append_nil] at this; rw [this]; simp [run]
  | quoted f =>
    refine ⟨?_, ?_, ?_⟩
    · simp [run, run_esc]
    · simp [run, run_esc]
    · simp [run, run_esc]

theorem run_row (es : Errs) (r : List Char) (fs : List (List Char)) (h : Row r fs) : ∀ (acc : List (List Char)) (u : List Char),
    run es .start (r ++ '\n' :: u) acc = ((acc ++ fs, none), u) ∧ run es .start r acc = ((acc ++ fs, none), []) := by
  induction h with
  | one hf => intro acc u; exact (run_field es _ _ hf acc u).2
  | @more t f r fs hf _ ih =>
    intro acc u
    have h1 := (run_field es _ _ hf acc (r ++ '\n' :: u)).1
    have h2 := (run_field es _ _ hf acc r).1
    obtain ⟨h3, h4⟩ := ih (acc ++ [f]) u
    rw [show t ++ ',' :: r ++ '\n' :: u = t ++ ',' :: (r ++ '\n' :: u) by simp, h1, h2, h3, h4]
    simp

/-- What has been read of the current field. -/
def St.pre : St → List Char
  | .start => []
  | .plain cur => cur
  | .quoted cur => '"' :: esc cur
  | .after cur => '"' :: (esc cur ++ ['"'])

def St.ok : St → Prop
  | .plain cur => ∀ c ∈ cur, c ≠ ',' ∧ c ≠ '"' ∧ c ≠ '\n'
  | _ => True

theorem run_sound (es : Errs) (N : List Char) : ∀ (s : St) (acc fs : List (List Char)) (rest : List Char), s.ok →
    run es s N acc = ((fs, none), rest) →
    ∃ r fs', fs = acc ++ fs' ∧ Row (s.pre ++ r) fs' ∧ (N = r ++ '\n' :: rest ∨ (N = r ∧ rest = [])) := by
  have hnil : Field [] [] := .plain [] (by simp)
  induction N with
  | nil =>
    intro s acc fs rest hok h
    cases s with
    | start => simp [run] at h; obtain ⟨rfl, rfl⟩ := h; exact ⟨[], [[]], rfl, .one hnil, .inr ⟨rfl, rfl⟩⟩
    | plain cur =>
      simp [run] at h; obtain ⟨rfl, rfl⟩ := h
      exact ⟨[], [cur], rfl, .one (by simpa [St.pre] using Field.plain cur hok), .inr ⟨rfl, rfl⟩⟩
    | quoted cur => simp [run] at h
    | after cur =>
      simp [run] at h; obtain ⟨rfl, rfl⟩ := h
      exact ⟨[], [cur], rfl, .one (by simpa [St.pre] using Field.quoted cur), .inr ⟨rfl, rfl⟩⟩
  | cons c t ih =>
    intro s acc fs rest hok h
    -- one more character, in the state s', with the fields acc'
    have step : ∀ (s' : St) (acc' new : List (List Char)), acc' = acc ++ new → s'.ok → run es s' t acc' = ((fs, none), rest) →
        (∀ r fs', Row (s'.pre ++ r) fs' → Row (s.pre ++ c :: r) (new ++ fs')) →
        ∃ r fs', fs = acc ++ fs' ∧ Row (s.pre ++ r) fs' ∧ (c :: t = r ++ '\n' :: rest ∨ (c :: t = r ∧ rest = [])) := by
      intro s' acc' new hacc hok' hrun himp
      obtain ⟨r, fs', h1, h2, h3⟩ := ih s' acc' fs rest hok' hrun
      refine ⟨c :: r, new ++ fs', by rw [h1, hacc]; simp, himp r fs' h2, ?_⟩
      rcases h3 with h3 | ⟨h3, h4⟩
      · left; rw [h3]; rfl
      · right; exact ⟨by rw [h3], h4⟩
    cases s with
    | start =>
      simp only [run] at h
      split at h
      · rename_i hc; subst hc
        exact step (.quoted []) acc [] (by simp) trivial h (fun r fs' hr => by simpa [St.pre, esc] using hr)
      · rename_i h1
        split at h
        · rename_i hc; subst hc
          exact step .start _ [[]] rfl trivial h (fun r fs' hr => by simpa [St.pre] using Row.more hnil hr)
        · rename_i h2
          split at h
          · rename_i hc; subst hc
            simp at h; obtain ⟨rfl, rfl⟩ := h
            exact ⟨[], [[]], rfl, .one hnil, .inl rfl⟩
          · rename_i h3
            exact step (.plain [c]) acc [] (by simp) (by intro d hd; simp at hd; subst hd; exact ⟨h2, h1, h3⟩) h
              (fun r fs' hr => by simpa [St.pre] using hr)
    | plain cur =>
      have hcur : Field cur cur := .plain cur hok
      simp only [run] at h
      split at h
      · simp at h
      · rename_i h1
        split at h
        · rename_i hc; subst hc
          exact step .start _ [cur] rfl trivial h (fun r fs' hr => by simpa [St.pre] using Row.more hcur hr)
        · rename_i h2
          split at h
          · rename_i hc; subst hc
            simp at h; obtain ⟨rfl, rfl⟩ := h
            exact ⟨[], [cur], rfl, .one (by simpa [St.pre] using hcur), .inl rfl⟩
          · rename_i h3
            refine step (.plain (cur ++ [c])) acc [] (by simp) ?_ h (fun r fs' hr => by simpa [St.pre] using hr)
            intro d hd
            simp at hd
            rcases hd with hd | rfl
            · exact hok d hd
            · exact ⟨h2, h1, h3⟩
    | quoted cur =>
      simp only [run] at h
      split at h
      · rename_i hc; subst hc
        exact step (.after cur) acc [] (by simp) trivial h (fun r fs' hr => by simpa [St.pre] using hr)
      · rename_i h1
        exact step (.quoted (cur ++ [c])) acc [] (by simp) trivial h
          (fun r fs' hr => by simpa [St.pre, esc_append, esc, h1] using hr)
    | after cur =>
      have hcur : Field ('"' :: (esc cur ++ ['"'])) cur := .quoted cur
      simp only [run] at h
      split at h
      · rename_i hc; subst hc
        exact step (.quoted (cur ++ ['"'])) acc [] (by simp) trivial h
          (fun r fs' hr => by simpa [St.pre, esc_append, esc] using hr)
      · split at h
        · rename_i hc; subst hc
          exact step .start _ [cur] rfl trivial h (fun r fs' hr => by simpa [St.pre] using Row.more hcur hr)
        · split at h
          · rename_i hc; subst hc
            simp at h; obtain ⟨rfl, rfl⟩ := h
            exact ⟨[], [cur], rfl, .one (by simpa [St.pre] using hcur), .inl rfl⟩
          · simp at h

/-! ### Records -/

theorem row_head {r : List Char} {fs : List (List Char)} (h : Row r fs) : r.head? ≠ some '\n' := by
  have hf : ∀ {t f}, Field t f → t.head? ≠ some '\n' := by
    intro t f h
    cases h with
    | plain f hf =>
      cases t with
      | nil => simp
      | cons c t => simpa using (hf c (by simp)).2.2
    | quoted f => simp
  cases h with
  | one h => exact hf h
  | @more t f r fs h _ =>
    cases t with
    | nil => simp
    | cons c t => simpa using hf h

theorem doc_nl {t : List Char} {rows : List (List (List Char))} (h : Doc ('\n' :: t) rows) : Doc t rows := by
  generalize hN : '\n' :: t = N at h
  cases h with
  | nil => cases hN
  | blank h => cases hN; exact h
  | @row r fs u rows hr hne h =>
    exfalso
    have := row_head hr
    cases r with
    | nil => exact hne rfl
    | cons c r => simp at hN this; exact this hN.1.symm
  | last hr hne =>
    exfalso
    have := row_head hr
    rw [← hN] at this
    simp at this

theorem nextLine_nil : nextLine [] = none := by rw [nextLine.eq_def]; simp [readLine]

theorem records_nil (es : Errs) : records es [] = [] := by
  rw [records.eq_def]
  split
  · rfl
  · rename_i h; rw [nextLine_nil] at h; cases h

theorem records_of_line {es : Errs} {t l r : List Char} (h : nextLine t = some (l, r)) :
    records es t = ((fields es l r []).1.1.map String.ofList, (fields es l r []).1.2) :: records es (fields es l r []).2 := by
  rw [records.eq_def]
  split
  · rename_i h'; rw [h] at h'; cases h'
  · rename_i l' r' h'; rw [h] at h'; cases h'; rfl

theorem records_skip {es : Errs} {t r : List Char} (h : nextLine t = nextLine r) : records es t = records es r := by
  rw [records.eq_def]
  split
  · rename_i h'
    rw [h] at h'
    rw [records.eq_def]
    split
    · rfl
    · rename_i h''; rw [h'] at h''; cases h''
  · rename_i l' r' h'
    rw [h] at h'
    rw [records_of_line h']

/-- One record. -/
theorem records_step (es : Errs) (t : List Char) :
    (normal t = [] ∧ records es t = []) ∨
    (∃ r, r.length < t.length ∧ normal t = '\n' :: normal r ∧ records es t = records es r) ∨
    (∃ fs e r, r.length < t.length ∧ (∃ c u, normal t = c :: u ∧ c ≠ '\n') ∧ run es .start (normal t) [] = ((fs, e), normal r) ∧
      records es t = (fs.map String.ofList, e) :: records es r) := by
  cases t with
  | nil => exact .inl ⟨rfl, records_nil es⟩
  | cons c t =>
    obtain ⟨l, r, h1, h2, h3⟩ := readLine_cons c t
    have hr := readLine_rest h1
    by_cases hl : l = [] ∨ l = ['\n']
    · have hn : nextLine (c :: t) = nextLine r := by
        rw [nextLine.eq_def]
        split
        · rename_i h; rw [h1] at h; cases h
        · rename_i h; rw [h1] at h; cases h; rw [if_pos hl]
      rcases hl with rfl | rfl
      · simp [Sync] at h2
        subst h2
        exact .inl ⟨by rw [h3]; rfl, by rw [records_skip hn, records_nil]⟩
      · exact .inr (.inl ⟨r, hr, h3, records_skip hn⟩)
    · right; right
      have hn : nextLine (c :: t) = some (l, r) := by
        rw [nextLine.eq_def]
        split
        · rename_i h; rw [h1] at h; cases h
        · rename_i h; rw [h1] at h; cases h; rw [if_neg hl]
      obtain ⟨h4, h5⟩ := (fields_run es _ l r (Nat.le_refl _) h2).1 []
      have h6 := (rest_length es _ l r (Nat.le_refl _)).1 []
      refine ⟨(fields es l r []).1.1, (fields es l r []).1.2, (fields es l r []).2, by omega, ?_, ?_, records_of_line hn⟩
      · cases l with
        | nil => exact absurd (.inl rfl) hl
        | cons d l =>
          refine ⟨d, l ++ normal r, by rw [h3]; rfl, ?_⟩
          rintro rfl
          rw [sync_nl h2] at hl
          exact hl (.inr rfl)
      · rw [h3, h5]
        rw [show ((fields es l r []).1.1, (fields es l r []).1.2) = (fields es l r []).1 from rfl, h4]

/-- The record for a row. -/
def record (fs : List (List Char)) : List String × Option Err := (fs.map String.ofList, none)

theorem records_complete (es : Errs) : ∀ (n : Nat) (t : List Char) (rows : List (List (List Char))), t.length ≤ n → Doc (normal t) rows →
    records es t = rows.map record := by
  intro n
  induction n using Nat.strongRecOn with
  | ind n ih =>
    intro t rows hn hd
    rcases records_step es t with ⟨h1, h2⟩ | ⟨r, h1, h2, h3⟩ | ⟨fs, e, r, h1, ⟨c, u, h2, hc⟩, h3, h4⟩
    · rw [h1] at hd
      rw [h2]
      generalize hN : ([] : List Char) = N at hd
      cases hd with
      | nil => rfl
      | blank => cases hN
      | row _ _ _ => simp at hN
      | last _ hne => exact absurd hN.symm hne
    · rw [h2] at hd
      rw [h3]
      exact ih (n - 1) (by omega) r rows (by omega) (doc_nl hd)
    · generalize hN : normal t = N at hd h2 h3
      cases hd with
      | nil => cases h2
      | blank => cases h2; exact absurd rfl hc
      | @row x fs' u' rows hr hne hd =>
        have h5 := (run_row es x fs' hr [] u').1
        rw [h3] at h5
        simp only [List.nil_append, Prod.mk.injEq] at h5
        obtain ⟨⟨rfl, rfl⟩, h6⟩ := h5
        rw [h4, ih (n - 1) (by omega) r rows (by omega) (by rw [h6]; exact hd)]
        rfl
      | last hr hne =>
        have h5 := (run_row es _ _ hr [] []).2
        rw [h3] at h5
        simp only [List.nil_append, Prod.mk.injEq] at h5
        obtain ⟨⟨rfl, rfl⟩, h6⟩ := h5
        rw [h4, ih (n - 1) (by omega) r [] (by omega) (by rw [h6]; exact .nil)]
        rfl

theorem ofList_inj {a b : List (List Char)} (h : a.map String.ofList = b.map String.ofList) : a = b := by
  induction a generalizing b with
  | nil => cases b with
    | nil => rfl
    | cons _ _ => cases h
  | cons x a ih =>
    cases b with
    | nil => cases h
    | cons y b =>
      simp only [List.map_cons, List.cons.injEq] at h
      rw [String.ofList_injective h.1, ih h.2]

theorem records_sound (es : Errs) : ∀ (n : Nat) (t : List Char) (rows : List (List (List Char))), t.length ≤ n →
    records es t = rows.map record → Doc (normal t) rows := by
  intro n
  induction n using Nat.strongRecOn with
  | ind n ih =>
    intro t rows hn hd
    rcases records_step es t with ⟨h1, h2⟩ | ⟨r, h1, h2, h3⟩ | ⟨fs, e, r, h1, ⟨c, u, h2, hc⟩, h3, h4⟩
    · rw [h2] at hd
      rw [h1]
      cases rows with
      | nil => exact .nil
      | cons _ _ => cases hd
    · rw [h2]
      exact .blank (ih (n - 1) (by omega) r rows (by omega) (by rw [← h3]; exact hd))
    · rw [h4] at hd
      cases rows with
      | nil => cases hd
      | cons fs' rows =>
        simp only [List.map_cons, record, List.cons.injEq, Prod.mk.injEq] at hd
        obtain ⟨⟨h5, rfl⟩, h6⟩ := hd
        obtain rfl := ofList_inj h5
        have h7 := ih (n - 1) (by omega) r rows (by omega) h6
        obtain ⟨x, fs', h8, h9, h10⟩ := run_sound es (normal t) .start [] fs (normal r) trivial h3
        simp only [List.nil_append] at h8
        subst h8
        have hx : x ≠ [] := by
          rintro rfl
          rcases h10 with h10 | ⟨h10, -⟩
          · rw [h2] at h10; cases h10; exact hc rfl
          · rw [h2] at h10; cases h10
        rcases h10 with h10 | ⟨h10, h11⟩
        · rw [h10]; exact .row h9 hx h7
        · rw [h11] at h7
          rw [h10]
          generalize hN : ([] : List Char) = N at h7
          cases h7 with
          | nil => exact .last h9 hx
          | blank => cases hN
          | row _ _ _ => simp at hN
          | last _ hne => exact absurd hN.symm hne

/-- Which texts the reader takes as documents without an error, and what the records are. -/
theorem records_iff (es : Errs) (t : List Char) (rows : List (List (List Char))) : records es t = rows.map record ↔ Doc (normal t) rows :=
  ⟨records_sound es _ t rows (Nat.le_refl _), records_complete es _ t rows (Nat.le_refl _)⟩

/-! ### What the records can be -/

theorem row_ne {r : List Char} {fs : List (List Char)} (h : Row r fs) : fs ≠ [] := by cases h <;> simp

theorem run_err (es : Errs) (N : List Char) : ∀ (s : St) (acc fs : List (List Char)) (x : Err) (rest : List Char),
    run es s N acc = ((fs, some x), rest) → x = es.bareQuote ∨ x = es.quote := by
  induction N with
  | nil =>
    intro s acc fs x rest h
    cases s <;> simp [run] at h
    exact .inr h.1.2.symm
  | cons c t ih =>
    intro s acc fs x rest h
    cases s <;> simp only [run] at h
    · split at h
      · exact ih _ _ _ _ _ h
      split at h
      · exact ih _ _ _ _ _ h
      split at h
      · simp at h
      · exact ih _ _ _ _ _ h
    · split at h
      · simp at h; exact .inl h.1.2.symm
      split at h
      · exact ih _ _ _ _ _ h
      split at h
      · simp at h
      · exact ih _ _ _ _ _ h
    · split at h <;> exact ih _ _ _ _ _ h
    · split at h
      · exact ih _ _ _ _ _ h
      split at h
      · exact ih _ _ _ _ _ h
      split at h
      · simp at h
      · simp at h; exact .inr h.1.2.symm

/-- Each record has a field, or an error of the reader. -/
def Good (es : Errs) (q : List String × Option Err) : Prop :=
  (q.2 = none ∧ q.1 ≠ []) ∨ q.2 = some es.bareQuote ∨ q.2 = some es.quote

theorem records_good (es : Errs) : ∀ (n : Nat) (t : List Char), t.length ≤ n → ∀ q ∈ records es t, Good es q := by
  intro n
  induction n using Nat.strongRecOn with
  | ind n ih =>
    intro t hn q hq
    rcases records_step es t with ⟨h1, h2⟩ | ⟨r, h1, h2, h3⟩ | ⟨fs, e, r, h1, ⟨c, u, h2, hc⟩, h3, h4⟩
    · rw [h2] at hq; cases hq
    · rw [h3] at hq; exact ih (n - 1) (by omega) r (by omega) q hq
    · rw [h4] at hq
      rcases List.mem_cons.mp hq with rfl | hq
      · cases e with
        | none =>
          obtain ⟨x, fs', h5, h6, -⟩ := run_sound es (normal t) .start [] fs (normal r) trivial h3
          rw [List.nil_append] at h5
          subst h5
          exact .inl ⟨rfl, by simpa using row_ne h6⟩
        | some x =>
          rcases run_err es _ _ _ _ _ _ h3 with rfl | rfl
          · exact .inr (.inl rfl)
          · exact .inr (.inr rfl)
      · exact ih (n - 1) (by omega) r (by omega) q hq

theorem split_width (es : Errs) (w : Nat) (L : List (List String × Option Err)) (hL : ∀ q ∈ L, Good es q)
    (h1 : es.bareQuote ≠ .eof) (h2 : es.quote ≠ .eof) (h3 : es.fieldCount ≠ .eof) :
    ∃ rows tail e, L = rows.map (·, none) ++ tail ∧ (∀ f ∈ rows, f.length = w) ∧ CsvEnd es.fieldCount w tail e ∧
      (e = .eoi → tail = []  ∨ es.bareQuote = .eoi ∨ es.quote = .eoi ∨ es.fieldCount = .eoi) ∧
      (e = .eoi ∨ e = es.bareQuote ∨ e = es.quote ∨ e = es.fieldCount) ∧
      (∀ f, L.head? = some (f, none) → f.length = w → rows ≠ []) := by
  induction L with
  | nil => exact ⟨[], [], .eoi, rfl, by simp, .eof, fun _ => .inl rfl, .inl rfl, by simp⟩
  | cons q L ih =>
    obtain ⟨f, err⟩ := q
    rcases hL _ (List.mem_cons_self ..) with ⟨rfl, hne⟩ | h | h
    · by_cases hw : f.length = w
      · obtain ⟨rows, tail, e, a1, a2, a3, a4, a5, -⟩ := ih (fun q hq => hL q (List.mem_cons_of_mem _ hq))
        refine ⟨f :: rows, tail, e, by simp [a1], ?_, a3, a4, a5, by simp⟩
        intro g hg
        rcases List.mem_cons.mp hg with rfl | hg
        · exact hw
        · exact a2 g hg
      · exact ⟨[], _, es.fieldCount, rfl, by simp, .ragged hw h3, fun h => .inr (.inr (.inr h)), .inr (.inr (.inr rfl)),
          by rintro g hg hg'; simp at hg; subst hg; exact absurd hg' hw⟩
    · simp only at h
      subst h
      exact ⟨[], _, _, rfl, by simp, .bad h1, fun h => .inr (.inl h), .inr (.inl rfl), by simp⟩
    · simp only at h
      subst h
      exact ⟨[], _, _, rfl, by simp, .bad h2, fun h => .inr (.inr (.inl h)), .inr (.inr (.inl rfl)), by simp⟩

/-- Every text: rows of one width, then the end or an error. -/
theorem split_records (es : Errs) (L : List (List String × Option Err)) (hL : ∀ q ∈ L, Good es q)
    (h1 : es.bareQuote ≠ .eof) (h2 : es.quote ≠ .eof) (h3 : es.fieldCount ≠ .eof) :
    ∃ w rows tail e, 0 < w ∧ L = rows.map (·, none) ++ tail ∧ (∀ f ∈ rows, f.length = w) ∧ CsvEnd es.fieldCount w tail e ∧
      (e = .eoi → tail = []  ∨ es.bareQuote = .eoi ∨ es.quote = .eoi ∨ es.fieldCount = .eoi) ∧
      (e = .eoi ∨ e = es.bareQuote ∨ e = es.quote ∨ e = es.fieldCount) ∧
      (rows ≠ [] ∨ ∀ f, tail.head? ≠ some (f, none)) := by
  cases L with
  | nil => exact ⟨1, [], [], .eoi, by omega, rfl, by simp, .eof, fun _ => .inl rfl, .inl rfl, by simp⟩
  | cons q L =>
    obtain ⟨f, err⟩ := q
    cases err with
    | none =>
      have hf : f ≠ [] := by
        rcases hL _ (List.mem_cons_self ..) with ⟨-, hne⟩ | h | h
        · exact hne
        · cases h
        · cases h
      obtain ⟨rows, tail, e, a1, a2, a3, a4, a5, a6⟩ := split_width es f.length ((f, none) :: L) hL h1 h2 h3
      exact ⟨f.length, rows, tail, e, List.length_pos_iff.mpr hf, a1, a2, a3, a4, a5, .inl (a6 f rfl rfl)⟩
    | some x =>
      obtain ⟨rows, tail, e, a1, a2, a3, a4, a5, a6⟩ := split_width es 1 ((f, some x) :: L) hL h1 h2 h3
      refine ⟨1, rows, tail, e, by omega, a1, a2, a3, a4, a5, ?_⟩
      cases rows with
      | nil => right; intro g hg; rw [List.map_nil, List.nil_append] at a1; rw [← a1] at hg; cases hg
      | cons g rows => left; simp

theorem readsRows_unique {fc : Err} {it : It CsvState Funcs.Slc} {rows rows' : List (List String)} {e e' : Err} (h : ReadsRows fc it rows e)
    (h' : ReadsRows fc it rows' e') : rows = rows' ∧ e = e' := by
  induction h generalizing rows' with
  | @stop it e hs =>
    obtain ⟨st, h0, -, h2⟩ := hs
    have h3 := h2 0 (by simp)
    rw [h0] at h3
    cases h' with
    | stop hs' =>
      obtain ⟨st', h0', -, h2'⟩ := hs'
      have h3' := h2' 0 (by simp)
      rw [h0', h3] at h3'
      simp only [Option.some.injEq, Prod.mk.injEq, Except.error.injEq] at h3'
      exact ⟨rfl, h3'.1⟩
    | row h _ _ _ => rw [h] at h3; cases h3
  | @row it st it' s fields rows e h1 h2 h3 _ ih =>
    cases h' with
    | stop hs' =>
      obtain ⟨st', h0', -, h2'⟩ := hs'
      have h3' := h2' 0 (by simp)
      rw [h0', h1] at h3'
      cases h3'
    | @row _ st' it'' s' fields' rows' _ a1 a2 a3 a4 =>
      rw [h1] at a1
      cases a1
      rw [h2] at a2
      cases a2
      obtain ⟨rfl, rfl⟩ := ih a4
      rw [h3] at a3
      exact ⟨by rw [a3], rfl⟩

/-! ### C154 -/

/-- The errors of package csv are not the ends of input. -/
def Errs.Proper (es : Errs) : Prop :=
  (es.bareQuote ≠ .eof ∧ es.quote ≠ .eof ∧ es.fieldCount ≠ .eof) ∧ es.bareQuote ≠ .eoi ∧ es.quote ≠ .eoi ∧ es.fieldCount ≠ .eoi

/-- C154, every text: OfCSV gives some rows, all with the same number of fields, and then EOI or one of the three errors of package csv, forever. -/
theorem c154_ends (es : Errs) (hes : es.Proper) (t : List Char) :
    ∃ rows e, ReadsRows es.fieldCount (ofCSV es t) rows e ∧ (∀ a ∈ rows, ∀ b ∈ rows, a.length = b.length) ∧
      (e = .eoi ∨ e = es.bareQuote ∨ e = es.quote ∨ e = es.fieldCount) := by
  obtain ⟨w, rows, tail, e, a1, a2, a3, a4, a5, a6, a7⟩ :=
    split_records es (records es t) (records_good es _ t (Nat.le_refl _)) hes.1.1 hes.1.2.1 hes.1.2.2
  refine ⟨rows, e, ?_, fun a ha b hb => by rw [a3 a ha, a3 b hb], a6⟩
  have := c107_rows es.fieldCount w a1 rows a3 tail e a4 a7
  rwa [← a2] at this

/-- C154: exactly which texts OfCSV reads to their end without an error, and the rows it gives: the documents of the grammar, CR LF being read as LF and a CR
at the very end ignored, whose rows all have the same number of fields. -/
theorem c154_exact (es : Errs) (hes : es.Proper) (t : List Char) (rows : List (List (List Char))) :
    ReadsRows es.fieldCount (ofCSV es t) (rows.map (·.map String.ofList)) .eoi ↔
      Doc (normal t) rows ∧ ∀ a ∈ rows, ∀ b ∈ rows, a.length = b.length := by
  obtain ⟨w, rows', tail, e, a1, a2, a3, a4, a5, a6, a7⟩ :=
    split_records es (records es t) (records_good es _ t (Nat.le_refl _)) hes.1.1 hes.1.2.1 hes.1.2.2
  have h1 := c107_rows es.fieldCount w a1 rows' a3 tail e a4 a7
  rw [← a2] at h1
  constructor
  · intro h
    obtain ⟨rfl, rfl⟩ := readsRows_unique h1 h
    have ht : tail = [] := by
      rcases a5 rfl with h | h | h | h
      · exact h
      · exact absurd h hes.2.1
      · exact absurd h hes.2.2.1
      · exact absurd h hes.2.2.2
    refine ⟨(records_iff es t rows).mp (by rw [a2, ht]; simp [record]), fun a ha b hb => ?_⟩
    have e1 := a3 _ (List.mem_map_of_mem ha)
    have e2 := a3 _ (List.mem_map_of_mem hb)
    simp at e1 e2
    omega
  · rintro ⟨hd, hw⟩
    have h2 := (records_iff es t rows).mpr hd
    cases rows with
    | nil =>
      have := c107_rows es.fieldCount 1 (by omega) [] (by simp) [] .eoi .eof (by simp)
      rw [List.map_nil] at h2
      unfold ofCSV
      rw [h2]
      exact this
    | cons r rows =>
      have hr : r ≠ [] := by
        have := records_good es _ t (Nat.le_refl _) (record r) (by rw [h2]; simp)
        rcases this with ⟨-, h⟩ | h | h
        · simpa [record] using h
        · cases h
        · cases h
      have := c107_rows es.fieldCount r.length (List.length_pos_iff.mpr hr) ((r :: rows).map (·.map String.ofList)) (by
        intro f hf
        obtain ⟨g, hg, rfl⟩ := List.mem_map.mp hf
        simp [hw g hg r (List.mem_cons_self ..)]) [] .eoi .eof (by simp)
      unfold ofCSV
      rw [h2]
      rw [List.append_nil, List.map_map] at this
      exact this

/-! ### Texts that are written row by row -/

theorem records_normal (es : Errs) : ∀ (n : Nat) (a b : List Char), a.length + b.length ≤ n → normal a = normal b → records es a = records es b := by
  intro n
  induction n using Nat.strongRecOn with
  | ind n ih =>
    intro a b hn hab
    rcases records_step es a with ⟨h1, h2⟩ | ⟨r, h1, h2, h3⟩ | ⟨fs, e, r, h1, ⟨c, u, h2, hc⟩, h3, h4⟩ <;>
    rcases records_step es b with ⟨k1, k2⟩ | ⟨s, k1, k2, k3⟩ | ⟨gs, g, s, k1, ⟨d, v, k2, hd⟩, k3, k4⟩
    · rw [h2, k2]
    · rw [hab, k2] at h1; cases h1
    · rw [hab, k2] at h1; cases h1
    · rw [hab, k1] at h2; cases h2
    · rw [hab, k2, List.cons.injEq] at h2
      rw [h3, k3]
      exact ih (n - 1) (by omega) r s (by omega) h2.2.symm
    · rw [hab, k2] at h2; cases h2; exact absurd rfl hd
    · rw [hab, k1] at h2; cases h2
    · rw [hab, k2] at h2; cases h2; exact absurd rfl hc
    · rw [hab, k3] at h3
      simp only [Prod.mk.injEq] at h3
      obtain ⟨⟨rfl, rfl⟩, h5⟩ := h3
      rw [h4, k4, ih (n - 1) (by omega) r s (by omega) h5.symm]

theorem normal_plain (f y : List Char) (h : ∀ c ∈ f, c ≠ '\r') : normal (f ++ y) = f ++ normal y := by
  induction f with
  | nil => rfl
  | cons c f ih =>
    rw [List.cons_append, normal_other c _ (h c (List.mem_cons_self ..)), ih (fun d hd => h d (List.mem_cons_of_mem _ hd))]
    rfl

theorem normal_esc (f y : List Char) (h : ∀ a b, f ≠ a ++ '\r' :: '\n' :: b) : normal (esc f ++ '"' :: y) = esc f ++ '"' :: normal y := by
  induction f with
  | nil => simp [esc, normal_other]
  | cons c f ih =>
    have ih := ih (fun a b hab => h (c :: a) b (by rw [hab]; rfl))
    by_cases h1 : c = '"'
    · subst h1
      simp only [esc, if_true, List.cons_append]
      rw [normal_other _ _ (by decide), normal_other _ _ (by decide), ih]
    · simp only [esc, h1, if_false, List.cons_append]
      by_cases h2 : c = '\r'
      · subst h2
        obtain ⟨d, u, hu, hd⟩ : ∃ d u, esc f ++ '"' :: y = d :: u ∧ d ≠ '\n' := by
          cases f with
          | nil => exact ⟨'"', y, rfl, by decide⟩
          | cons e f =>
            by_cases h3 : e = '"'
            · subst h3; exact ⟨'"', _, by simp [esc]; rfl, by decide⟩
            · refine ⟨e, esc f ++ '"' :: y, by simp [esc, h3], ?_⟩
              rintro rfl
              exact h [] f rfl
        rw [hu, normal_cr d u hd, ← hu, ih]
      · rw [normal_other c _ h2, ih]

theorem cell_field {t f : List Char} (h : Cell t f) : Field t f ∧ ∀ y, normal (t ++ y) = t ++ normal y := by
  cases h with
  | plain f hf => exact ⟨.plain t (fun c hc => ⟨(hf c hc).1, (hf c hc).2.1, (hf c hc).2.2.1⟩), fun y => normal_plain t y (fun c hc => (hf c hc).2.2.2)⟩
  | quoted f hf =>
    refine ⟨.quoted f, fun y => ?_⟩
    rw [List.cons_append, normal_other _ _ (by decide), List.append_assoc, List.singleton_append, normal_esc f y hf]
    simp

theorem line_row {r : List Char} {fs : List (List Char)} (h : Line r fs) : Row r fs ∧ ∀ y, normal (r ++ y) = r ++ normal y := by
  induction h with
  | one h => exact ⟨.one (cell_field h).1, (cell_field h).2⟩
  | more h _ ih =>
    refine ⟨.more (cell_field h).1 ih.1, fun y => ?_⟩
    rw [List.append_assoc, (cell_field h).2, List.cons_append, normal_other _ _ (by decide), ih.2]
    simp

theorem text_records (es : Errs) {a : List Char} {rows : List (List (List Char))} (h : Text a rows) (b : List Char) :
    records es (a ++ b) = rows.map record ++ records es b := by
  induction h with
  | nil => rfl
  | @row r fs eol t rows hl hne heol _ ih =>
    have hn : normal (r ++ eol ++ t ++ b) = r ++ '\n' :: normal (t ++ b) := by
      rw [List.append_assoc, List.append_assoc, (line_row hl).2]
      rcases heol with rfl | rfl
      · rw [List.cons_append, List.nil_append, normal_other _ _ (by decide)]
      · rw [List.cons_append, List.cons_append, List.nil_append, normal_crlf]
    have hh := row_head (line_row hl).1
    obtain ⟨x, r', rfl⟩ := List.exists_cons_of_ne_nil hne
    rcases records_step es (x :: r' ++ eol ++ t ++ b) with ⟨h1, h2⟩ | ⟨u, h1, h2, h3⟩ | ⟨gs, e, u, h1, -, h3, h4⟩
    · rw [hn] at h1; cases h1
    · rw [hn, List.cons_append, List.cons.injEq] at h2
      rw [h2.1] at hh
      exact absurd rfl hh
    · rw [hn, (run_row es _ fs (line_row hl).1 [] _).1] at h3
      simp only [List.nil_append, Prod.mk.injEq] at h3
      obtain ⟨⟨rfl, rfl⟩, h5⟩ := h3
      rw [h4, records_normal es _ u (t ++ b) (Nat.le_refl _) h5.symm, ih]
      rfl

/-- C154: rows of the same number of fields, written row by row, come back unchanged and complete; then EOI.
Partial: fields without CR LF, and no row that consists of an unquoted empty field; see the refuted statements. -/
theorem c154_roundtrip_partial (es : Errs) (hes : es.Proper) (t : List Char) (rows : List (List (List Char))) (h : Text t rows)
    (hw : ∀ a ∈ rows, ∀ b ∈ rows, a.length = b.length) :
    ReadsRows es.fieldCount (ofCSV es t) (rows.map (·.map String.ofList)) .eoi := by
  refine (c154_exact es hes t rows).mpr ⟨?_, hw⟩
  have := text_records es h []
  rw [List.append_nil, records_nil, List.append_nil] at this
  exact (records_iff es t rows).mp this

theorem before (es : Errs) (hes : es.Proper) (a b : List Char) (rows : List (List (List Char))) (h : Text a rows)
    (hw : ∀ a ∈ rows, ∀ b ∈ rows, a.length = b.length) :
    ∃ more e, ReadsRows es.fieldCount (ofCSV es (a ++ b)) (rows.map (·.map String.ofList) ++ more) e ∧ more.length ≤ (records es b).length := by
  obtain ⟨w, rows', tail, e, a1, a2, a3, a4, a5, a6, a7⟩ :=
    split_records es (records es (a ++ b)) (records_good es _ _ (Nat.le_refl _)) hes.1.1 hes.1.2.1 hes.1.2.2
  have h1 := c107_rows es.fieldCount w a1 rows' a3 tail e a4 a7
  rw [← a2] at h1
  rw [text_records es h b] at a2
  suffices hp : ∃ more, rows' = rows.map (·.map String.ofList) ++ more by
    obtain ⟨more, rfl⟩ := hp
    refine ⟨more, e, h1, ?_⟩
    have := congrArg List.length a2
    simp at this
    omega
  clear h1 h
  -- all complete rows have the width of the first
  have key : ∀ (rows : List (List (List Char))) (rows' : List (List String)) (L : List (List String × Option Err)),
      rows.map record ++ L = rows'.map (·, none) ++ tail → (∀ r ∈ rows, r.length = w) → ∃ more, rows' = rows.map (·.map String.ofList) ++ more := by
    intro rows
    induction rows with
    | nil => intro rows' L _ _; exact ⟨rows', rfl⟩
    | cons r rows ih =>
      intro rows' L hL hr
      cases rows' with
      | nil =>
        exfalso
        rw [List.map_nil, List.nil_append] at hL
        rw [← hL] at a4
        generalize hq : List.map record (r :: rows) ++ L = q at a4
        cases a4 with
        | eof => cases hq
        | bad _ => simp [record] at hq
        | ragged hne _ =>
          simp [record] at hq
          have := hr r (List.mem_cons_self ..)
          rw [← hq.1] at hne
          simp at hne
          exact hne this
      | cons r' rows' =>
        simp only [List.map_cons, List.cons_append, List.cons.injEq, record, Prod.mk.injEq] at hL
        obtain ⟨⟨h2, -⟩, h3⟩ := hL
        obtain ⟨more, rfl⟩ := ih rows' L h3 (fun r hr' => hr r (List.mem_cons_of_mem _ hr'))
        exact ⟨more, by rw [← h2]; rfl⟩
  refine key rows rows' _ a2 ?_
  intro r hr
  cases rows with
  | nil => cases hr
  | cons r0 rows =>
    rw [hw r hr r0 (List.mem_cons_self ..)]
    cases rows' with
    | nil =>
      rcases a7 with h | h
      · exact absurd rfl h
      · rw [List.map_nil, List.nil_append] at a2
        rw [← a2] at h
        exact absurd rfl (h _)
    | cons r' rows' =>
      simp only [List.map_cons, List.cons_append, List.cons.injEq, record, Prod.mk.injEq] at a2
      have := a3 r' (List.mem_cons_self ..)
      rw [← a2.1.1] at this
      simpa using this

/-- C154: whatever follows them, the rows that were written completely come first. -/
theorem c154_before (es : Errs) (hes : es.Proper) (a b : List Char) (rows : List (List (List Char))) (h : Text a rows)
    (hw : ∀ a ∈ rows, ∀ b ∈ rows, a.length = b.length) :
    ∃ more e, ReadsRows es.fieldCount (ofCSV es (a ++ b)) (rows.map (·.map String.ofList) ++ more) e := by
  obtain ⟨more, e, h1, -⟩ := before es hes a b rows h hw
  exact ⟨more, e, h1⟩

/-! ### Texts that are cut off -/

theorem normal_prefix : ∀ (b z : List Char), normal (b ++ z) = b ++ z → normal b <+: b := by
  intro b
  induction b with
  | nil => intro z _; exact List.prefix_refl _
  | cons c b ih =>
    intro z h
    by_cases hc : c = '\r'
    · subst hc
      cases b with
      | nil => rw [normal_cr_end]; exact List.nil_prefix
      | cons d b =>
        by_cases hd : d = '\n'
        · subst hd
          rw [List.cons_append, List.cons_append, normal_crlf] at h
          cases h
        · rw [List.cons_append, List.cons_append, normal_cr d _ hd, List.cons.injEq] at h
          rw [normal_cr d _ hd, List.cons_prefix_cons]
          exact ⟨rfl, ih z h.2⟩
    · rw [List.cons_append, normal_other c _ hc, List.cons.injEq] at h
      rw [normal_other c _ hc, List.cons_prefix_cons]
      exact ⟨rfl, ih z h.2⟩

theorem run_prefix (es : Errs) (c : List Char) (hc : c ≠ []) (b : List Char) : ∀ (s : St) (acc fs : List (List Char)),
    run es s (b ++ c) acc = ((fs, none), []) → (run es s b acc).2 = [] := by
  induction b with
  | nil => intro s acc fs _; cases s <;> rfl
  | cons x b ih =>
    intro s acc fs h
    have hne : b ++ c ≠ [] := by simp [hc]
    cases s <;> simp only [List.cons_append, run] at h ⊢
    · split at h
      · rename_i h1; rw [if_pos h1]; exact ih _ _ _ h
      rename_i h1; rw [if_neg h1]
      split at h
      · rename_i h1; rw [if_pos h1]; exact ih _ _ _ h
      rename_i h1; rw [if_neg h1]
      split at h
      · simp only [Prod.mk.injEq] at h; exact absurd h.2 hne
      · rename_i h1; rw [if_neg h1]; exact ih _ _ _ h
    · split at h
      · simp at h
      rename_i h1; rw [if_neg h1]
      split at h
      · rename_i h1; rw [if_pos h1]; exact ih _ _ _ h
      rename_i h1; rw [if_neg h1]
      split at h
      · simp only [Prod.mk.injEq] at h; exact absurd h.2 hne
      · rename_i h1; rw [if_neg h1]; exact ih _ _ _ h
    · split at h
      · rename_i h1; rw [if_pos h1]; exact ih _ _ _ h
      · rename_i h1; rw [if_neg h1]; exact ih _ _ _ h
    · split at h
      · rename_i h1; rw [if_pos h1]; exact ih _ _ _ h
      rename_i h1; rw [if_neg h1]
      split at h
      · rename_i h1; rw [if_pos h1]; exact ih _ _ _ h
      rename_i h1; rw [if_neg h1]
      split at h
      · simp only [Prod.mk.injEq] at h; exact absurd h.2 hne
      · simp at h

theorem records_of_nil (es : Errs) (t : List Char) (h : normal t = []) : records es t = [] := by
  have := records_normal es _ t [] (Nat.le_refl _) h
  rw [this, records_nil]

/-- An incomplete row is at most one record. -/
theorem records_cut (es : Errs) (r : List Char) (fs : List (List Char)) (hl : Line r fs) (eol : List Char) (heol : eol = ['\n'] ∨ eol = ['\r', '\n'])
    (b : List Char) (hb : b <+: r ++ eol) (hne : b ≠ r ++ eol) : (records es b).length ≤ 1 := by
  obtain ⟨hrow, hnorm⟩ := line_row hl
  have hp : normal b <+: r := by
    by_cases h1 : b <+: r
    · obtain ⟨c, rfl⟩ := h1
      have h2 := hnorm ['x']
      rw [show normal ['x'] = ['x'] from by decide, List.append_assoc] at h2
      exact (normal_prefix b (c ++ ['x']) h2).trans (List.prefix_append _ _)
    · have h3 : b = r ++ ['\r'] := by
        obtain ⟨c, hc⟩ := hb
        rcases List.append_eq_append_iff.mp hc with ⟨x, h4, h5⟩ | ⟨x, h4, h5⟩
        · exact absurd ⟨x, h4.symm⟩ h1
        · have hx : x ≠ [] := by rintro rfl; exact h1 ⟨[], by simp [h4]⟩
          rcases heol with rfl | rfl
          · cases x with
            | nil => exact absurd rfl hx
            | cons y x =>
              simp at h5
              obtain ⟨rfl, rfl, rfl⟩ := h5
              exact absurd h4 hne
          · cases x with
            | nil => exact absurd rfl hx
            | cons y x =>
              cases x with
              | nil => simp at h5; rw [h4, ← h5.1]
              | cons z x =>
                simp at h5
                obtain ⟨rfl, rfl, rfl, rfl⟩ := h5
                exact absurd h4 hne
      rw [h3, hnorm ['\r'], normal_cr_end, List.append_nil]
      exact List.prefix_refl _
  have hrun : (run es .start (normal b) []).2 = [] := by
    obtain ⟨c, hc⟩ := hp
    by_cases h0 : c = []
    · subst h0
      rw [List.append_nil] at hc
      rw [hc, (run_row es r fs hrow [] []).2]
    · refine run_prefix es c h0 (normal b) .start [] fs ?_
      rw [hc, (run_row es r fs hrow [] []).2]
      rfl
  rcases records_step es b with ⟨h1, h2⟩ | ⟨u, h1, h2, h3⟩ | ⟨gs, e, u, h1, -, h3, h4⟩
  · simp [h2]
  · rw [h2] at hp
    obtain ⟨c, hc⟩ := hp
    have := row_head hrow
    rw [← hc] at this
    simp at this
  · rw [h3] at hrun
    rw [h4, records_of_nil es u hrun]
    simp

/-- Where a cut falls. -/
theorem text_cut {t : List Char} {rows : List (List (List Char))} (h : Text t rows) : ∀ k : Nat, ∃ (a b : List Char) (m : Nat), t.take k = a ++ b ∧ Text a (rows.take m) ∧
    m ≤ rows.length ∧
    ((m = rows.length ∧ b = []) ∨ ∃ r fs eol, rows[m]? = some fs ∧ Line r fs ∧ (eol = ['\n'] ∨ eol = ['\r', '\n']) ∧ b <+: r ++ eol ∧ b ≠ r ++ eol ∧
      a ++ r ++ eol <+: t) := by
  induction h with
  | nil => intro k; exact ⟨[], [], 0, by simp, .nil, by simp, .inl ⟨rfl, rfl⟩⟩
  | @row r fs eol t rows hl hne heol _ ih =>
    intro k
    by_cases hk : k < (r ++ eol).length
    · refine ⟨[], (r ++ eol).take k, 0, ?_, .nil, by simp, .inr ⟨r, fs, eol, rfl, hl, heol, List.take_prefix _ _, ?_, ?_⟩⟩
      · rw [List.take_append_of_le_length (by omega)]; rfl
      · intro h
        have := congrArg List.length h
        rw [List.length_take] at this
        omega
      · exact List.prefix_append _ _
    · obtain ⟨a, b, m, h1, h2, h2', h3⟩ := ih (k - (r ++ eol).length)
      refine ⟨r ++ eol ++ a, b, m + 1, ?_, .row hl hne heol h2, by simp; omega, ?_⟩
      · rw [List.take_append, List.take_of_length_le (by omega), h1]; simp
      · rcases h3 with ⟨rfl, h3⟩ | ⟨r', fs', eol', k1, k2, k3, k4, k5, k6⟩
        · exact .inl ⟨by simp, h3⟩
        · refine .inr ⟨r', fs', eol', by simpa using k1, k2, k3, k4, k5, ?_⟩
          obtain ⟨z, rfl⟩ := k6
          exact ⟨z, by simp⟩

/-- C154, a text cut off anywhere: of rows of the same number of fields, written row by row, the first `k` characters give the rows that are there
completely, with their line endings, and at most one more. -/
theorem c154_cut (es : Errs) (hes : es.Proper) (t : List Char) (rows : List (List (List Char))) (h : Text t rows)
    (hw : ∀ a ∈ rows, ∀ b ∈ rows, a.length = b.length) (k : Nat) :
    ∃ (a : List Char) (m : Nat) (more : List (List String)) (e : Err),
      ReadsRows es.fieldCount (ofCSV es (t.take k)) ((rows.take m).map (·.map String.ofList) ++ more) e ∧
      Text a (rows.take m) ∧ a <+: t.take k ∧ m ≤ rows.length ∧ more.length ≤ 1 ∧
      (m < rows.length → ∃ r fs eol, rows[m]? = some fs ∧ Line r fs ∧ (eol = ['\n'] ∨ eol = ['\r', '\n']) ∧ a ++ r ++ eol <+: t ∧
        k < (a ++ r ++ eol).length) := by
  obtain ⟨a, b, m, h1, h2, h2', h3⟩ := text_cut h k
  obtain ⟨more, e, h4, h5⟩ := before es hes a b (rows.take m) h2
    (fun x hx y hy => hw x (List.mem_of_mem_take hx) y (List.mem_of_mem_take hy))
  rw [← h1] at h4
  refine ⟨a, m, more, e, h4, h2, by rw [h1]; exact List.prefix_append _ _, h2', ?_, ?_⟩
  · rcases h3 with ⟨-, rfl⟩ | ⟨r, fs, eol, k1, k2, k3, k4, k5, k6⟩
    · rw [records_nil] at h5; simp at h5; simp [h5]
    · exact Nat.le_trans h5 (records_cut es r fs k2 eol k3 b k4 k5)
  · intro hm
    rcases h3 with ⟨h6, -⟩ | ⟨r, fs, eol, k1, k2, k3, k4, k5, k6⟩
    · omega
    · refine ⟨r, fs, eol, k1, k2, k3, k6, ?_⟩
      have e1 := k6.length_le
      have e2 : b.length < (r ++ eol).length := by
        rcases Nat.lt_or_ge b.length (r ++ eol).length with h | h
        · exact h
        · exact absurd (k4.eq_of_length_le h) k5
      have e3 := congrArg List.length h1
      rw [List.length_take, List.length_append] at e3
      simp only [List.length_append] at *
      omega

/-! ### What does not come back -/

/-- C154 is false of fields with CR LF in them: it comes back as LF. -/
theorem c154_crlf_refuted (es : Errs) (hes : es.Proper) :
    ReadsRows es.fieldCount (ofCSV es ('"' :: (esc ['a', '\r', '\n', 'b'] ++ ['"', '\n']))) [[String.ofList ['a', '\n', 'b']]] .eoi := by
  refine (c154_exact es hes _ [[['a', '\n', 'b']]]).mpr ⟨?_, by simp⟩
  rw [show normal ('"' :: (esc ['a', '\r', '\n', 'b'] ++ ['"', '\n'])) = ('"' :: (esc ['a', '\n', 'b'] ++ ['"'])) ++ '\n' :: [] by decide]
  exact .row (.one (.quoted _)) (by simp) .nil

/-- C154 is false of rows with one empty field, written without quotes: an empty line is no row. -/
theorem c154_empty_refuted (es : Errs) (hes : es.Proper) (n : Nat) : ReadsRows es.fieldCount (ofCSV es (List.replicate n '\n')) [] .eoi := by
  refine (c154_exact es hes _ []).mpr ⟨?_, by simp⟩
  induction n with
  | zero => exact .nil
  | succ n ih => rw [List.replicate_succ, normal_other _ _ (by decide)]; exact .blank ih

/-! ### Non-vacuity -/

theorem proper_example : (Errs.mk (.user 1) (.user 2) (.user 3)).Proper := by simp [Errs.Proper]

/-- a,"b""c" CRLF ,d LF -/
theorem text_example : Text ("a,\"b\"\"c\"".toList ++ ['\r', '\n'] ++ (",d".toList ++ ['\n'] ++ []))
    [["a".toList, "b\"c".toList], ["".toList, "d".toList]] := by
  refine .row (r := "a,\"b\"\"c\"".toList) ?_ (by decide) (.inr rfl) (.row (r := ",d".toList) ?_ (by decide) (.inl rfl) .nil)
  · refine Line.more (t := ['a']) (.plain _ (by decide)) (.one (.quoted "b\"c".toList ?_))
    intro a b h
    have : '\r' ∈ "b\"c".toList := by rw [h]; simp
    revert this; decide
  · exact Line.more (t := []) (.plain _ (by decide)) (.one (.plain _ (by decide)))

example := c154_roundtrip_partial _ proper_example _ _ text_example (by decide)
example (k : Nat) := c154_cut _ proper_example _ _ text_example (by decide) k
example (b : List Char) := c154_before _ proper_example _ b _ text_example (by decide)
end Micro.Iter.Csv
