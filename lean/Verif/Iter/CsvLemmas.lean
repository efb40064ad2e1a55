import Verif.Iter.CsvModel
import Verif.Iter.CsvSpec
set_option linter.unusedSimpArgs false
/-
The CSV reader as an automaton over the text with normalised line endings.
-/
namespace Micro.Iter.Csv
open Micro Micro.Iter

theorem normal_nil : normal [] = [] := rfl
theorem normal_crlf (t : List Char) : normal ('\r' :: '\n' :: t) = '\n' :: normal t := by simp [normal]
theorem normal_cr_end : normal ['\r'] = [] := by simp [normal]
theorem normal_other (c : Char) (t : List Char) (h : c ≠ '\r') : normal (c :: t) = c :: normal t := by simp [normal, h]
theorem normal_cr (c : Char) (t : List Char) (h : c ≠ '\n') : normal ('\r' :: c :: t) = '\r' :: normal (c :: t) := by simp [normal, h]

/-- A line and what follows it: LF is only at the end of the line, and if there is none, nothing follows. -/
def Sync : List Char → List Char → Prop
  | [], rest => rest = []
  | c :: t, rest => if c = '\n' then t = [] else Sync t rest

theorem sync_cons {c : Char} {t rest : List Char} (h : Sync (c :: t) rest) (hc : c ≠ '\n') : Sync t rest := by
  simpa [Sync, hc] using h

theorem sync_nl {t rest : List Char} (h : Sync ('\n' :: t) rest) : t = [] := by simpa [Sync] using h

/-- readLine by characters. -/
theorem readLine_cons (c : Char) (t : List Char) : ∃ l r, readLine (c :: t) = some (l, r) ∧ Sync l r ∧ normal (c :: t) = l ++ normal r := by
  induction t generalizing c with
  | nil =>
    by_cases h : c = '\n'
    · subst h; exact ⟨['\n'], [], by decide, by simp [Sync], by decide⟩
    · by_cases h' : c = '\r'
      · subst h'; exact ⟨[], [], by decide, by simp [Sync], by decide⟩
      · exact ⟨[c], [], by simp [readLine, slice, h, h'], by simp [Sync, h], by simp [normal, h']⟩
  | cons d t ih =>
    by_cases h : c = '\n'
    · subst h
      refine ⟨['\n'], d :: t, by simp [readLine, slice], by simp [Sync], ?_⟩
      rw [normal_other _ _ (by decide)]; rfl
    obtain ⟨l, r, h1, h2, h3⟩ := ih d
    by_cases hcr : c = '\r' ∧ d = '\n'
    · obtain ⟨rfl, rfl⟩ := hcr
      refine ⟨['\n'], t, by simp [readLine, slice], by simp [Sync], ?_⟩
      rw [normal_crlf]; rfl
    · refine ⟨c :: l, r, ?_, by simpa [Sync, h] using h2, ?_⟩
      · have hs : slice (c :: d :: t) = (c :: (slice (d :: t)).1, (slice (d :: t)).2) := by
          simp [slice, h]
        have hp := slice_pos d t
        have hd : (slice (d :: t)).1.head? = some d := by
          simp only [slice]; split
          · rename_i h; subst h; rfl
          · rfl
        unfold readLine at h1 ⊢
        rw [hs]
        simp only [reduceCtorEq, if_false] at h1 ⊢
        generalize (slice (d :: t)).1 = L at *
        generalize (slice (d :: t)).2 = R at *
        have hL : L ≠ [] := List.length_pos_iff.mp hp
        have hg : (c :: L).getLast? = L.getLast? := by
          rw [List.getLast?_cons]
          obtain ⟨x, hx⟩ : ∃ x, L.getLast? = some x := by
            cases hL' : L.getLast? with
            | none => exact absurd (List.getLast?_eq_none_iff.mp hL') hL
            | some x => exact ⟨x, rfl⟩
          simp [hx]
        rw [hg]
        by_cases h4 : L.getLast? = some '\n'
        · rw [if_pos h4] at h1 ⊢
          by_cases h5 : L.length ≥ 2
          · have e1 : (c :: L)[(c :: L).length - 2]? = L[L.length - 2]? := by
              rw [show (c :: L).length - 2 = (L.length - 2) + 1 by simp; omega]; simp
            have e2 : (c :: L).take ((c :: L).length - 2) = c :: L.take (L.length - 2) := by
              rw [show (c :: L).length - 2 = (L.length - 2) + 1 by simp; omega]; simp
            rw [e1, e2]
            have h6 : (c :: L).length ≥ 2 := by simp; omega
            simp only [h5, h6, true_and] at h1 ⊢
            split at h1
            · rename_i h7; rw [if_pos h7]; cases h1; rfl
            · rename_i h7; rw [if_neg h7]; cases h1; rfl
          · have hL1 : L = ['\n'] := by
              cases L with
              | nil => exact absurd rfl hL
              | cons a L =>
                cases L with
                | nil => simpa using h4
                | cons b L => simp at h5
            subst hL1
            have hc : c ≠ '\r' := fun hc => hcr ⟨hc, by simpa using hd.symm⟩
            simp [hc] at h1 ⊢
            obtain ⟨rfl, rfl⟩ := h1
            exact ⟨rfl, rfl⟩
        · rw [if_neg h4] at h1 ⊢
          by_cases h5 : L.getLast? = some '\r'
          · rw [if_pos h5] at h1 ⊢
            have e2 : (c :: L).take ((c :: L).length - 1) = c :: L.take (L.length - 1) := by
              rw [show (c :: L).length - 1 = (L.length - 1) + 1 by simp; omega]; simp
            rw [e2]; cases h1; rfl
          · rw [if_neg h5] at h1 ⊢
            cases h1; rfl
      · by_cases hc : c = '\r'
        · subst hc
          have hd : d ≠ '\n' := fun h => hcr ⟨rfl, h⟩
          rw [normal_cr d t hd, h3]; rfl
        · rw [normal_other c _ hc, h3]; rfl

/-- What the reader is doing: at the beginning of a field, in a plain field, in a quoted field, after a quote in a quoted field. -/
inductive St where
  | start
  | plain (cur : List Char)
  | quoted (cur : List Char)
  | after (cur : List Char)

/-- What follows the current line. -/
def dropLine : List Char → List Char
  | [] => []
  | c :: t => if c = '\n' then t else dropLine t

/-- The automaton. -/
def run (es : Errs) : St → List Char → List (List Char) → (List (List Char) × Option Err) × List Char
  | .start, [], acc => ((acc ++ [[]], none), [])
  | .plain cur, [], acc => ((acc ++ [cur], none), [])
  | .quoted _, [], acc => ((acc, some es.quote), [])
  | .after cur, [], acc => ((acc ++ [cur], none), [])
  | .start, c :: t, acc =>
    if c = '"' then run es (.quoted []) t acc
    else if c = ',' then run es .start t (acc ++ [[]])
    else if c = '\n' then ((acc ++ [[]], none), t)
    else run es (.plain [c]) t acc
  | .plain cur, c :: t, acc =>
    if c = '"' then ((acc, some es.bareQuote), dropLine t)
    else if c = ',' then run es .start t (acc ++ [cur])
    else if c = '\n' then ((acc ++ [cur], none), t)
    else run es (.plain (cur ++ [c])) t acc
  | .quoted cur, c :: t, acc => if c = '"' then run es (.after cur) t acc else run es (.quoted (cur ++ [c])) t acc
  | .after cur, c :: t, acc =>
    if c = '"' then run es (.quoted (cur ++ ['"'])) t acc
    else if c = ',' then run es .start t (acc ++ [cur])
    else if c = '\n' then ((acc ++ [cur], none), t)
    else ((acc, some es.quote), dropLine t)

theorem dropLine_sync {line rest : List Char} (N : List Char) (h : Sync line rest) (hN : rest = [] → N = []) : dropLine (line ++ N) = N := by
  induction line with
  | nil => simp [Sync] at h; simp [hN h, dropLine]
  | cons c t ih =>
    by_cases hc : c = '\n'
    · subst hc; rw [sync_nl h]; simp [dropLine]
    · simpa [dropLine, hc] using ih (sync_cons h hc)

theorem chop_cons (c : Char) (t : List Char) (h : c ≠ '\n') : chop (c :: t) = c :: chop t := by
  cases t with
  | nil => simp [chop, h]
  | cons d t =>
    unfold chop
    rw [show (c :: d :: t).getLast? = (d :: t).getLast? by simp [List.getLast?_cons]]
    split <;> rfl

theorem quote_mem_chop (t : List Char) : '"' ∈ chop t ↔ '"' ∈ t := by
  induction t with
  | nil => simp [chop]
  | cons c t ih =>
    by_cases h : c = '\n'
    · subst h
      cases t with
      | nil => decide
      | cons d t =>
        have : chop ('\n' :: d :: t) = '\n' :: chop (d :: t) := by
          unfold chop
          rw [show ('\n' :: d :: t).getLast? = (d :: t).getLast? by simp [List.getLast?_cons]]
          split <;> rfl
        rw [this]; simp [ih]
    · rw [chop_cons c t h]; simp [ih]

theorem run_plain (es : Errs) (line rest : List Char) (N : List Char) (h : Sync line rest) (hN : rest = [] → N = []) : ∀ cur acc,
    run es (.plain cur) (line ++ N) acc =
      match line.dropWhile (· ≠ ',') with
      | _ :: line' =>
        if '"' ∈ line.takeWhile (· ≠ ',') then ((acc, some es.bareQuote), N)
        else run es .start (line' ++ N) (acc ++ [cur ++ line.takeWhile (· ≠ ',')])
      | [] => if '"' ∈ chop line then ((acc, some es.bareQuote), N) else ((acc ++ [cur ++ chop line], none), N) := by
  induction line with
  | nil => intro cur acc; simp [Sync] at h; simp [hN h, run, chop]
  | cons c t ih =>
    intro cur acc
    by_cases h1 : c = '"'
    · subst h1
      have hs := sync_cons h (by decide)
      simp only [List.cons_append, run, if_true, dropLine_sync N hs hN]
      split
      · simp [List.takeWhile_cons]
      · rw [if_pos ((quote_mem_chop _).mpr (by simp))]
    by_cases h2 : c = ','
    · subst h2
      simp [run, List.dropWhile_cons, List.takeWhile_cons]
    by_cases h3 : c = '\n'
    · subst h3
      rw [sync_nl h]
      simp [run, chop]
    · have hs := sync_cons h h3
      simp only [List.cons_append, run, h1, h2, h3, if_false]
      rw [ih hs (cur ++ [c]) acc]
      simp only [List.dropWhile_cons, List.takeWhile_cons, ne_eq, h2, not_false_eq_true, decide_true, if_true, chop_cons c t h3]
      split
      · simp [Ne.symm h1]
      · simp [Ne.symm h1]

theorem run_start (es : Errs) (t : List Char) (h : t.head? ≠ some '"') (acc : List (List Char)) : run es .start t acc = run es (.plain []) t acc := by
  cases t with
  | nil => rfl
  | cons c t =>
    have : c ≠ '"' := by simpa using h
    simp [run, this]

theorem run_quoted (es : Errs) (line N : List Char) : ∀ cur acc,
    run es (.quoted cur) (line ++ N) acc =
      match line.dropWhile (· ≠ '"') with
      | _ :: line' => run es (.after (cur ++ line.takeWhile (· ≠ '"'))) (line' ++ N) acc
      | [] => run es (.quoted (cur ++ line)) N acc := by
  induction line with
  | nil => intro cur acc; simp
  | cons c t ih =>
    intro cur acc
    by_cases h1 : c = '"'
    · subst h1; simp [run, List.dropWhile_cons, List.takeWhile_cons]
    · simp only [List.cons_append, run, h1, if_false]
      rw [ih]
      simp only [List.dropWhile_cons, List.takeWhile_cons, ne_eq, h1, not_false_eq_true, decide_true, if_true]
      split <;> simp

theorem sync_drop (p : Char → Bool) {line rest line' : List Char} {c : Char} (h : Sync line rest) (hd : line.dropWhile p = c :: line') (hc : c ≠ '\n') :
    Sync line' rest := by
  induction line with
  | nil => simp at hd
  | cons d t ih =>
    rw [List.dropWhile_cons] at hd
    by_cases hp : p d = true
    · rw [if_pos hp] at hd
      by_cases hn : d = '\n'
      · subst hn; rw [sync_nl h] at hd; simp at hd
      · exact ih (sync_cons h hn) hd
    · rw [if_neg hp] at hd
      cases hd
      exact sync_cons h hc

theorem dropWhile_head (a : Char) {l t : List Char} {c : Char} (h : l.dropWhile (· ≠ a) = c :: t) : c = a := by
  have := List.head?_dropWhile_not (p := fun x : Char => decide (x ≠ a)) (l := l)
  rw [h] at this
  simpa using this

theorem readLine_nil : readLine [] = none := by simp [readLine]

/-- The reader is the automaton. -/
theorem fields_run (es : Errs) : ∀ (n : Nat) (line rest : List Char), line.length + rest.length ≤ n → Sync line rest →
    (∀ acc, (fields es line rest acc).1 = (run es .start (line ++ normal rest) acc).1 ∧
      normal (fields es line rest acc).2 = (run es .start (line ++ normal rest) acc).2) ∧
    (∀ buf acc, (quoted es line rest buf acc).1 = (run es (.quoted buf) (line ++ normal rest) acc).1 ∧
      normal (quoted es line rest buf acc).2 = (run es (.quoted buf) (line ++ normal rest) acc).2) := by
  intro n
  induction n using Nat.strongRecOn with
  | ind n ih =>
    intro line rest hn hs
    have hN : rest = [] → normal rest = [] := fun h => by rw [h]; rfl
    constructor
    · intro acc
      rw [fields.eq_def]
      split
      · rename_i line
        have := (ih (n - 1) (by simp at hn; omega) line rest (by simp at hn; omega) (sync_cons hs (by decide))).2 [] acc
        simpa [run] using this
      · rename_i hne
        have hh : (line ++ normal rest).head? ≠ some '"' := by
          cases line with
          | nil => simp [Sync] at hs; simp [hs, normal]
          | cons c t =>
            intro h
            simp at h
            subst h
            exact hne t rfl
        rw [run_start es _ hh, run_plain es line rest _ hs hN]
        split
        · rename_i c line' h'
          have hd := (List.dropWhile_suffix (fun x : Char => decide (x ≠ ',')) (l := line)).length_le
          rw [h'] at hd
          simp at hd
          obtain rfl := dropWhile_head ',' h'
          have hs' := sync_drop _ hs h' (by decide)
          rw [h']
          simp only
          split
          · exact ⟨rfl, rfl⟩
          · simpa using (ih (n - 1) (by omega) line' rest (by omega) hs').1 _
        · rename_i h'
          rw [h']
          simp only
          split
          · exact ⟨rfl, rfl⟩
          · exact ⟨by simp, rfl⟩
    · intro buf acc
      have hd := (List.dropWhile_suffix (fun x : Char => decide (x ≠ '"')) (l := line)).length_le
      rw [quoted.eq_def, run_quoted es line]
      split
      · rename_i c line' h
        obtain rfl := dropWhile_head '"' h
        rw [h] at hd ⊢
        simp at hd
        have hs' := sync_cons (sync_drop _ hs h (by decide)) (by decide)
        have := (ih (n - 1) (by omega) line' rest (by omega) hs').2 (buf ++ line.takeWhile (· ≠ '"') ++ ['"']) acc
        simpa [run] using this
      · rename_i c line' h
        obtain rfl := dropWhile_head '"' h
        rw [h] at hd ⊢
        simp at hd
        have hs' := sync_cons (sync_drop _ hs h (by decide)) (by decide)
        have := (ih (n - 1) (by omega) line' rest (by omega) hs').1 (acc ++ [buf ++ line.takeWhile (· ≠ '"')])
        simpa [run] using this
      · rename_i c line' hn1 hn2 h
        obtain rfl := dropWhile_head '"' h
        rw [h]
        have hs' := sync_drop _ hs h (by decide)
        cases line' with
        | nil =>
          simp [Sync] at hs'
          simp [hs', normal, run]
        | cons d l2 =>
          have hd1 : d ≠ '"' := by rintro rfl; exact hn1 _ rfl
          have hd2 : d ≠ ',' := by rintro rfl; exact hn2 _ rfl
          by_cases hd3 : d = '\n'
          · subst hd3
            rw [sync_nl hs']
            simp [run]
          · simp [run, hd1, hd2, hd3, dropLine_sync _ (sync_cons hs' hd3) hN]
      · rename_i h
        rw [h]
        simp only
        by_cases hl : line = []
        · subst hl
          simp [Sync] at hs
          simp [hs, run, normal]
        · have hp := List.length_pos_iff.mpr hl
          rw [dif_neg hl]
          split
          · rename_i hr
            have hrest : rest = [] := by
              cases rest with
              | nil => rfl
              | cons c t => obtain ⟨l, r, h1, -⟩ := readLine_cons c t; rw [h1] at hr; cases hr
            have := (ih (n - 1) (by omega) [] [] (by simp) rfl).2 (buf ++ line) acc
            simpa [hrest, normal] using this
          · rename_i l r hr
            have h1 := readLine_length hr
            cases rest with
            | nil => rw [readLine_nil] at hr; cases hr
            | cons c t =>
              obtain ⟨l', r', h2, h3, h4⟩ := readLine_cons c t
              rw [h2] at hr
              cases hr
              rw [h4]
              exact (ih (n - 1) (by omega) l r (by omega) h3).2 (buf ++ line) acc

end Micro.Iter.Csv
