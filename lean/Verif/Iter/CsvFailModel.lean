import Verif.Iter.CsvModel
/-
Model of encoding/csv (standard library) reading from a source that fails with an error other than io.EOF, for the reader that iter/gen.go:412-438
`CSVIterGen` sets up; see CsvModel.lean for sources that end.
-/
namespace Micro.Iter.Csv
open Micro Micro.Iter

/-- csv.Reader readLine (standard library), called for iter/gen.go:412-438 `CSVIterGen`, when the source fails with `fin` after the text: a line with its
LF (CRLF is turned into LF) and no error, or what is left of the text, as it is, and the error. -/
def readLineF (fin : Err) (text : List Char) : List Char × List Char × Option Err :=
  let (line, rest) := slice text
  if line.getLast? = some '\n' then
    if line.length ≥ 2 ∧ line[line.length - 2]? = some '\r' then (line.take (line.length - 2) ++ ['\n'], rest, none) else (line, rest, none)
  else (line, rest, some fin)

theorem readLineF_length {fin : Err} {text line rest : List Char} {err : Option Err} (h : readLineF fin text = (line, rest, err)) :
    line.length + rest.length ≤ text.length := by
  have h1 := slice_length text
  unfold readLineF at h
  simp only at h
  split at h
  · split at h <;> cases h <;> simp at * <;> omega
  · cases h; omega

theorem readLineF_rest {fin : Err} {text line rest : List Char} (h : readLineF fin text = (line, rest, none)) : rest.length < text.length := by
  cases text with
  | nil => simp [readLineF, slice] at h
  | cons c t =>
    have h1 := slice_length (c :: t)
    have h2 := slice_pos c t
    have h3 : rest = (slice (c :: t)).2 := by
      unfold readLineF at h
      simp only at h
      split at h
      · split at h <;> cases h <;> rfl
      · cases h
    subst h3
    omega

/-- csv.Reader readRecord (standard library), called for iter/gen.go:412-438 `CSVIterGen`: the loop that finds a line that is not just LF; a failing source
ends it. -/
def nextLineF (fin : Err) (text : List Char) : List Char × List Char × Option Err :=
  match h : readLineF fin text with
  | (line, rest, none) => if line = [] ∨ line = ['\n'] then nextLineF fin rest else (line, rest, none)
  | (line, rest, some e) => (line, rest, some e)
termination_by text.length
decreasing_by exact readLineF_rest h

mutual
/-- csv.Reader readRecord (standard library), called for iter/gen.go:412-438 `CSVIterGen`: the loop parseField, as `fields`; `err` is errRead, the error with
which the source failed when the line was read. A mistake in the text found so far is reported first, then the error of the source. -/
def fieldsF (es : Errs) (fin : Err) (line rest : List Char) (err : Option Err) (acc : List (List Char)) : (List (List Char) × Option Err) × List Char :=
  match h : line with
  | '"' :: line => quotedF es fin line rest err [] acc
  | line =>
    match h' : line.dropWhile (· ≠ ',') with
    | _ :: line' =>
      if '"' ∈ line.takeWhile (· ≠ ',') then ((acc, some es.bareQuote), rest)
      else fieldsF es fin line' rest err (acc ++ [line.takeWhile (· ≠ ',')])
    | [] => if '"' ∈ chop line then ((acc, some es.bareQuote), rest) else ((acc ++ [chop line], err), rest)
termination_by line.length + rest.length
decreasing_by
  · simp
  · have := (List.dropWhile_suffix (fun x : Char => decide (x ≠ ',')) (l := line)).length_le
    rw [h'] at this
    simp at this
    omega

/-- csv.Reader readRecord (standard library), called for iter/gen.go:412-438 `CSVIterGen`: the loop for a quoted field, as `quoted`. If the source has failed,
a field that is not closed is no mistake in the text. -/
def quotedF (es : Errs) (fin : Err) (line rest : List Char) (err : Option Err) (buf : List Char) (acc : List (List Char)) :
    (List (List Char) × Option Err) × List Char :=
  match h : line.dropWhile (· ≠ '"') with
  | _ :: '"' :: line' => quotedF es fin line' rest err (buf ++ line.takeWhile (· ≠ '"') ++ ['"']) acc
  | _ :: ',' :: line' => fieldsF es fin line' rest err (acc ++ [buf ++ line.takeWhile (· ≠ '"')])
  | _ :: line' => if line' = [] ∨ line' = ['\n'] then ((acc ++ [buf ++ line.takeWhile (· ≠ '"')], err), rest) else ((acc, some es.quote), rest)
  | [] =>
    if hl : line = [] then (if err = none then ((acc, some es.quote), rest) else ((acc ++ [buf], err), rest))
    else if err ≠ none then ((acc, err), rest)
    else
      match hr : readLineF fin rest with
      | (line', rest', err') => quotedF es fin line' rest' err' (buf ++ line) acc
termination_by line.length + rest.length
decreasing_by
  · have := (List.dropWhile_suffix (fun x : Char => decide (x ≠ '"')) (l := line)).length_le
    rw [h] at this
    simp at this
    omega
  · have := (List.dropWhile_suffix (fun x : Char => decide (x ≠ '"')) (l := line)).length_le
    rw [h] at this
    simp at this
    omega
  · have := List.length_pos_iff.mpr hl
    have := readLineF_length hr
    omega
end

theorem nextLineF_rest (fin : Err) : ∀ (n : Nat) (text line rest : List Char), text.length ≤ n → nextLineF fin text = (line, rest, none) →
    rest.length < text.length := by
  intro n
  induction n with
  | zero =>
    intro text line rest hn h
    obtain rfl : text = [] := List.length_eq_zero_iff.mp (by omega)
    rw [nextLineF.eq_def] at h
    simp [readLineF, slice] at h
  | succ n ih =>
    intro text line rest hn h
    rw [nextLineF.eq_def] at h
    split at h
    · rename_i l r hr
      have h1 := readLineF_rest hr
      split at h
      · have := ih r line rest (by omega) h
        omega
      · cases h
        exact h1
    · cases h

theorem nextLineF_le (fin : Err) : ∀ (n : Nat) (text line rest : List Char) (err : Option Err), text.length ≤ n → nextLineF fin text = (line, rest, err) →
    line.length + rest.length ≤ text.length := by
  intro n
  induction n with
  | zero =>
    intro text line rest err hn h
    obtain rfl : text = [] := List.length_eq_zero_iff.mp (by omega)
    rw [nextLineF.eq_def] at h
    simp [readLineF, slice] at h
    obtain ⟨rfl, rfl, -⟩ := h
    simp
  | succ n ih =>
    intro text line rest err hn h
    rw [nextLineF.eq_def] at h
    split at h
    · rename_i l r hr
      have h1 := readLineF_rest hr
      split at h
      · have := ih r line rest err (by omega) h
        omega
      · cases h
        exact readLineF_length hr
    · rename_i hr
      cases h
      exact readLineF_length hr

theorem restF_length (es : Errs) (fin : Err) : ∀ (n : Nat) (line rest : List Char) (err : Option Err), line.length + rest.length ≤ n →
    (∀ acc, (fieldsF es fin line rest err acc).2.length ≤ rest.length) ∧ (∀ buf acc, (quotedF es fin line rest err buf acc).2.length ≤ rest.length) := by
  intro n
  induction n using Nat.strongRecOn with
  | ind n ih =>
    intro line rest err hn
    constructor
    · intro acc
      rw [fieldsF.eq_def]
      split
      · rename_i line
        exact (ih (n - 1) (by simp at hn; omega) line rest err (by simp at hn; omega)).2 _ _
      · split
        · rename_i h'
          have := (List.dropWhile_suffix (fun x : Char => decide (x ≠ ',')) (l := line)).length_le
          rw [h'] at this
          simp at this
          split
          · exact Nat.le_refl _
          · exact (ih (n - 1) (by omega) _ rest err (by omega)).1 _
        · split <;> exact Nat.le_refl _
    · intro buf acc
      have hd := (List.dropWhile_suffix (fun x : Char => decide (x ≠ '"')) (l := line)).length_le
      rw [quotedF.eq_def]
      split
      · rename_i h
        rw [h] at hd
        simp at hd
        exact (ih (n - 1) (by omega) _ rest err (by omega)).2 _ _
      · rename_i h
        rw [h] at hd
        simp at hd
        exact (ih (n - 1) (by omega) _ rest err (by omega)).1 _
      · split <;> exact Nat.le_refl _
      · split
        · split <;> exact Nat.le_refl _
        · rename_i hl
          have hp := List.length_pos_iff.mpr hl
          split
          · exact Nat.le_refl _
          · split
            rename_i hr
            have h1 := readLineF_length hr
            exact Nat.le_trans ((ih (n - 1) (by omega) _ _ _ (by omega)).2 _ _) (by omega)

/-- A record that is read while the source fails comes with an error. -/
theorem fieldsF_failed (es : Errs) (fin e : Err) : ∀ (n : Nat) (line rest : List Char), line.length + rest.length ≤ n →
    (∀ acc, (fieldsF es fin line rest (some e) acc).1.2 ≠ none) ∧ (∀ buf acc, (quotedF es fin line rest (some e) buf acc).1.2 ≠ none) := by
  intro n
  induction n using Nat.strongRecOn with
  | ind n ih =>
    intro line rest hn
    constructor
    · intro acc
      rw [fieldsF.eq_def]
      split
      · rename_i line
        exact (ih (n - 1) (by simp at hn; omega) line rest (by simp at hn; omega)).2 _ _
      · split
        · rename_i h'
          have := (List.dropWhile_suffix (fun x : Char => decide (x ≠ ',')) (l := line)).length_le
          rw [h'] at this
          simp at this
          split
          · simp
          · exact (ih (n - 1) (by omega) _ rest (by omega)).1 _
        · split <;> simp
    · intro buf acc
      have hd := (List.dropWhile_suffix (fun x : Char => decide (x ≠ '"')) (l := line)).length_le
      rw [quotedF.eq_def]
      split
      · rename_i h
        rw [h] at hd
        simp at hd
        exact (ih (n - 1) (by omega) _ rest (by omega)).2 _ _
      · rename_i h
        rw [h] at hd
        simp at hd
        exact (ih (n - 1) (by omega) _ rest (by omega)).1 _
      · split <;> simp
      · split
        · simp
        · simp

/-- The records that csv.Reader Read (standard library) gives for iter/gen.go:412-438 `CSVIterGen`, up to the first one that comes with an error.
Simplification: what the reader would give after an error is left out; Iter.Next (iter/iter.go:153-185) does not read on. -/
def recordsF (es : Errs) (fin : Err) (text : List Char) : List (List String × Option Err) :=
  match h : nextLineF fin text with
  | (line, rest, err) =>
    match h2 : (fieldsF es fin line rest err []).1.2 with
    | some e => [((fieldsF es fin line rest err []).1.1.map String.ofList, some e)]
    | none => ((fieldsF es fin line rest err []).1.1.map String.ofList, none) :: recordsF es fin (fieldsF es fin line rest err []).2
termination_by text.length
decreasing_by
  cases err with
  | some e => exact absurd h2 ((fieldsF_failed es fin e _ line rest (Nat.le_refl _)).1 [])
  | none => exact Nat.lt_of_le_of_lt ((restF_length es fin _ line rest none (Nat.le_refl _)).1 []) (nextLineF_rest fin _ _ _ _ (Nat.le_refl _) h)

/-- iter/iter.go:138-140 `OfCSV` of a reader that fails with `fin` after the text. -/
def ofCSVF (es : Errs) (fin : Err) (text : List Char) : It CsvState Funcs.Slc := ofIter (csvInit false (.new (recordsF es fin text)))

end Micro.Iter.Csv
