import Verif.Iter.WrapModel
/-
Model of how encoding/csv (standard library) makes records of a text, for the reader that iter/gen.go:412-438 `CSVIterGen` sets up: Comma is ',', no
Comment, LazyQuotes and TrimLeadingSpace are false. The text is a list of characters: comma, quote, CR and LF are single bytes that occur in no other
character's encoding, so this is the same as working on bytes. A source that fails with another error than io.EOF: CsvFailModel.lean.
-/
namespace Micro.Iter.Csv
open Micro Micro.Iter

/-- The text up to and including the first LF, and the rest: bufio.Reader ReadSlice('\n') (standard library), as csv.Reader readLine calls it for
iter/gen.go:412-438 `CSVIterGen`. -/
def slice : List Char → List Char × List Char
  | [] => ([], [])
  | c :: t => if c = '\n' then (['\n'], t) else (c :: (slice t).1, (slice t).2)

/-- csv.Reader readLine (standard library), called for iter/gen.go:412-438 `CSVIterGen`: the next line with its LF, CRLF being turned into LF, and a CR
before the end of the text dropped. `none` is io.EOF. -/
def readLine (text : List Char) : Option (List Char × List Char) :=
  if text = [] then none
  else
    let (line, rest) := slice text
    if line.getLast? = some '\n' then
      if line.length ≥ 2 ∧ line[line.length - 2]? = some '\r' then some (line.take (line.length - 2) ++ ['\n'], rest) else some (line, rest)
    else if line.getLast? = some '\r' then some (line.take (line.length - 1), rest)
    else some (line, rest)

theorem slice_length (t : List Char) : (slice t).1.length + (slice t).2.length = t.length := by
  induction t with
  | nil => simp [slice]
  | cons c t ih =>
    simp only [slice]
    split
    · simp
      omega
    · simp
      omega

theorem slice_pos (c : Char) (t : List Char) : 0 < (slice (c :: t)).1.length := by
  simp only [slice]
  split <;> simp

theorem readLine_length {text line rest : List Char} (h : readLine text = some (line, rest)) : line.length + rest.length ≤ text.length := by
  have h1 := slice_length text
  unfold readLine at h
  split at h
  · cases h
  · simp only at h
    split at h
    · split at h <;> cases h <;> simp at * <;> omega
    · split at h <;> cases h <;> simp at * <;> omega

theorem readLine_rest {text line rest : List Char} (h : readLine text = some (line, rest)) : rest.length < text.length := by
  cases text with
  | nil => simp [readLine] at h
  | cons c t =>
    have h1 := slice_length (c :: t)
    have h2 := slice_pos c t
    have h3 : rest = (slice (c :: t)).2 := by
      unfold readLine at h
      split at h
      · cases h
      · simp only at h
        split at h
        · split at h <;> cases h <;> rfl
        · split at h <;> cases h <;> rfl
    subst h3
    omega

/-- csv.Reader readRecord (standard library), called for iter/gen.go:412-438 `CSVIterGen`: the loop that finds a line that is neither empty nor just LF.
`none` is io.EOF. -/
def nextLine (text : List Char) : Option (List Char × List Char) :=
  match h : readLine text with
  | none => none
  | some (line, rest) => if line = [] ∨ line = ['\n'] then nextLine rest else some (line, rest)
termination_by text.length
decreasing_by exact readLine_rest h

/-- The errors of package csv. -/
structure Errs where
  /-- ErrFieldCount -/
  fieldCount : Err
  /-- ErrBareQuote -/
  bareQuote : Err
  /-- ErrQuote -/
  quote : Err

/-- The line without its LF: `field[:len(field)-lengthNL(field)]` in csv.Reader readRecord (standard library), for iter/gen.go:412-438 `CSVIterGen`. -/
def chop (l : List Char) : List Char := if l.getLast? = some '\n' then l.dropLast else l

mutual
/-- csv.Reader readRecord (standard library), called for iter/gen.go:412-438 `CSVIterGen`: the loop parseField; `line` is what is left of the line, `rest`
the text after it, `acc` the fields so far. The result is the fields, the error, and the rest of the text. -/
def fields (es : Errs) (line rest : List Char) (acc : List (List Char)) : (List (List Char) × Option Err) × List Char :=
  match h : line with
  | '"' :: line => quoted es line rest [] acc
  | line =>
    match h' : line.dropWhile (· ≠ ',') with
    | _ :: line' =>
      if '"' ∈ line.takeWhile (· ≠ ',') then ((acc, some es.bareQuote), rest)
      else fields es line' rest (acc ++ [line.takeWhile (· ≠ ',')])
    | [] => if '"' ∈ chop line then ((acc, some es.bareQuote), rest) else ((acc ++ [chop line], none), rest)
termination_by line.length + rest.length
decreasing_by
  · simp
  · have := (List.dropWhile_suffix (fun x : Char => decide (x ≠ ',')) (l := line)).length_le
    rw [h'] at this
    simp at this
    omega

/-- csv.Reader readRecord (standard library), called for iter/gen.go:412-438 `CSVIterGen`: the loop for a quoted field; `buf` is the text of the field so
far. -/
def quoted (es : Errs) (line rest buf : List Char) (acc : List (List Char)) : (List (List Char) × Option Err) × List Char :=
  match h : line.dropWhile (· ≠ '"') with
  | _ :: '"' :: line' => quoted es line' rest (buf ++ line.takeWhile (· ≠ '"') ++ ['"']) acc
  | _ :: ',' :: line' => fields es line' rest (acc ++ [buf ++ line.takeWhile (· ≠ '"')])
  | _ :: line' => if line' = [] ∨ line' = ['\n'] then ((acc ++ [buf ++ line.takeWhile (· ≠ '"')], none), rest) else ((acc, some es.quote), rest)
  | [] =>
    if hl : line = [] then ((acc, some es.quote), rest)
    else
      match hr : readLine rest with
      | none => quoted es [] [] (buf ++ line) acc
      | some (line', rest') => quoted es line' rest' (buf ++ line) acc
termination_by line.length + rest.length
decreasing_by
  · have := (List.dropWhile_suffix (fun x : Char => decide (x ≠ '"')) (l := line)).length_le
    rw [h] at this
    simp at this
    omega
  · have := (List.dropWhile_suffix (fun x : Char => decide (x ≠ '"')) (l := line)).length_le
    rw [h] at this
    simp at this
    omega
  · have := List.length_pos_iff.mpr hl
    simp
    omega
  · have := List.length_pos_iff.mpr hl
    have := readLine_length hr
    omega
end

theorem rest_length (es : Errs) : ∀ (n : Nat) (line rest : List Char), line.length + rest.length ≤ n →
    (∀ acc, (fields es line rest acc).2.length ≤ rest.length) ∧ (∀ buf acc, (quoted es line rest buf acc).2.length ≤ rest.length) := by
  intro n
  induction n using Nat.strongRecOn with
  | ind n ih =>
    intro line rest hn
    constructor
    · intro acc
      rw [fields.eq_def]
      split
      · rename_i line
        exact (ih (n - 1) (by simp at hn; omega) line rest (by simp at hn; omega)).2 _ _
      · split
        · rename_i h'
          have := (List.dropWhile_suffix (fun x : Char => decide (x ≠ ',')) (l := line)).length_le
          rw [h'] at this
          simp at this
          split
          · exact Nat.le_refl _
          · exact (ih (n - 1) (by omega) _ rest (by omega)).1 _
        · split <;> exact Nat.le_refl _
    · intro buf acc
      have hd := (List.dropWhile_suffix (fun x : Char => decide (x ≠ '"')) (l := line)).length_le
      rw [quoted.eq_def]
      split
      · rename_i h
        rw [h] at hd
        simp at hd
        exact (ih (n - 1) (by omega) _ rest (by omega)).2 _ _
      · rename_i h
        rw [h] at hd
        simp at hd
        exact (ih (n - 1) (by omega) _ rest (by omega)).1 _
      · split <;> exact Nat.le_refl _
      · split
        · exact Nat.le_refl _
        · rename_i hl
          have hp := List.length_pos_iff.mpr hl
          split
          · exact Nat.le_trans ((ih 0 (by omega) [] [] (by simp)).2 _ _) (by simp)
          · rename_i hr
            have h1 := readLine_length hr
            have h2 := readLine_rest hr
            exact Nat.le_trans ((ih (n - 1) (by omega) _ _ (by omega)).2 _ _) (by omega)

theorem nextLine_rest : ∀ (n : Nat) (text line rest : List Char), text.length ≤ n → nextLine text = some (line, rest) → rest.length < text.length := by
  intro n
  induction n with
  | zero =>
    intro text line rest hn h
    obtain rfl : text = [] := List.length_eq_zero_iff.mp (by omega)
    rw [nextLine.eq_def] at h
    simp [readLine] at h
  | succ n ih =>
    intro text line rest hn h
    rw [nextLine.eq_def] at h
    split at h
    · cases h
    · rename_i l r hr
      have h1 := readLine_rest hr
      split at h
      · have := ih r line rest (by omega) h
        omega
      · cases h
        exact h1

/-- The records that csv.Reader Read (standard library) gives for iter/gen.go:412-438 `CSVIterGen`, one after the other, up to the end of the text: the
fields and the error, if any. (The number of fields is checked in CsvReader.read.) -/
def records (es : Errs) (text : List Char) : List (List String × Option Err) :=
  match h : nextLine text with
  | none => []
  | some (line, rest) => ((fields es line rest []).1.1.map String.ofList, (fields es line rest []).1.2) :: records es (fields es line rest []).2
termination_by text.length
decreasing_by exact Nat.lt_of_le_of_lt ((rest_length es _ line rest (Nat.le_refl _)).1 []) (nextLine_rest _ _ _ _ (Nat.le_refl _) h)

/-- iter/iter.go:138-140 `OfCSV` of a reader of the text. -/
def ofCSV (es : Errs) (text : List Char) : It CsvState Funcs.Slc := ofIter (csvInit false (.new (records es text)))

end Micro.Iter.Csv
