/-
Specification for C154: what a CSV text (RFC 4180) stands for.
-/
namespace Micro.Iter.Csv

/-- The text with every CR LF turned into LF, and without a CR at its very end. -/
def normal : List Char → List Char
  | [] => []
  | c :: t => if c = '\r' then (if t = [] then [] else if t.head? = some '\n' then normal t else '\r' :: normal t) else c :: normal t

/-- The text of a quoted field: every quote is doubled. -/
def esc : List Char → List Char
  | [] => []
  | c :: t => if c = '"' then '"' :: '"' :: esc t else c :: esc t

/-- The text of a field and the field: as it is if it contains no comma, quote or LF, or between quotes. -/
inductive Field : List Char → List Char → Prop where
  | plain (f : List Char) : (∀ c ∈ f, c ≠ ',' ∧ c ≠ '"' ∧ c ≠ '\n') → Field f f
  | quoted (f : List Char) : Field ('"' :: (esc f ++ ['"'])) f

/-- The text of a row and its fields: at least one, separated by commas. -/
inductive Row : List Char → List (List Char) → Prop where
  | one {t f} : Field t f → Row t [f]
  | more {t f r fs} : Field t f → Row r fs → Row (t ++ ',' :: r) (f :: fs)

/-- A document with LF as line ending and its rows; empty lines are no rows, the last line ending may be missing. -/
inductive Doc : List Char → List (List (List Char)) → Prop where
  | nil : Doc [] []
  | blank {t rows} : Doc t rows → Doc ('\n' :: t) rows
  | row {r fs t rows} : Row r fs → r ≠ [] → Doc t rows → Doc (r ++ '\n' :: t) (fs :: rows)
  | last {r fs} : Row r fs → r ≠ [] → Doc r [fs]

end Micro.Iter.Csv

namespace Micro.Iter.Csv

/-- The text of a field as a program that follows RFC 4180 writes it, and the field: as it is if it contains no comma, quote, CR or LF, or between quotes.
Only fields without CR LF are considered: the reader turns it into LF. -/
inductive Cell : List Char → List Char → Prop where
  | plain (f : List Char) : (∀ c ∈ f, c ≠ ',' ∧ c ≠ '"' ∧ c ≠ '\n' ∧ c ≠ '\r') → Cell f f
  | quoted (f : List Char) : (∀ a b, f ≠ a ++ '\r' :: '\n' :: b) → Cell ('"' :: (esc f ++ ['"'])) f

/-- The text of a row without its line ending, and its fields. -/
inductive Line : List Char → List (List Char) → Prop where
  | one {t f} : Cell t f → Line t [f]
  | more {t f r fs} : Cell t f → Line r fs → Line (t ++ ',' :: r) (f :: fs)

/-- Rows written one after the other, each with LF or CR LF at its end. A row that consists of an empty field must be written with quotes, since an empty
line is no row. -/
inductive Text : List Char → List (List (List Char)) → Prop where
  | nil : Text [] []
  | row {r fs eol t rows} : Line r fs → r ≠ [] → eol = ['\n'] ∨ eol = ['\r', '\n'] → Text t rows → Text (r ++ eol ++ t) (fs :: rows)

end Micro.Iter.Csv
