import Verif.Rest.CsvProps
import Verif.Iter.CsvFailProps
/-
C156 for requests: the body of a text/csv request that breaks off.
-/
namespace Micro.Rest
open Micro Micro.Iter Micro.Iter.Csv

/-- C156, requests: when reading the body of a text/csv request fails (with any error but io.EOF and EOI) after some complete rows of the same number of
fields and a piece of the next line, NegotiateCSVContent gives an iterator of exactly these rows and an error that is not EOI. -/
theorem c156_request (es : Errs) (hes : es.Proper) (hdr : List (String × List String)) (hct : HeaderValue hdr "Content-Type" "text/csv") (fin : Err)
    (hf : fin ≠ .eof) (hf' : fin ≠ .eoi) (a b : List Char) (rows : List (List (List Char))) (h : Text a rows)
    (hw : ∀ a ∈ rows, ∀ b ∈ rows, a.length = b.length) (hb : ∀ c ∈ b, c ≠ '\n') :
    ∃ it e, negotiateCSV hdr (recordsF es fin (a ++ b)) = some it ∧ ReadsRows es.fieldCount it (rows.map (·.map String.ofList)) e ∧ e ≠ .eoi := by
  have h1 : headerGet hdr "Content-Type" = "text/csv" := headerValue_unique (headerGet_spec _ _) hct
  obtain ⟨e, h2, h3, -⟩ := c156_complete es hes fin hf a b rows h hw hb
  refine ⟨ofCSVF es fin (a ++ b), e, by simp [negotiateCSV, h1, ofCSVF], h2, ?_⟩
  rcases h3 with rfl | rfl | rfl
  · exact hf'
  · exact hes.2.1
  · exact hes.2.2.1

example := c156_request _ proper_example [("Content-Type", ["text/csv"])] (.first [] [] [] _ rfl (by simp)) (.user 4) (by simp) (by simp) _ "d".toList _
  text_example (by decide) (by decide)

end Micro.Rest
