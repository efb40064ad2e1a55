import Verif.Rest.ContentProps
import Verif.Iter.CsvProps
/-
C154 for requests: from the body of a text/csv request to its rows.
-/
namespace Micro.Rest
open Micro Micro.Iter Micro.Iter.Csv

/-- C154, requests: for a text/csv request whose body is rows of the same number of fields, written row by row, NegotiateCSVContent gives an iterator of
exactly these rows, then EOI. Partial as c154_roundtrip_partial is. -/
theorem c154_request_partial (es : Errs) (hes : es.Proper) (hdr : List (String × List String)) (hct : HeaderValue hdr "Content-Type" "text/csv")
    (body : List Char) (rows : List (List (List Char))) (h : Text body rows) (hw : ∀ a ∈ rows, ∀ b ∈ rows, a.length = b.length) :
    ∃ it, negotiateCSV hdr (records es body) = some it ∧ ReadsRows es.fieldCount it (rows.map (·.map String.ofList)) .eoi := by
  have h1 : headerGet hdr "Content-Type" = "text/csv" := headerValue_unique (headerGet_spec _ _) hct
  refine ⟨ofCSV es body, by simp [negotiateCSV, h1, ofCSV], c154_roundtrip_partial es hes body rows h hw⟩

example := c154_request_partial _ proper_example [("Content-Type", ["text/csv"])] (.first [] [] [] _ rfl (by simp)) _ _ text_example (by decide)

end Micro.Rest
