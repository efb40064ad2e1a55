import Verif.Rest.ContentModel
import Verif.Rest.Props
import Verif.Iter.WrapProps
/-
Properties of rest/content.go: C110.
-/
namespace Micro.Rest
open Micro Micro.Iter

/-- C110. A request whose Content-Type is exactly text/csv gives the iterator of the rows of its body (see C107); any other gives nil. -/
theorem c110_csv (hdr : List (String × List String)) (ct : String) (hct : HeaderValue hdr "Content-Type" ct) (fc : Err) (w : Nat) (hw : 0 < w)
    (rows : List (List String)) (hrows : ∀ f ∈ rows, f.length = w) (tail : List (List String × Option Err)) (e : Err) (he : CsvEnd fc w tail e)
    (hne : rows ≠ [] ∨ ∀ f, tail.head? ≠ some (f, none)) :
    (ct ≠ "text/csv" → negotiateCSV hdr (rows.map (·, none) ++ tail) = none) ∧
    (ct = "text/csv" → ∃ it, negotiateCSV hdr (rows.map (·, none) ++ tail) = some it ∧ ReadsRows fc it rows e) := by
  have hh : headerGet hdr "Content-Type" = ct := headerValue_unique (headerGet_spec _ _) hct
  rw [← hh]
  constructor
  · intro h; simp [negotiateCSV, h]
  · intro h; exact ⟨_, by simp [negotiateCSV, h], c107_rows fc w hw rows hrows tail e he hne⟩

/-- Non-vacuity: the header, and a body of two rows. -/
example : HeaderValue [("Content-Type", ["text/csv"])] "Content-Type" "text/csv" ∧ CsvEnd (.user 1) 2 [] .eoi ∧ (∀ f ∈ [["a", "b"], ["c", "d"]], f.length = 2) :=
  ⟨.first [] [] [] _ rfl (by simp), .eof, by decide⟩

/-- C110 is false with a media type parameter (RFC 4180 defines charset and header for text/csv): the result is nil. -/
theorem c110_csv_parameter_refuted (rows : List (List String × Option Err)) : negotiateCSV [("Content-Type", ["text/csv; header=present"])] rows = none := by
  simp [negotiateCSV, headerGet, List.lookup]

/-- C110. AcceptGzip gives the decompressed body if the first Accept-Encoding header is exactly gzip and the body is a gzip stream, and the body as it is if the
header is anything else. Missing: all other requests, see the refuted statements. -/
theorem c110_gzip_partial (isGzip : List Nat → Bool) (hdr : List (String × List String)) (ae : String) (hae : HeaderValue hdr "Accept-Encoding" ae)
    (body : List Nat) :
    (ae = "gzip" → isGzip body = true → acceptGzip isGzip hdr body = some (.gunzip body)) ∧ (ae ≠ "gzip" → acceptGzip isGzip hdr body = some (.raw body)) := by
  have hh : headerGet hdr "Accept-Encoding" = ae := headerValue_unique (headerGet_spec _ _) hae
  rw [← hh]
  exact ⟨fun h h' => by simp [acceptGzip, h, h'], fun h => by simp [acceptGzip, h]⟩

/-- Non-vacuity: a client that accepts gzip, and one that does not say so. -/
example : HeaderValue [("Accept-Encoding", ["gzip"])] "Accept-Encoding" "gzip" ∧ HeaderValue [("Accept", ["*/*"])] "Accept-Encoding" "" :=
  ⟨.first [] [] [] _ rfl (by simp), .absent (by decide)⟩

/-- C110 is false: Accept-Encoding says what the client accepts in the response, so that a request with a plain body (a GET without a body, for instance)
makes AcceptGzip panic. -/
theorem c110_gzip_plain_body_refuted (isGzip : List Nat → Bool) (body : List Nat) (h : isGzip body = false) :
    acceptGzip isGzip [("Accept-Encoding", ["gzip"])] body = none := by
  simp [acceptGzip, headerGet, List.lookup, h]

/-- C110 is false: a compressed body, marked as such, is not decompressed if the client accepts other encodings too. -/
theorem c110_gzip_list_refuted (isGzip : List Nat → Bool) (body : List Nat) :
    acceptGzip isGzip [("Accept-Encoding", ["gzip, deflate, br"]), ("Content-Encoding", ["gzip"])] body = some (.raw body) := by
  simp [acceptGzip, headerGet, List.lookup]

end Micro.Rest
