import Verif.Rest.Props
import Verif.Rest.ContentProps
import Verif.Json.CutIterProps
/-
C155 for requests: the body of an application/json request that breaks off.
-/
namespace Micro.Rest
open Micro Micro.Iter Micro.Json

/-- C155, requests: when the body of an application/json request is an array of which the end never comes, NegotiateJSONContent gives an iterator of the
first elements of the array and an error other than EOI; if reading the body failed (with any error but EOI), nothing else, and otherwise perhaps the
beginning of the number that comes next. -/
theorem c155_request_partial (hdr : List (String × List String)) (hct : HeaderValue hdr "Content-Type" "application/json") (fin : Err)
    (a b : List Char) (vs : List JVal) (h : IsDoc common (a ++ b) (.arr vs)) (hb : b ≠ []) :
    ∃ it xs e, negotiateJSON hdr fin a = some (some it) ∧ it.YieldsForever xs e ∧ e ≠ .eoi ∧
      (xs <+: vs ∨ (fin = .eoi ∧ ∃ us s s' r, xs = us ++ [.num s] ∧ vs = us ++ .num s' :: r ∧ s <+: s')) := by
  have h1 : headerGet hdr "Content-Type" = "application/json" := headerValue_unique (headerGet_spec _ _) hct
  obtain ⟨it, xs, e, h2, h3⟩ := c155_array_partial fin a b vs h hb
  exact ⟨it, xs, e, by simp [negotiateJSON, h1, h2], h3⟩

example := c155_request_partial [("Content-Type", ["application/json"])] (.first [] [] [] _ rfl (by simp)) (.user 3) ['[', '1', '2', ',', '3', '4']
  ['5', ']'] _ doc12_345 (by simp)

end Micro.Rest
