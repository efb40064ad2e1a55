import Verif.Rest.Model
import Verif.Iter.WrapModel
/-
Model of the rest of rest/content.go: AcceptGzip and NegotiateCSVContent.
-/
namespace Micro.Rest
open Micro Micro.Iter

/-- An io.Reader on a request body: the bytes as they are, or decompressed. -/
inductive BodyReader where
  | raw (body : List Nat)
  | gunzip (body : List Nat)
  deriving DecidableEq

/-- rest/content.go:28-34 `AcceptGzip`; `isGzip` tells whether gzip.NewReader accepts the start of the body. `none` is a panic (funcs.MustValue). -/
def acceptGzip (isGzip : List Nat → Bool) (hdr : List (String × List String)) (body : List Nat) : Option BodyReader :=
  if headerGet hdr "Accept-Encoding" = "gzip" then
    if isGzip body then some (.gunzip body) else none
  else some (.raw body)

/-- rest/content.go:37-43 `NegotiateCSVContent`; `none` is nil. The body is given by its CSV records. -/
def negotiateCSV (hdr : List (String × List String)) (rows : List (List String × Option Err)) : Option (It CsvState Funcs.Slc) :=
  if headerGet hdr "Content-Type" = "text/csv" then some (ofIter (csvInit false (.new rows))) else none

end Micro.Rest
