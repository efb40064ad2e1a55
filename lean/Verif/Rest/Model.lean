import Verif.Json.ValueModel
/-
Model of rest/rest.go (ServeMux) and rest/content.go (content negotiation).

Regular expressions are a parameter: `compile` is regexp.Compile (`none`: an error) and `find` is
Regexp.FindStringSubmatch (`none`: nil). Requests are their method and URL path.
-/
namespace Micro.Rest
open Micro Micro.Iter

variable {P H : Type}

/-- rest/rest.go:46-48: a (method, regexp, handler) triple. For a HandlerFunc (rest/rest.go:38-40 `HandlerFunc.Serve`) serving is calling the function. -/
structure Reg (P H : Type) where
  method : List Char
  pattern : P
  handler : H

/-- rest/rest.go:14-18: the errors of Handle. -/
inductive HErr where
  | emptyMethod | emptyPattern | nilHandler | badPattern
  deriving DecidableEq, Repr

/-- The arguments of one call of Handle; a nil handler is `none`. -/
structure HCall (H : Type) where
  method : List Char
  pattern : List Char
  handler : Option H

/-- rest/rest.go:56-74: the checks of Handle, giving the triple to add. -/
def prepare (compile : List Char → Option P) (c : HCall H) : Except HErr (Reg P H) :=
  if c.method = [] then .error .emptyMethod
  else if c.pattern = [] then .error .emptyPattern
  else match c.handler with
    | none => .error .nilHandler
    | some h => match compile c.pattern with
      | none => .error .badPattern
      | some p => .ok ⟨c.method, p, h⟩

/-- rest/rest.go:54-80 `ServeMux.Handle`: the result and the new handlers; funcs.SliceAdd (funcs/funcs.go:57-63 `SliceAdd`) appends. -/
def handle (compile : List Char → Option P) (c : HCall H) (handlers : List (Reg P H)) : Option HErr × List (Reg P H) :=
  match prepare compile c with
  | .error e => (some e, handlers)
  | .ok r => (none, handlers ++ [r])

/-- What a request leads to: a call of a handler with the URL parts, or http.Error with a status and a message. -/
inductive Response (H : Type) where
  | called (h : H) (parts : List (List Char))
  | httpError (status : Nat) (msg : String)

/-- rest/rest.go:95-119: the loop of `ServeHTTP`, and what follows it. -/
def serveLoop (find : P → List Char → Option (List (List Char))) (method url : List Char) (urlMatched : Bool) :
    List (Reg P H) → Response H
  | [] => if urlMatched = true then .httpError 405 "Method Not Allowed" else .httpError 404 "Not Found"
  | r :: rs =>
    match find r.pattern url with
    | none => serveLoop find method url urlMatched rs
    | some parts => if method = r.method then .called r.handler parts else serveLoop find method url true rs

/-- rest/rest.go:88-120 `ServeMux.ServeHTTP`. -/
def serve (find : P → List Char → Option (List (List Char))) (handlers : List (Reg P H)) (method url : List Char) : Response H :=
  serveLoop find method url false handlers

/-- A history of Handle calls on the zero ServeMux, one after the other. -/
def handleAll (compile : List Char → Option P) (cs : List (HCall H)) : List (Reg P H) :=
  cs.foldl (fun hs c => (handle compile c hs).2) []

/-! ### Handle called by several goroutines

`append((*slc), value)` reads the slice, and the assignment writes it back (funcs/funcs.go:62). Nothing synchronises the two.
Simplification: reading and writing the slice are single steps (in Go a slice is three words, so even this is not
guaranteed). -/

/-- A goroutine calling Handle with a valid registration. -/
inductive HThread (P H : Type) where
  | start (r : Reg P H)
  | read (r : Reg P H) (seen : List (Reg P H))
  | done (r : Reg P H)

/-- One step of one goroutine. -/
inductive HStep : List (Reg P H) × List (HThread P H) → List (Reg P H) × List (HThread P H) → Prop
  | read (hs) (a b : List (HThread P H)) (r) : HStep (hs, a ++ .start r :: b) (hs, a ++ .read r hs :: b)
  | write (hs) (a b : List (HThread P H)) (r seen) : HStep (hs, a ++ .read r seen :: b) (seen ++ [r], a ++ .done r :: b)

/-- Any number of steps. -/
inductive HSteps : List (Reg P H) × List (HThread P H) → List (Reg P H) × List (HThread P H) → Prop
  | refl (x) : HSteps x x
  | step (x y z) : HStep x y → HSteps y z → HSteps x z

/-! ### Content negotiation -/

/-- net/http Header.Get: the first value of the header, or "". Header names are given in canonical form. -/
def headerGet (hdr : List (String × List String)) (key : String) : String :=
  match hdr.lookup key with
  | some (v :: _) => v
  | _ => ""

/-- rest/content.go:46-52 `NegotiateJSONContent`; `none` is nil. The body is a text and how the reader ends. -/
def negotiateJSON (hdr : List (String × List String)) (fin : Err) (body : List Char) : Option (Option (Stream.AnyIter Json.JVal)) :=
  if headerGet hdr "Content-Type" = "application/json" then (Json.iterate fin body).map some else some none

end Micro.Rest
