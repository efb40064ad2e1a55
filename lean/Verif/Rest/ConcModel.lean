import Verif.Rest.Model
import Verif.Funcs.SliceModel
/-
Model of a ServeMux (rest/rest.go) that goroutines register with and serve requests with at the same time, with memory: the variable with the slice
header, and the backing arrays. Every read and write of the header or of an element is one step.

Simplification: reading or writing a slice header or an element is atomic (Go does not promise it for racing accesses).
-/
namespace Micro.Rest.Conc
open Micro Micro.Funcs

variable {P H : Type}

/-- What a goroutine that calls Handle is about to do with a registration (funcs/funcs.go:57-63 `SliceAdd`, called in rest/rest.go:77): nothing (between two
calls), to set a nil slice to an empty one, to read the slice header, to append to the slice it has read (s), to copy the elements of s into a larger array
(acc: those copied already), to store the new slice in the variable. -/
inductive RegSt (P H : Type) where
  | idle
  | blank (r : Reg P H)
  | load (r : Reg P H)
  | got (r : Reg P H) (s : Slc)
  | copying (r : Reg P H) (s : Slc) (acc : List (Reg P H))
  | store (r : Reg P H) (s : Slc)

/-- Where a request is in ServeHTTP (rest/rest.go:88-120): not begun, in the loop over the slice s, at index i with `urlMatched`, or answered. `panicked` is an index out of
range. -/
inductive SrvSt (H : Type) where
  | ready
  | loop (s : Slc) (i : Nat) (urlMatched : Bool)
  | done (resp : Response H)
  | panicked

/-- The memory, the slice header in the mux (rest/rest.go:47; none for nil), the goroutines that register, each with the registrations it has still to make one after the other, and
the requests. -/
structure St (P H : Type) where
  mem : SMem (Reg P H)
  hdr : Option Slc
  regs : List (RegSt P H × List (Reg P H))
  srvs : List (List Char × List Char × SrvSt H)

/-- A slice header or nil, as a slice. -/
def hdrSlc : Option Slc → Slc
  | some s => s
  | none => ⟨0, 0, 0, 0⟩

/-- funcs/funcs.go:57-63 `SliceAdd`: one step of a goroutine that registers, on the memory and the header. `grow` is the spare capacity that append allocates, zv what spare
elements hold. The new array of append is filled in private (acc), and part of the memory when it is full. -/
def regStep (grow : Nat → Nat) (zv : Reg P H) (mem : SMem (Reg P H)) (hdr : Option Slc) :
    RegSt P H × List (Reg P H) → SMem (Reg P H) × Option Slc × (RegSt P H × List (Reg P H))
  | (.idle, []) => (mem, hdr, .idle, [])
  | (.idle, r :: todo) => (mem, hdr, if hdr.isNone then .blank r else .load r, todo)
  | (.blank r, todo) => ((SMem.make zv mem 0 0).1, some (SMem.make zv mem 0 0).2, .load r, todo)
  | (.load r, todo) => (mem, hdr, .got r (hdrSlc hdr), todo)
  | (.got r s, todo) =>
    if s.len + 1 ≤ s.cap then (mem.write s.arr (s.off + s.len) [r], hdr, .store r { s with len := s.len + 1 }, todo)
    else (mem, hdr, .copying r s [], todo)
  | (.copying r s acc, todo) =>
    if acc.length < s.len then
      match (mem.arrs s.arr)[s.off + acc.length]? with
      | some x => (mem, hdr, .copying r s (acc ++ [x]), todo)
      | none => (mem, hdr, .copying r s acc, todo)
    else
      let all := acc ++ [r]
      (⟨Function.update mem.arrs mem.next (all ++ List.replicate (grow all.length) zv), mem.next + 1⟩, hdr,
        .store r ⟨mem.next, 0, all.length, all.length + grow all.length⟩, todo)
  | (.store _ s, todo) => (mem, some s, .idle, todo)

/-- rest/rest.go:88-120 `ServeMux.ServeHTTP`: one step of a request. The receiver is a value: the header is read once. -/
def srvStep (find : P → List Char → Option (List (List Char))) (mem : SMem (Reg P H)) (hdr : Option Slc) (method url : List Char) : SrvSt H → SrvSt H
  | .ready => .loop (hdrSlc hdr) 0 false
  | .loop s i urlMatched =>
    if i < s.len then
      match (mem.arrs s.arr)[s.off + i]? with
      | none => .panicked
      | some r =>
        match find r.pattern url with
        | none => .loop s (i + 1) urlMatched
        | some parts => if method = r.method then .done (.called r.handler parts) else .loop s (i + 1) true
    else if urlMatched then .done (.httpError 405 "Method Not Allowed") else .done (.httpError 404 "Not Found")
  | .done resp => .done resp
  | .panicked => .panicked

/-- Who makes the next step. -/
inductive Choice where
  | reg (k : Nat)
  | srv (k : Nat)

/-- One step of the program: rest/rest.go:54-120 (Handle after its checks, and ServeHTTP). -/
def St.step (grow : Nat → Nat) (zv : Reg P H) (find : P → List Char → Option (List (List Char))) (p : St P H) : Choice → St P H
  | .reg k =>
    match p.regs[k]? with
    | none => p
    | some g =>
      let (mem, hdr, g') := regStep grow zv p.mem p.hdr g
      { p with mem, hdr, regs := p.regs.set k g' }
  | .srv k =>
    match p.srvs[k]? with
    | none => p
    | some (method, url, sv) => { p with srvs := p.srvs.set k (method, url, srvStep find p.mem p.hdr method url sv) }

/-- The program run with a schedule. -/
def St.run (grow : Nat → Nat) (zv : Reg P H) (find : P → List Char → Option (List (List Char))) (p : St P H) (sched : List Choice) : St P H :=
  sched.foldl (St.step grow zv find) p

/-- A mux with the registrations hs, `spare` unused elements behind them, goroutines that are to make the registrations `rss`, and requests that have not
begun. The zero ServeMux has a nil slice (rest/rest.go:43). -/
def St.init (zv : Reg P H) (hs : List (Reg P H)) (spare : Nat) (rss : List (List (Reg P H))) (reqs : List (List Char × List Char)) : St P H :=
  ⟨⟨fun a => if a = 1 then hs ++ List.replicate spare zv else [], 2⟩, if hs = [] then none else some ⟨1, 0, hs.length, hs.length + spare⟩,
    rss.map fun rs => (.idle, rs), reqs.map fun q => (q.1, q.2, .ready)⟩

end Micro.Rest.Conc
