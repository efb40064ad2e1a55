import Verif.Rest.Model
import Verif.Json.ValueProps
import Mathlib.Data.List.Perm.Subperm
/-
Theorems about rest: C65, C72, C73.
-/
namespace Micro.Rest
open Micro Micro.Iter Micro.Stream

variable {P H : Type}

/-! ### C65: dispatch -/

theorem serveLoop_spec (find : P → List Char → Option (List (List Char))) (method url : List Char) :
    ∀ (hs : List (Reg P H)) (b : Bool),
      (∃ pre r post parts, hs = pre ++ r :: post ∧ r.method = method ∧ find r.pattern url = some parts ∧
        (∀ x ∈ pre, x.method = method → find x.pattern url = none) ∧ serveLoop find method url b hs = .called r.handler parts) ∨
      ((∀ x ∈ hs, x.method = method → find x.pattern url = none) ∧
        ((b = true ∨ ∃ x ∈ hs, find x.pattern url ≠ none) ∧ serveLoop find method url b hs = .httpError 405 "Method Not Allowed" ∨
         (b = false ∧ ∀ x ∈ hs, find x.pattern url = none) ∧ serveLoop find method url b hs = .httpError 404 "Not Found")) := by
  intro hs
  induction hs with
  | nil =>
    intro b
    right
    refine ⟨by simp, ?_⟩
    cases b <;> simp [serveLoop]
  | cons r rs ih =>
    intro b
    cases hf : find r.pattern url with
    | none =>
      have e : serveLoop find method url b (r :: rs) = serveLoop find method url b rs := by simp [serveLoop, hf]
      rw [e]
      rcases ih b with ⟨pre, x, post, parts, h1, h2, h3, h4, h5⟩ | ⟨h1, h2⟩
      · left
        refine ⟨r :: pre, x, post, parts, by rw [h1]; rfl, h2, h3, ?_, h5⟩
        intro y hy
        rcases List.mem_cons.mp hy with rfl | hy
        · exact fun _ => hf
        · exact h4 y hy
      · right
        refine ⟨?_, ?_⟩
        · intro y hy
          rcases List.mem_cons.mp hy with rfl | hy
          · exact fun _ => hf
          · exact h1 y hy
        · rcases h2 with ⟨h2, h3⟩ | ⟨⟨h2, h3⟩, h4⟩
          · left
            refine ⟨?_, h3⟩
            rcases h2 with h2 | ⟨x, hx, h2⟩
            · exact .inl h2
            · exact .inr ⟨x, by simp [hx], h2⟩
          · right
            refine ⟨⟨h2, ?_⟩, h4⟩
            intro y hy
            rcases List.mem_cons.mp hy with rfl | hy
            · exact hf
            · exact h3 y hy
    | some parts =>
      by_cases hm : method = r.method
      · left
        exact ⟨[], r, rs, parts, rfl, hm.symm, hf, by simp, by simp [serveLoop, hf, hm]⟩
      · have e : serveLoop find method url b (r :: rs) = serveLoop find method url true rs := by simp [serveLoop, hf, hm]
        rw [e]
        rcases ih true with ⟨pre, x, post, parts', h1, h2, h3, h4, h5⟩ | ⟨h1, h2⟩
        · left
          refine ⟨r :: pre, x, post, parts', by rw [h1]; rfl, h2, h3, ?_, h5⟩
          intro y hy
          rcases List.mem_cons.mp hy with rfl | hy
          · exact fun h => absurd h.symm hm
          · exact h4 y hy
        · right
          refine ⟨?_, ?_⟩
          · intro y hy
            rcases List.mem_cons.mp hy with rfl | hy
            · exact fun h => absurd h.symm hm
            · exact h1 y hy
          · left
            refine ⟨.inr ⟨r, by simp, by rw [hf]; simp⟩, ?_⟩
            rcases h2 with ⟨_, h3⟩ | ⟨⟨h2, _⟩, _⟩
            · exact h3
            · cases h2

/-- C65. A handler is called exactly when it belongs to the first registration with the request's method and a pattern that
matches the URL; it gets the parts of that match. -/
theorem c65_called (find : P → List Char → Option (List (List Char))) (hs : List (Reg P H)) (method url : List Char)
    (h : H) (parts : List (List Char)) :
    serve find hs method url = .called h parts ↔
      ∃ pre r post, hs = pre ++ r :: post ∧ r.method = method ∧ find r.pattern url = some parts ∧ r.handler = h ∧
        ∀ x ∈ pre, x.method = method → find x.pattern url = none := by
  have hsp := serveLoop_spec find method url hs false
  unfold serve
  constructor
  · intro hc
    rcases hsp with ⟨pre, r, post, parts', h1, h2, h3, h4, h5⟩ | ⟨-, ⟨-, h⟩ | ⟨-, h⟩⟩
    · rw [h5] at hc
      simp only [Response.called.injEq] at hc
      exact ⟨pre, r, post, h1, h2, by rw [h3, hc.2], hc.1, h4⟩
    · rw [h] at hc; cases hc
    · rw [h] at hc; cases hc
  · rintro ⟨pre, r, post, rfl, h2, h3, rfl, h4⟩
    have key : ∀ b, serveLoop find method url b (pre ++ r :: post) = .called r.handler parts := by
      clear hsp
      induction pre with
      | nil => intro b; simp [serveLoop, h3, h2]
      | cons x pre ih =>
        intro b
        have ih := ih fun y hy => h4 y (by simp [hy])
        simp only [List.cons_append, serveLoop]
        cases hf : find x.pattern url with
        | none => exact ih b
        | some q =>
          simp only
          rw [if_neg (fun e => by rw [h4 x (by simp) e.symm] at hf; cases hf)]
          exact ih true
    exact key false

/-- C65. 405 exactly when some pattern matches the URL but none of a registration with the request's method. -/
theorem c65_405 (find : P → List Char → Option (List (List Char))) (hs : List (Reg P H)) (method url : List Char) :
    serve find hs method url = .httpError 405 "Method Not Allowed" ↔
      (∃ x ∈ hs, find x.pattern url ≠ none) ∧ ∀ x ∈ hs, x.method = method → find x.pattern url = none := by
  have hsp := serveLoop_spec find method url hs false
  unfold serve
  rcases hsp with ⟨pre, r, post, parts', h1, h2, h3, h4, h5⟩ | ⟨h0, ⟨h1, h⟩ | ⟨⟨-, h1⟩, h⟩⟩
  · rw [h5]
    constructor
    · intro h; cases h
    · rintro ⟨-, h⟩
      rw [h r (by rw [h1]; simp) h2] at h3; cases h3
  · rw [h]; exact ⟨fun _ => ⟨by simpa using h1, h0⟩, fun _ => rfl⟩
  · rw [h]
    constructor
    · intro h; simp at h
    · rintro ⟨⟨x, hx, hn⟩, -⟩; exact absurd (h1 x hx) hn

example : serve (P := List Char) (H := Nat) (fun p u => if p = u then some [u] else none) [⟨['G'], ['/'], 1⟩, ⟨['P'], ['a'], 2⟩] ['P'] ['/'] =
    .httpError 405 "Method Not Allowed" := by
  rw [c65_405]
  exact ⟨⟨⟨['G'], ['/'], 1⟩, by simp, by simp⟩, by simp⟩

/-- C65. 404 exactly when no pattern matches the URL. -/
theorem c65_404 (find : P → List Char → Option (List (List Char))) (hs : List (Reg P H)) (method url : List Char) :
    serve find hs method url = .httpError 404 "Not Found" ↔ ∀ x ∈ hs, find x.pattern url = none := by
  have hsp := serveLoop_spec find method url hs false
  unfold serve
  rcases hsp with ⟨pre, r, post, parts', h1, h2, h3, h4, h5⟩ | ⟨h0, ⟨h1, h⟩ | ⟨⟨-, h1⟩, h⟩⟩
  · rw [h5]
    constructor
    · intro h; cases h
    · intro h
      rw [h r (by rw [h1]; simp)] at h3; cases h3
  · rw [h]
    constructor
    · intro h; simp at h
    · intro hx
      obtain ⟨x, hm, hn⟩ : ∃ x ∈ hs, find x.pattern url ≠ none := by simpa using h1
      exact absurd (hx x hm) hn
  · rw [h]; exact ⟨fun _ => h1, fun _ => rfl⟩

example : serve (P := List Char) (H := Nat) (fun p u => if p = u then some [u] else none) [⟨['G'], ['/'], 1⟩, ⟨['P'], ['a'], 2⟩] ['P'] ['b'] =
    .httpError 404 "Not Found" := by
  rw [c65_404]; simp

/-- A valid call of Handle and the registration it makes. -/
def Valid (compile : List Char → Option P) (c : HCall H) (r : Reg P H) : Prop :=
  c.method ≠ [] ∧ c.pattern ≠ [] ∧ c.handler = some r.handler ∧ compile c.pattern = some r.pattern ∧ r.method = c.method

/-- C65. Handle returns nil exactly for a valid call, and then adds the registration at the end; otherwise it changes nothing. -/
theorem c65_handle (compile : List Char → Option P) (c : HCall H) (hs : List (Reg P H)) :
    (∀ r, Valid compile c r → handle compile c hs = (none, hs ++ [r])) ∧
    ((¬ ∃ r, Valid compile c r) → ∃ e, handle compile c hs = (some e, hs)) := by
  constructor
  · rintro ⟨m, p, h⟩ ⟨h1, h2, h3, h4, h5⟩
    simp only at h3 h4 h5
    simp [handle, prepare, h1, h2, h3, h4, h5]
  · intro hn
    unfold handle
    cases hp : prepare compile c with
    | error e => exact ⟨e, rfl⟩
    | ok r =>
      exfalso
      apply hn
      refine ⟨r, ?_⟩
      unfold prepare at hp
      split at hp
      · cases hp
      · rename_i h1
        split at hp
        · cases hp
        · rename_i h2
          split at hp
          · cases hp
          · rename_i h h3
            split at hp
            · cases hp
            · rename_i p h4
              cases hp
              exact ⟨h1, h2, h3, h4, rfl⟩

example : Valid (P := List Char) (H := Nat) some ⟨['G'], ['/'], some 1⟩ ⟨['G'], ['/'], 1⟩ ∧
    ¬ ∃ r, Valid (P := List Char) (H := Nat) some ⟨['G'], ['/'], none⟩ r :=
  ⟨⟨by simp, by simp, rfl, rfl, rfl⟩, fun ⟨_, _, _, h, _⟩ => by cases h⟩

/-- C65. The reason of a rejection. -/
theorem c65_handle_errors (compile : List Char → Option P) (c : HCall H) (hs : List (Reg P H)) :
    ((handle compile c hs).1 = some .emptyMethod ↔ c.method = []) ∧
    ((handle compile c hs).1 = some .emptyPattern ↔ c.method ≠ [] ∧ c.pattern = []) ∧
    ((handle compile c hs).1 = some .nilHandler ↔ c.method ≠ [] ∧ c.pattern ≠ [] ∧ c.handler = none) ∧
    ((handle compile c hs).1 = some .badPattern ↔ c.method ≠ [] ∧ c.pattern ≠ [] ∧ c.handler ≠ none ∧ compile c.pattern = none) := by
  by_cases h1 : c.method = []
  · simp [handle, prepare, h1]
  · by_cases h2 : c.pattern = []
    · simp [handle, prepare, h1, h2]
    · cases h3 : c.handler with
      | none => simp [handle, prepare, h1, h2, h3]
      | some h =>
        cases h4 : compile c.pattern with
        | none => simp [handle, prepare, h1, h2, h3, h4]
        | some p => simp [handle, prepare, h1, h2, h3, h4]

example : (handle (P := List Char) (H := Nat) (fun _ => none) ⟨['G'], ['('], some 1⟩ []).1 = some .badPattern :=
  (c65_handle_errors _ _ _).2.2.2.2 ⟨by simp, by simp, by simp, rfl⟩

/-- The registrations of a history: those of the valid calls, in order. -/
inductive Registers (compile : List Char → Option P) : List (HCall H) → List (Reg P H) → Prop
  | nil : Registers compile [] []
  | valid (c r cs rs) : Valid compile c r → Registers compile cs rs → Registers compile (c :: cs) (r :: rs)
  | invalid (c cs rs) : (¬ ∃ r, Valid compile c r) → Registers compile cs rs → Registers compile (c :: cs) rs

/-- C65. After any history of Handle calls the mux holds exactly the registrations of the valid calls, in order. -/
theorem c65_history (compile : List Char → Option P) (cs : List (HCall H)) : Registers compile cs (handleAll compile cs) := by
  have key : ∀ (cs : List (HCall H)) (hs : List (Reg P H)),
      ∃ rs, cs.foldl (fun hs c => (handle compile c hs).2) hs = hs ++ rs ∧ Registers compile cs rs := by
    intro cs
    induction cs with
    | nil => intro hs; exact ⟨[], by simp, .nil⟩
    | cons c cs ih =>
      intro hs
      by_cases hv : ∃ r, Valid compile c r
      · obtain ⟨r, hr⟩ := hv
        obtain ⟨rs, h1, h2⟩ := ih (hs ++ [r])
        refine ⟨r :: rs, ?_, .valid _ _ _ _ hr h2⟩
        rw [List.foldl_cons, (c65_handle compile c hs).1 r hr]
        simpa using h1
      · obtain ⟨rs, h1, h2⟩ := ih hs
        obtain ⟨e, he⟩ := (c65_handle compile c hs).2 hv
        refine ⟨rs, ?_, .invalid _ _ _ hv h2⟩
        rw [List.foldl_cons, he]
        exact h1
  obtain ⟨rs, h1, h2⟩ := key cs []
  unfold handleAll
  rw [h1]; simpa using h2

/-- A mux with literal patterns: the second registration has the first matching pattern and method. -/
example : serve (P := List Char) (H := Nat) (fun p u => if p = u then some [u] else none)
    (handleAll (fun p => some p) [⟨['G'], ['/'], some 1⟩, ⟨[], ['/'], some 2⟩, ⟨['P'], ['/'], some 3⟩, ⟨['P'], ['/'], some 4⟩]) ['P'] ['/']
    = .called 3 [['/']] := by
  rw [c65_called]
  exact ⟨[⟨['G'], ['/'], 1⟩], ⟨['P'], ['/'], 3⟩, [⟨['P'], ['/'], 4⟩], rfl, rfl, rfl, rfl, by simp⟩

/-! ### C72: Handle while others call Handle -/

/-- The documentation says Handle can be called at any time. It is false: of two registrations made by two goroutines one can
be lost although both calls return nil. -/
theorem c72_lost_registration_refuted :
    ∃ (r1 r2 : Reg Unit Nat), r1.handler ≠ r2.handler ∧ HSteps ([], [.start r1, .start r2]) ([r2], [.done r1, .done r2]) := by
  refine ⟨⟨['G'], (), 1⟩, ⟨['P'], (), 2⟩, by simp, ?_⟩
  refine .step _ _ _ (HStep.read [] [] [.start _] _) ?_
  refine .step _ _ _ (HStep.read [] [.read _ _] [] _) ?_
  refine .step _ _ _ (HStep.write [] [] [.read _ _] _ _) ?_
  refine .step _ _ _ (HStep.write _ [.done _] [] _ _) ?_
  exact .refl _

/-- The registration of a goroutine whose call has returned. -/
def HThread.finished : HThread P H → Option (Reg P H)
  | .done r => some r
  | _ => none

/-- C72. Whatever the interleaving, the mux only ever holds registrations of calls that have returned, each at most as often
as it was made. Partial: it should hold all of them. -/
theorem c72_sound_partial (rs : List (Reg P H)) (hs : List (Reg P H)) (ts : List (HThread P H))
    (h : HSteps ([], rs.map .start) (hs, ts)) : hs.Subperm (ts.filterMap HThread.finished) := by
  have mono : ∀ (a b : List (HThread P H)) (r : Reg P H) (seen l : List (Reg P H)),
      l.Subperm ((a ++ .read r seen :: b).filterMap HThread.finished) →
      l.Subperm ((a ++ .done r :: b).filterMap HThread.finished) ∧
      (l ++ [r]).Subperm ((a ++ .done r :: b).filterMap HThread.finished) := by
    intro a b r seen l hl
    have e1 : (a ++ .read r seen :: b).filterMap HThread.finished = a.filterMap HThread.finished ++ b.filterMap HThread.finished := by
      rw [List.filterMap_append, List.filterMap_cons_none rfl]
    have e2 : (a ++ .done r :: b).filterMap HThread.finished = a.filterMap HThread.finished ++ r :: b.filterMap HThread.finished := by
      simp [HThread.finished]
    rw [e1] at hl
    rw [e2]
    have hp : (a.filterMap HThread.finished ++ r :: b.filterMap HThread.finished).Perm
        (r :: (a.filterMap HThread.finished ++ b.filterMap HThread.finished)) := List.perm_middle
    have h2 : (l ++ [r]).Perm (r :: l) := List.perm_append_singleton r l
    constructor
    · exact (hl.trans (List.Sublist.subperm (List.sublist_cons_self r _))).trans hp.symm.subperm
    · exact (h2.subperm.trans (List.subperm_cons r |>.mpr hl)).trans hp.symm.subperm
  have inv : ∀ x y : List (Reg P H) × List (HThread P H), HSteps x y →
      (x.1.Subperm (x.2.filterMap HThread.finished) ∧ ∀ r seen, .read r seen ∈ x.2 → seen.Subperm (x.2.filterMap HThread.finished)) →
      (y.1.Subperm (y.2.filterMap HThread.finished) ∧ ∀ r seen, .read r seen ∈ y.2 → seen.Subperm (y.2.filterMap HThread.finished)) := by
    intro x y hxy
    induction hxy with
    | refl x => intro h; exact h
    | step x y z hs _ ih =>
      intro h
      apply ih
      obtain ⟨h1, h2⟩ := h
      cases hs with
      | read hs a b r =>
        have e : (a ++ .read r hs :: b).filterMap HThread.finished = (a ++ .start r :: b).filterMap HThread.finished := by
          rw [List.filterMap_append, List.filterMap_append, List.filterMap_cons_none rfl, List.filterMap_cons_none rfl]
        simp only at h1 h2 ⊢
        rw [e]
        refine ⟨h1, fun r' seen' hm => ?_⟩
        rcases List.mem_append.mp hm with hm | hm
        · exact h2 r' seen' (by simp [hm])
        · rcases List.mem_cons.mp hm with hm | hm
          · cases hm; exact h1
          · exact h2 r' seen' (by simp [hm])
      | write hs a b r seen =>
        simp only at h1 h2 ⊢
        refine ⟨(mono a b r seen seen (h2 r seen (by simp))).2, fun r' seen' hm => ?_⟩
        refine (mono a b r seen seen' (h2 r' seen' ?_)).1
        rcases List.mem_append.mp hm with hm | hm
        · simp [hm]
        · rcases List.mem_cons.mp hm with hm | hm
          · cases hm
          · simp [hm]
  refine (inv _ _ h ⟨by simp, ?_⟩).1
  intro r seen hm
  simp at hm

/-- One goroutine has returned, another has read the list and not yet written it. -/
example : HSteps (P := Unit) (H := Nat) ([], [⟨['G'], (), 1⟩, ⟨['P'], (), 2⟩].map .start)
    ([⟨['G'], (), 1⟩], [.done ⟨['G'], (), 1⟩, .read ⟨['P'], (), 2⟩ []]) := by
  refine .step _ _ _ (HStep.read [] [] [.start _] _) ?_
  refine .step _ _ _ (HStep.read [] [.read _ _] [] _) ?_
  refine .step _ _ _ (HStep.write [] [] [.read _ _] _ _) ?_
  exact .refl _

/-- C72. With a single goroutine calling Handle (and any number serving requests) nothing is lost: after each call the mux
holds the registrations made so far. Partial: only one goroutine registers. -/
theorem c72_one_writer_partial (r : Reg P H) (hs hs' : List (Reg P H)) (h : HSteps (hs, [.start r]) (hs', [.done r])) :
    hs' = hs ++ [r] := by
  cases h with
  | step _ y _ h1 h2 =>
    generalize hx : (hs, [HThread.start r]) = x at h1
    cases h1 with
    | read hs1 a b r1 =>
      simp only [Prod.mk.injEq] at hx
      obtain ⟨rfl, hx⟩ := hx
      cases a with
      | cons t a => simp at hx
      | nil =>
        simp only [List.nil_append, List.cons.injEq, HThread.start.injEq] at hx
        obtain ⟨rfl, rfl⟩ := hx
        cases h2 with
        | step _ y _ h1 h2 =>
          generalize hx : (hs, [] ++ [HThread.read r hs]) = x at h1
          cases h1 with
          | read hs1 a b r1 =>
            simp only [Prod.mk.injEq] at hx
            cases a <;> simp at hx
          | write hs1 a b r1 seen =>
            simp only [Prod.mk.injEq, List.nil_append] at hx
            obtain ⟨rfl, hx⟩ := hx
            cases a with
            | cons t a => simp at hx
            | nil =>
              simp only [List.nil_append, List.cons.injEq, HThread.read.injEq] at hx
              obtain ⟨⟨rfl, rfl⟩, rfl⟩ := hx
              generalize hx : (hs ++ [r], [] ++ [HThread.done r]) = x at h2
              generalize hz : (hs', [HThread.done r]) = z at h2
              cases h2 with
              | refl => rw [← hx] at hz; simp at hz; exact hz
              | step _ y _ h1 h2 =>
                cases h1 with
                | read hs1 a b r1 => cases a <;> simp at hx
                | write hs1 a b r1 seen => cases a <;> simp at hx
    | write hs1 a b r1 seen =>
      simp only [Prod.mk.injEq] at hx
      cases a <;> simp at hx

example : HSteps (([] : List (Reg Unit Nat)), [.start ⟨['G'], (), 1⟩]) ([⟨['G'], (), 1⟩], [.done ⟨['G'], (), 1⟩]) :=
  .step _ _ _ (HStep.read [] [] [] _) (.step _ _ _ (HStep.write [] [] [] _ _) (.refl _))

/-! ### C73: content negotiation -/

/-- The value of a header as RFC 9110 and net/http define it: the first value given for the name; absent headers have the value "". `hdr` maps
each name to its values. -/
inductive HeaderValue (hdr : List (String × List String)) (name : String) : String → Prop
  | first (before after vs v) : hdr = before ++ (name, v :: vs) :: after → (∀ e ∈ before, e.1 ≠ name) → HeaderValue hdr name v
  | empty (before after) : hdr = before ++ (name, []) :: after → (∀ e ∈ before, e.1 ≠ name) → HeaderValue hdr name ""
  | absent : (∀ e ∈ hdr, e.1 ≠ name) → HeaderValue hdr name ""

theorem headerGet_spec (hdr : List (String × List String)) (name : String) : HeaderValue hdr name (headerGet hdr name) := by
  have key : (hdr.lookup name = none ∧ ∀ e ∈ hdr, e.1 ≠ name) ∨
      ∃ before vs after, hdr.lookup name = some vs ∧ hdr = before ++ (name, vs) :: after ∧ ∀ e ∈ before, e.1 ≠ name := by
    induction hdr with
    | nil => left; exact ⟨rfl, by simp⟩
    | cons e hdr ih =>
      obtain ⟨n, vs⟩ := e
      by_cases hn : n = name
      · subst hn
        right; exact ⟨[], vs, hdr, by simp [List.lookup], rfl, by simp⟩
      · have hl : ((n, vs) :: hdr).lookup name = hdr.lookup name := by
          have : (name == n) = false := by simp [Ne.symm hn]
          simp [List.lookup, this]
        rw [hl]
        rcases ih with ⟨h1, h2⟩ | ⟨b, ws, a, h1, h2, h3⟩
        · left; exact ⟨h1, by simpa [hn] using h2⟩
        · right; exact ⟨(n, vs) :: b, ws, a, h1, by rw [h2]; rfl, by simpa [hn] using h3⟩
  unfold headerGet
  rcases key with ⟨h1, h2⟩ | ⟨b, vs, a, h1, h2, h3⟩
  · rw [h1]; exact .absent h2
  · rw [h1]
    cases vs with
    | nil => exact .empty b a h2 h3
    | cons v vs => exact .first b a vs v h2 h3

theorem headerValue_unique {hdr : List (String × List String)} {name v w : String} (h1 : HeaderValue hdr name v) (h2 : HeaderValue hdr name w) :
    v = w := by
  have uniq : ∀ (b1 b2 a1 a2 : List (String × List String)) (v1 v2 : List String), b1 ++ (name, v1) :: a1 = b2 ++ (name, v2) :: a2 →
      (∀ e ∈ b1, e.1 ≠ name) → (∀ e ∈ b2, e.1 ≠ name) → v1 = v2 := by
    intro b1
    induction b1 with
    | nil =>
      intro b2 a1 a2 v1 v2 he _ h2
      cases b2 with
      | nil => simp at he; exact he.1
      | cons x b2 => simp at he; exact absurd (by rw [← he.1]) (h2 x (by simp))
    | cons x b1 ih =>
      intro b2 a1 a2 v1 v2 he h1 h2
      cases b2 with
      | nil => simp at he; exact absurd (by rw [he.1]) (h1 x (by simp))
      | cons y b2 =>
        simp at he
        exact ih b2 a1 a2 v1 v2 he.2 (fun e h => h1 e (by simp [h])) (fun e h => h2 e (by simp [h]))
  cases h1 with
  | first b a vs v e1 f1 =>
    cases h2 with
    | first b' a' vs' v' e2 f2 => have := uniq _ _ _ _ _ _ (e1.symm.trans e2) f1 f2; simp at this; exact this.1
    | empty b' a' e2 f2 => have := uniq _ _ _ _ _ _ (e1.symm.trans e2) f1 f2; simp at this
    | absent f2 => exact absurd rfl (f2 (name, v :: vs) (by rw [e1]; simp))
  | empty b a e1 f1 =>
    cases h2 with
    | first b' a' vs' v' e2 f2 => have := uniq _ _ _ _ _ _ (e1.symm.trans e2) f1 f2; simp at this
    | empty b' a' e2 f2 => rfl
    | absent f2 => rfl
  | absent f1 =>
    cases h2 with
    | first b' a' vs' v' e2 f2 => exact absurd rfl (f1 (name, w :: vs') (by rw [e2]; simp))
    | empty b' a' e2 f2 => rfl
    | absent f2 => rfl

/-- C73. A request whose Content-Type is exactly application/json gives the iterator of the elements of its body (see C70);
any other gives nil, and the body is not read. -/
theorem c73_json (hdr : List (String × List String)) (fin : Err) (body : List Char) (ct : String) (hct : HeaderValue hdr "Content-Type" ct) :
    (ct ≠ "application/json" → negotiateJSON hdr fin body = some none) ∧
    (ct = "application/json" → ∃ it, negotiateJSON hdr fin body = some (some it) ∧
      (∀ vs, Json.IsDoc Json.common body (.arr vs) → it.YieldsForever vs .eoi) ∧
      (∀ kvs, Json.IsDoc Json.common body (.obj kvs) → it.YieldsForever [.obj kvs] .eoi) ∧
      (∀ e, Json.parse fin body = some (.error e) → ∃ vs, it.YieldsForever vs e)) := by
  have hh : headerGet hdr "Content-Type" = ct := headerValue_unique (headerGet_spec _ _) hct
  rw [← hh]
  constructor
  · intro h; simp [negotiateJSON, h]
  · intro h
    obtain ⟨it, h1, h2, h3, h4⟩ := Json.c70_iterate fin body
    have hp : ∀ v, Json.IsDoc Json.common body v → Json.parse fin body = some (.ok (v, [])) := by
      intro v hv
      simpa using (Json.c60_accepts fin body v hv []).2
    exact ⟨it, by simp [negotiateJSON, h, h1], fun vs hv => h2 vs [] (hp _ hv), fun kvs hv => h3 kvs [] (hp _ hv),
      fun e he => (h4 e he).2⟩

/-- Non-vacuity: the first of two values counts. -/
example : HeaderValue [("Accept", ["*/*"]), ("Content-Type", ["application/json", "text/csv"])] "Content-Type" "application/json" :=
  .first [("Accept", ["*/*"])] [] ["text/csv"] _ rfl (by decide)

/-- C73. A media type parameter, which RFC 9110 allows, makes the content unrecognised: the iterator is nil, so a caller that
uses it as documented treats a JSON body as not JSON. -/
theorem c73_parameter_refuted (fin : Err) (body : List Char) :
    negotiateJSON [("Content-Type", ["application/json; charset=utf-8"])] fin body = some none :=
  (c73_json _ fin body _ (.first [] [] [] _ rfl (by simp))).1 (by decide)

end Micro.Rest
