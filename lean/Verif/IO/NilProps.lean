import Verif.IO.NilModel
import Verif.IO.Props
/-
C157: writers with nothing to write to, and writing functions that panic.
-/
namespace Micro.IO.Nil
open Micro Micro.Iter

variable {σ T ω : Type}

/-- The values `vs` were all passed to the function, one after the other, and it returned nil for each. -/
inductive Took (fn : PFn σ T) : σ → List T → σ → Prop where
  | nil {s} : Took fn s [] s
  | cons {s s' s'' v vs} : fn s v = (.ok none, s') → Took fn s' vs s'' → Took fn s (v :: vs) s''

/-- C157. NewWriter panics exactly if the function is nil, with the error of the package. -/
theorem c157_new (fn : Option (PFn σ T)) :
    (fn = none → newWriter fn = .error .needsFn) ∧ (∀ f, fn = some f → newWriter fn = .ok f) := by
  constructor
  · rintro rfl; rfl
  · rintro f rfl; rfl

/-- C157. Write returns nil exactly if the function returned nil for every value, in order. -/
theorem c157_success (fn : PFn σ T) (s s' : σ) (vs : List T) :
    write fn s vs = (.ok none, s') ↔ Took fn s vs s' := by
  induction vs generalizing s with
  | nil =>
    constructor
    · intro h; simp only [write, Prod.mk.injEq, true_and] at h; subst h; exact .nil
    · intro h; cases h; rfl
  | cons v vs ih =>
    constructor
    · intro h
      simp only [write] at h
      split at h
      · simp at h
      · simp at h
      · rename_i s1 h1; exact .cons h1 ((ih s1).mp h)
    · intro h
      cases h with
      | cons h1 h2 => simp only [write, h1]; exact (ih _).mpr h2

/-- C157. Write ends in another way (an error or a panic) exactly if the function returned nil for a
prefix of the values and ended in that way for the value after it; the destination is left as that call
left it, and no value after it reaches the function. -/
theorem c157_stopped (fn : PFn σ T) (s s' : σ) (vs : List T) (o : Except Crash (Option WErr)) (ho : o ≠ .ok none) :
    write fn s vs = (o, s') ↔
      ∃ pre v post s1, vs = pre ++ v :: post ∧ Took fn s pre s1 ∧ fn s1 v = (o, s') := by
  induction vs generalizing s with
  | nil =>
    simp only [write, Prod.mk.injEq]
    constructor
    · rintro ⟨h, -⟩; exact absurd h.symm ho
    · rintro ⟨pre, v, post, s1, h, -⟩; simp at h
  | cons v vs ih =>
    constructor
    · intro h
      simp only [write] at h
      split at h
      · rename_i p s1 h1
        exact ⟨[], v, vs, s, rfl, .nil, h1.trans h⟩
      · rename_i e s1 h1
        exact ⟨[], v, vs, s, rfl, .nil, h1.trans h⟩
      · rename_i s1 h1
        obtain ⟨pre, w, post, s2, rfl, h2, h3⟩ := (ih s1).mp h
        exact ⟨v :: pre, w, post, s2, rfl, .cons h1 h2, h3⟩
    · rintro ⟨pre, w, post, s1, heq, h2, h3⟩
      cases h2 with
      | nil =>
        simp only [List.nil_append, List.cons.injEq] at heq
        obtain ⟨rfl, rfl⟩ := heq
        simp only [write, h3]
        rcases o with p | _ | e
        · rfl
        · exact absurd rfl ho
        · rfl
      | cons h4 h5 =>
        simp only [List.cons_append, List.cons.injEq] at heq
        obtain ⟨rfl, rfl⟩ := heq
        simp only [write, h4]
        exact (ih _).mpr ⟨_, w, post, s1, rfl, h5, h3⟩

/-- C157. One Write of two lists is a Write of the first and, if that returned nil, one of the second. -/
theorem c157_append (fn : PFn σ T) (s : σ) (vs ws : List T) :
    write fn s (vs ++ ws) = match write fn s vs with
      | (.ok none, s') => write fn s' ws
      | r => r := by
  induction vs generalizing s with
  | nil => rfl
  | cons v vs ih =>
    rcases h : fn s v with ⟨p | _ | e, s1⟩
    · simp only [List.cons_append, write, h]
    · simp only [List.cons_append, write, h]; exact ih s1
    · simp only [List.cons_append, write, h]

/-- C157. With nothing to write to (a nil pointer, a nil map, a nil io.Writer) the constructors return a
writer all the same; it writes no values without an error, and panics at the first value of each Write
with any. The panic is that of Go, not the error of the package. -/
theorem c157_nothing {K V : Type} [DecidableEq K] (wr : Writer ω) (eol : List Nat) :
    (∃ w, ofSliceWriter (T := T) = .ok w ∧ write w none [] = (.ok none, none) ∧
      ∀ v vs, write w none (v :: vs) = (.error .nilPointer, none)) ∧
    (∃ w, ofMapWriter (K := K) (V := V) = .ok w ∧ write w none [] = (.ok none, none) ∧
      ∀ v vs, write w none (v :: vs) = (.error .nilMap, none)) ∧
    (∃ w, ofBytes wr = .ok w ∧ write w none [] = (.ok none, none) ∧
      ∀ v vs, write w none (v :: vs) = (.error .nilPointer, none)) ∧
    (∃ w, ofRunes wr = .ok w ∧ write w none [] = (.ok none, none) ∧
      ∀ v vs, write w none (v :: vs) = (.error .nilPointer, none)) ∧
    (∃ w, ofStrings wr = .ok w ∧ write w none [] = (.ok none, none) ∧
      ∀ v vs, write w none (v :: vs) = (.error .nilPointer, none)) ∧
    (∃ w, ofLines eol wr = .ok w ∧ write w none [] = (.ok none, none) ∧
      ∀ v vs, write w none (v :: vs) = (.error .nilPointer, none)) :=
  ⟨⟨_, rfl, rfl, fun _ _ => rfl⟩, ⟨_, rfl, rfl, fun _ _ => rfl⟩, ⟨_, rfl, rfl, fun _ _ => rfl⟩,
    ⟨_, rfl, rfl, fun _ _ => rfl⟩, ⟨_, rfl, rfl, fun _ _ => rfl⟩, ⟨_, rfl, rfl, fun _ _ => rfl⟩⟩

theorem io_some (fn : WFn ω T) (w : ω) (vs : List T) :
    write (ioGen fn) (some w) vs = (.ok (writeAll fn w vs).1, some (writeAll fn w vs).2) := by
  induction vs generalizing w with
  | nil => rfl
  | cons v vs ih =>
    rcases h : fn w v with ⟨_ | e, w1⟩
    · simp only [write, ioGen, writeAll, h]; exact ih w1
    · simp only [write, ioGen, writeAll, h]

theorem slice_some (s vs : List T) : write sliceGen (some s) vs = (.ok none, some (s ++ vs)) := by
  induction vs generalizing s with
  | nil => simp [write]
  | cons v vs ih => simp only [write, sliceGen]; rw [ih]; simp

theorem map_some {K V : Type} [DecidableEq K] (m : K → Option V) (vs : List (K × V)) :
    write mapGen (some m) vs = (.ok (writeAll mapWriter m vs).1, some (writeAll mapWriter m vs).2) := by
  induction vs generalizing m with
  | nil => rfl
  | cons v vs ih => simp only [write, mapGen, writeAll, mapWriter]; exact ih _

/-- C157. With a destination no Write panics by itself: the results are those of C57, for every list of
values and every io.Writer that does not panic. -/
theorem c157_destination {K V : Type} [DecidableEq K] (s vs : List T) (m : K → Option V) (kvs : List (K × V))
    (wr : Writer ω) (w : ω) (eol bs : List Nat) (rs : List Int) (ss : List (List Nat)) :
    (∃ f, ofSliceWriter = .ok f ∧ write f (some s) vs = (.ok none, some (s ++ vs))) ∧
    (∃ f m', ofMapWriter = .ok f ∧ write f (some m) kvs = (.ok none, some m') ∧
      ∀ k, m' k = ((kvs.reverse.find? (fun kv => kv.1 = k)).map (·.2)).or (m k)) ∧
    (∃ f, ofBytes wr = .ok f ∧ write f (some w) bs = (.ok (writeAll (byteWriter wr) w bs).1, some (writeAll (byteWriter wr) w bs).2)) ∧
    (∃ f, ofRunes wr = .ok f ∧ write f (some w) rs = (.ok (writeAll (runeWriter wr) w rs).1, some (writeAll (runeWriter wr) w rs).2)) ∧
    (∃ f, ofStrings wr = .ok f ∧ write f (some w) ss = (.ok (writeAll (stringWriter wr) w ss).1, some (writeAll (stringWriter wr) w ss).2)) ∧
    (∃ f, ofLines eol wr = .ok f ∧ write f (some w) ss = (.ok (writeAll (lineWriter eol wr) w ss).1, some (writeAll (lineWriter eol wr) w ss).2)) := by
  refine ⟨⟨_, rfl, slice_some s vs⟩, ?_, ⟨_, rfl, io_some _ w bs⟩, ⟨_, rfl, io_some _ w rs⟩, ⟨_, rfl, io_some _ w ss⟩,
    ⟨_, rfl, io_some _ w ss⟩⟩
  obtain ⟨m', h1, h2⟩ := c57_map m kvs
  exact ⟨_, m', rfl, by rw [map_some, h1], h2⟩

/-- The function panics for 3 and stores every other value: 1 and 2 are stored, 4 never arrives. -/
example : write (σ := List Nat) (T := Nat) (fun s v => if v = 3 then (.error (.user 9), s) else (.ok none, s ++ [v])) [] [1, 2, 3, 4]
    = (.error (.user 9), [1, 2]) := rfl

/-- The same function takes all of 1, 2. -/
example : Took (σ := List Nat) (T := Nat) (fun s v => if v = 3 then (.error (.user 9), s) else (.ok none, s ++ [v])) [] [1, 2] [1, 2] :=
  .cons rfl (.cons rfl .nil)

example : newWriter (σ := Nat) (T := Nat) none = .error .needsFn := rfl

example : ∃ f, ofBytes bufferWriter = .ok f ∧ write f (some []) [104, 105] = (.ok none, some [104, 105]) := ⟨_, rfl, rfl⟩

end Micro.IO.Nil
