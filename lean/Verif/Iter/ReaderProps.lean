import Verif.Iter.Props
set_option linter.unusedSimpArgs false
/-
C31, converse: what ReaderIterGen gives for every reader that ends, whatever mixture of data, empty reads and errors its Read returns.
-/
namespace Micro.Iter
open Micro

/-- What the Reads of one byte return until one of them fails: `reads` are the ones with a nil error (none: the Read stored nothing), `last` is what
the failing one stored. -/
inductive Responds {ρ : Type} (rd : Reader ρ) : ρ → List (Option Nat) → Option Nat → Err → Prop where
  | fail {s s' bs e} : rd s 1 = (bs, some e, s') → Responds rd s [] bs.head? e
  | read {s s' bs rs l e} : rd s 1 = (bs, none, s') → Responds rd s' rs l e → Responds rd s (bs.head? :: rs) l e

/-- The bytes the reader stored. -/
def delivered (rs : List (Option Nat)) (last : Option Nat) : List Nat := rs.filterMap id ++ last.toList

/-- Every Read with a nil error gives a byte: the one stored, or else the one before it. -/
def staleFill (prev : Nat) : List (Option Nat) → List Nat
  | [] => []
  | r :: rs => r.getD prev :: staleFill (r.getD prev) rs

theorem staleFill_length (p : Nat) (rs : List (Option Nat)) : (staleFill p rs).length = rs.length := by
  induction rs generalizing p with
  | nil => rfl
  | cons r rs ih => simp [staleFill, ih]

theorem filterMap_length_lt (rs : List (Option Nat)) (h : none ∈ rs) : (rs.filterMap id).length < rs.length := by
  induction rs with
  | nil => simp at h
  | cons r rs ih =>
    cases r with
    | none =>
      have := List.length_filterMap_le id rs
      simp only [List.filterMap_cons_none (f := id) (a := none) rfl, List.length_cons]; omega
    | some b =>
      have := ih (by simpa using h)
      simp only [List.filterMap_cons_some (f := id) (a := some b) (b := b) rfl, List.length_cons]; omega

theorem staleFill_all (p : Nat) (rs : List (Option Nat)) (h : none ∉ rs) : staleFill p rs = rs.filterMap id := by
  induction rs generalizing p with
  | nil => rfl
  | cons r rs ih =>
    cases r with
    | none => simp at h
    | some b =>
      simp only [List.mem_cons, reduceCtorEq, false_or] at h
      simp [staleFill, ih b h]

/-- C31, exactly: for every reader, the iterator gives one byte per Read without an error (a byte left over from before if nothing was read) and
then forever the error. -/
theorem c31_exact {ρ : Type} (rd : Reader ρ) (close : Option (Option Err)) (s : ρ) (rs : List (Option Nat)) (last : Option Nat)
    (e : Err) (buf : Nat) (h : Responds rd s rs last e) :
    YieldsForever (It.next (readerCall rd close)) (ofIter ⟨false, buf, s⟩) (staleFill buf rs)
      (if e = .eof ∨ e = .eoi then (close.join).getD .eoi else e) := by
  refine ofIter_forever ?_
  induction h generalizing buf with
  | @fail s s' bs e h =>
    by_cases he : e = .eof ∨ e = .eoi
    · have e1 : (if e = .eof then Err.eoi else e) = .eoi := by rcases he with rfl | rfl <;> simp
      rw [if_pos he]
      rcases close with _ | _ | ce
      · exact .stop (s' := ⟨true, bs.head?.getD buf, s'⟩) (by simp [readerCall, h, e1])
      · exact .stop (s' := ⟨true, bs.head?.getD buf, s'⟩) (by simp [readerCall, h, e1])
      · exact .stop (s' := ⟨true, bs.head?.getD buf, s'⟩) (by simp [readerCall, h, e1])
    · rw [if_neg he]
      simp only [not_or] at he
      refine .stop (s' := ⟨true, bs.head?.getD buf, s'⟩) ?_
      simp only [readerCall, h, he.1, if_false]
      cases e <;> simp_all
  | @read s s' bs rs l e h _ ih =>
    exact .value (s' := ⟨false, bs.head?.getD buf, s'⟩) (by simp [readerCall, h]) (ih _)

theorem yieldsForever_unique {σ α : Type} {call : Call σ α} {s : σ} {xs ys : List α} {e e' : Err} (h1 : YieldsForever call s xs e)
    (h2 : YieldsForever call s ys e') : xs = ys :=
  ((yields_of_forever h1).unique (yields_of_forever h2)).1

/-- C31: which readers are iterated correctly. If the error comes without data, exactly those that never return (0, nil); if the error comes with
data, none of those that never return (0, nil). -/
theorem c31_iff {ρ : Type} (rd : Reader ρ) (close : Option (Option Err)) (s : ρ) (rs : List (Option Nat)) (last : Option Nat)
    (e : Err) (buf : Nat) (h : Responds rd s rs last e) :
    (last = none → ((∃ e', YieldsForever (It.next (readerCall rd close)) (ofIter ⟨false, buf, s⟩) (delivered rs last) e') ↔ none ∉ rs)) ∧
    (last ≠ none → none ∉ rs → ¬ ∃ e', YieldsForever (It.next (readerCall rd close)) (ofIter ⟨false, buf, s⟩) (delivered rs last) e') := by
  have hx := c31_exact rd close s rs last e buf h
  constructor
  · rintro rfl
    constructor
    · rintro ⟨e', he⟩ hn
      have := congrArg List.length (yieldsForever_unique hx he)
      simp only [staleFill_length, delivered, Option.toList_none, List.append_nil] at this
      have := filterMap_length_lt rs hn
      omega
    · intro hn
      rw [staleFill_all _ _ hn] at hx
      have hd : delivered rs none = rs.filterMap id := by simp [delivered]
      rw [hd]
      exact ⟨_, hx⟩
  · rintro hl hn ⟨e', he⟩
    have := congrArg List.length (yieldsForever_unique hx he)
    rw [staleFill_all _ _ hn] at this
    obtain ⟨b, rfl⟩ := Option.ne_none_iff_exists'.1 hl
    simp [delivered] at this

/-- An empty read between two bytes, and the last byte together with io.EOF. -/
example : ∃ rd : Reader Nat, Responds rd 0 [some 5, none, some 6] (some 7) .eof ∧ staleFill 0 [some 5, none, some 6] = [5, 5, 6] ∧
    delivered [some 5, none, some 6] (some 7) = [5, 6, 7] :=
  ⟨fun s _ => match s with
    | 0 => ([5], none, 1)
    | 1 => ([], none, 2)
    | 2 => ([6], none, 3)
    | s => ([7], some .eof, s),
    .read (s' := 1) (bs := [5]) rfl (.read (s' := 2) (bs := []) rfl (.read (s' := 3) (bs := [6]) rfl (.fail (s' := 3) (bs := [7]) rfl))), rfl, rfl⟩

end Micro.Iter
