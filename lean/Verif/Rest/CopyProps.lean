import Verif.Rest.CopyModel
import Verif.Funcs.SliceLemmas
set_option linter.unusedSimpArgs false
/-
C128: copies of a ServeMux.
-/
namespace Micro.Rest
open Micro Micro.Funcs

variable {P H : Type}

/-- What one would expect of values: every variable has its own list of registrations, and an assignment copies the list. -/
def expected (compile : List Char → Option P) : List (MuxOp H) → (Nat → List (Reg P H)) → Nat → List (Reg P H)
  | [], l => l
  | .handle v c :: ops, l => expected compile ops (fun w => if w = v then (handle compile c (l v)).2 else l w)
  | .copy src dst :: ops, l => expected compile ops (fun w => if w = dst then l src else l w)

/-- Only variable o is given new registrations, and o itself is never assigned. -/
def OnlyOwner (o : Nat) (ops : List (MuxOp H)) : Prop := ∀ op ∈ ops, match op with | .handle v _ => v = o | .copy _ dst => dst ≠ o

/-- The invariant of the histories in which only o is given registrations. -/
structure Inv (o : Nat) (s : Muxes P H) (l : Nat → List (Reg P H)) : Prop where
  ok : ∀ v, (s.mem.Ok (s.vars v))
  elems : ∀ v, s.mem.elems (s.vars v) = l v
  below : ∀ v, (s.vars v).arr = (s.vars o).arr → (s.vars v).off + (s.vars v).len ≤ (s.vars o).off + (s.vars o).len

theorem inv_run (grow : Nat → Nat) (zv : Reg P H) (compile : List Char → Option P) (o : Nat) :
    ∀ (ops : List (MuxOp H)) (s : Muxes P H) (l : Nat → List (Reg P H)), OnlyOwner o ops → Inv o s l →
      Inv o (s.run grow zv compile ops) (expected compile ops l)
  | [], s, l, _, h => h
  | .copy src dst :: ops, s, l, ho, h => by
    have hd : dst ≠ o := ho (.copy src dst) (by simp)
    refine inv_run grow zv compile o ops _ _ (fun op hop => ho op (List.mem_cons_of_mem _ hop)) ?_
    have hvo : Function.update s.vars dst (s.vars src) o = s.vars o := Function.update_of_ne (Ne.symm hd) _ _
    constructor
    · intro v
      simp only [Muxes.step]
      by_cases hv : v = dst
      · subst hv; rw [Function.update_self]; exact h.ok src
      · rw [Function.update_of_ne hv]; exact h.ok v
    · intro v
      simp only [Muxes.step]
      by_cases hv : v = dst
      · subst hv; rw [Function.update_self, if_pos rfl]; exact h.elems src
      · rw [Function.update_of_ne hv, if_neg hv]; exact h.elems v
    · intro v
      simp only [Muxes.step, hvo]
      by_cases hv : v = dst
      · subst hv; rw [Function.update_self]; exact h.below src
      · rw [Function.update_of_ne hv]; exact h.below v
  | .handle v c :: ops, s, l, ho, h => by
    have hv : v = o := ho (.handle v c) (by simp)
    subst hv
    refine inv_run grow zv compile v ops _ _ (fun op hop => ho op (List.mem_cons_of_mem _ hop)) ?_
    cases hp : prepare compile c with
    | error e =>
      have h1 : s.step grow zv compile (.handle v c) = s := by simp only [Muxes.step, hp]
      have h2 : (fun w => if w = v then (handle compile c (l v)).2 else l w) = l := by
        funext w
        by_cases hw : w = v
        · subst hw; simp [handle, hp]
        · simp [hw]
      rw [h1, h2]; exact h
    | ok r =>
      obtain ⟨a1, a2, a3, a4, a5⟩ := append_spec grow zv s.mem (s.vars v) (h.ok v) [r]
      have hl := elems_length a1
      rw [a2, List.length_append, elems_length (h.ok v)] at hl
      simp only [List.length_singleton] at hl
      have h1 : s.step grow zv compile (.handle v c) =
          ⟨(s.mem.append grow zv (s.vars v) [r]).1, Function.update s.vars v (s.mem.append grow zv (s.vars v) [r]).2⟩ := by
        simp only [Muxes.step, hp, sliceAdd]
      rw [h1]
      generalize hap : s.mem.append grow zv (s.vars v) [r] = ap at *
      have hframe : ∀ w, ap.1.elems (s.vars w) = s.mem.elems (s.vars w) := by
        intro w
        refine (a5 _ (h.ok w)).2 ?_
        by_cases harr : (s.vars w).arr = (s.vars v).arr
        · right; left; exact h.below w harr
        · left; exact harr
      constructor
      · intro w
        by_cases hw : w = v
        · subst hw; simp only [Function.update_self]; exact a1
        · simp only [Function.update_of_ne hw]; exact (a5 _ (h.ok w)).1
      · intro w
        by_cases hw : w = v
        · subst hw; simp only [Function.update_self, if_true]; rw [a2, h.elems w]; simp [handle, hp]
        · simp only [Function.update_of_ne hw, if_neg hw]; rw [hframe w, h.elems w]
      · intro w
        by_cases hw : w = v
        · subst hw; simp only [Function.update_self]; intro _; exact Nat.le_refl _
        · simp only [Function.update_of_ne hw, Function.update_self]
          intro harr
          rcases a4 with e | e
          · rw [e] at harr
            have := h.below w harr
            have hoff : ap.2.off = (s.vars v).off := by
              rw [← hap] at e ⊢
              unfold SMem.append at e ⊢
              split at e
              · rw [if_pos (by assumption)]
              · have := (h.ok v).arr; simp only at e; omega
            omega
          · rw [e] at harr
            have := (h.ok w).arr
            omega

theorem inv_zero (o : Nat) : Inv o (Muxes.zero : Muxes P H) (fun _ => []) := by
  constructor
  · intro v; exact ⟨by simp [Muxes.zero], by simp [Muxes.zero], by simp [Muxes.zero]⟩
  · intro v; simp [Muxes.zero, SMem.elems]
  · intro v _; simp [Muxes.zero]

/-- C128: if only one of the variables is given registrations after the first copy was made, every copy answers requests by the registrations
it had when it was copied, and the original by all of its own. -/
theorem c128_copies (grow : Nat → Nat) (zv : Reg P H) (compile : List Char → Option P) (find : P → List Char → Option (List (List Char)))
    (o : Nat) (ops : List (MuxOp H)) (h : OnlyOwner o ops) (v : Nat) (method url : List Char) :
    ((Muxes.zero : Muxes P H).run grow zv compile ops).serve find v method url =
      serve find (expected compile ops (fun _ => []) v) method url := by
  have := inv_run grow zv compile o ops Muxes.zero (fun _ => []) h (inv_zero o)
  unfold Muxes.serve
  rw [this.elems v]

/-- Two registrations, a copy, and two more on the original: the copy answers by its first one only. -/
example (grow : Nat → Nat) (zv : Reg (List Char) Nat) :
    ((Muxes.zero : Muxes (List Char) Nat).run grow zv some
      [.handle 0 ⟨['G'], ['/'], some 1⟩, .copy 0 1, .handle 0 ⟨['G'], ['a'], some 2⟩]).serve (fun p u => if p = u then some [u] else none) 1 ['G'] ['a'] =
      .httpError 404 "Not Found" := by
  rw [c128_copies grow zv some _ 0 _ (by intro op hop; simp at hop; rcases hop with h | h | h <;> subst h <;> simp)]
  simp [expected, handle, prepare, serve, serveLoop]

/-- C128: both variables are given a registration after a copy. The copy always has its own; the original loses its own and has the copy's instead
exactly if the array had room for another element. -/
theorem c128_both (grow : Nat → Nat) (zv : Reg P H) (compile : List Char → Option P) (s : Muxes P H) (v w : Nat) (hvw : v ≠ w)
    (hok : s.mem.Ok (s.vars v)) (a b : HCall H) (ra rb : Reg P H) (ha : handle compile a [] = (none, [ra])) (hb : handle compile b [] = (none, [rb])) :
    let s' := s.run grow zv compile [.copy v w, .handle v a, .handle w b]
    s'.mem.elems (s'.vars w) = s.mem.elems (s.vars v) ++ [rb] ∧
    s'.mem.elems (s'.vars v) = s.mem.elems (s.vars v) ++ [if (s.vars v).len < (s.vars v).cap then rb else ra] := by
  have key : ∀ (c : HCall H) (r : Reg P H), handle compile c [] = (none, [r]) → prepare compile c = .ok r := by
    intro c r hc
    unfold handle at hc
    cases hp : prepare compile c with
    | error e => rw [hp] at hc; cases hc
    | ok r' => rw [hp] at hc; cases hc; rfl
  replace ha := key a ra ha
  replace hb := key b rb hb
  intro s'
  obtain ⟨t, ht⟩ : ∃ t, t = s.vars v := ⟨_, rfl⟩
  rw [← ht] at hok ⊢
  have hlen := elems_length hok
  obtain ⟨a1, a2, a3, a4, a5⟩ := append_spec grow zv s.mem t hok [ra]
  have b0 := (a5 t hok).1
  obtain ⟨b1, b2, b3, b4, b5⟩ := append_spec grow zv (s.mem.append grow zv t [ra]).1 t b0 [rb]
  have hm1 : (s.mem.append grow zv t [ra]).1.elems t = s.mem.elems t := (a5 t hok).2 (Or.inr (Or.inl (Nat.le_refl _)))
  have hrun : s.run grow zv compile [.copy v w, .handle v a, .handle w b] =
      ⟨((s.mem.append grow zv t [ra]).1.append grow zv t [rb]).1,
        Function.update (Function.update (Function.update s.vars w t) v (s.mem.append grow zv t [ra]).2) w
          ((s.mem.append grow zv t [ra]).1.append grow zv t [rb]).2⟩ := by
    simp only [Muxes.run, List.foldl_cons, List.foldl_nil, Muxes.step, ha, hb, sliceAdd]
    have e1 : Function.update s.vars w (s.vars v) v = t := by rw [Function.update_of_ne hvw, ht]
    rw [e1]
    have e2 : Function.update (Function.update s.vars w (s.vars v)) v (s.mem.append grow zv t [ra]).2 w = t := by
      rw [Function.update_of_ne (Ne.symm hvw), Function.update_self, ht]
    rw [e2, ht]
  simp only [s', hrun, Function.update_self, Function.update_of_ne hvw]
  refine ⟨by rw [b2, hm1], ?_⟩
  by_cases hc : t.len < t.cap
  · rw [if_pos hc]
    have e1 : s.mem.append grow zv t [ra] = (s.mem.write t.arr (t.off + t.len) [ra], { t with len := t.len + 1 }) := by
      unfold SMem.append; rw [if_pos (by simp only [List.length_singleton]; omega)]; rfl
    have e2 : ∀ m : SMem (Reg P H), m.append grow zv t [rb] = (m.write t.arr (t.off + t.len) [rb], { t with len := t.len + 1 }) := by
      intro m; unfold SMem.append; rw [if_pos (by simp only [List.length_singleton]; omega)]; rfl
    rw [e2] at b2 ⊢
    rw [e1] at b2 ⊢
    rw [e1] at hm1
    simp only at b2 hm1 ⊢
    rw [b2, hm1]
  · rw [if_neg hc]
    have e1 : (s.mem.append grow zv t [ra]).2.arr = s.mem.next := by
      unfold SMem.append; rw [if_neg (by simp only [List.length_singleton]; omega)]
    have harr := hok.arr
    rw [(b5 _ a1).2 (Or.inl (by rw [e1]; omega)), a2]

example : ((Muxes.zero : Muxes (List Char) Nat).mem.Ok ((Muxes.zero : Muxes (List Char) Nat).vars 0)) ∧
    handle (P := List Char) some (⟨['G'], ['a'], some 4⟩ : HCall Nat) [] = (none, [⟨['G'], ['a'], 4⟩]) := ⟨(inv_zero 0).ok 0, rfl⟩

/-- The claim "each ServeMux variable serves its own registrations" is false: three registrations leave room for a fourth (with Go's growth), the
ServeMux is copied, the copy and the original get one more each, and the original answers with the copy's. -/
theorem c128_copies_refuted :
    ∃ (grow : Nat → Nat) (zv : Reg (List Char) Nat) (ops : List (MuxOp Nat)) (v : Nat),
      ((Muxes.zero : Muxes (List Char) Nat).run grow zv some ops).mem.elems (((Muxes.zero : Muxes (List Char) Nat).run grow zv some ops).vars v) ≠
        expected some ops (fun _ => []) v := by
  refine ⟨fun n => if n = 3 then 1 else 0, ⟨[], [], 0⟩,
    [.handle 0 ⟨['G'], ['/'], some 1⟩, .handle 0 ⟨['G'], ['/'], some 2⟩, .handle 0 ⟨['G'], ['/'], some 3⟩, .copy 0 1,
      .handle 0 ⟨['G'], ['a'], some 4⟩, .handle 1 ⟨['G'], ['b'], some 5⟩], 0, ?_⟩
  intro h
  have := congrArg (fun l => (l.map Reg.handler)) h
  revert this
  simp [Muxes.run, Muxes.step, Muxes.zero, prepare, sliceAdd, SMem.append, SMem.elems, SMem.write, writeAt, expected, handle]

/-- A case of the hypotheses: two registrations, a copy, and two more on the original. -/
example : OnlyOwner (H := Nat) 0 [.handle 0 ⟨['G'], ['/'], some 1⟩, .copy 0 1, .handle 0 ⟨['G'], ['a'], some 2⟩, .copy 1 2] := by
  intro op hop; simp at hop; rcases hop with h | h | h | h <;> subst h <;> simp

example : expected (P := List Char) some [.handle 0 ⟨['G'], ['/'], some 1⟩, .copy 0 1, .handle 0 ⟨['G'], ['a'], some 2⟩] (fun _ => []) 1 =
    [⟨['G'], ['/'], 1⟩] := by
  simp [expected, handle, prepare]

end Micro.Rest
