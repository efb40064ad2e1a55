import Verif.Stream.CrashProps
import Verif.Stream.SharpProps
/-
C142: averages of a source that panics.
-/
namespace Micro.Stream.Crash
open Micro Micro.Iter

variable {P σ : Type}

/-- What the additions of C15 do. -/
def Adds (add : Kind → Int → Int → Int × Option MathInt.MErr) (k : Kind) : Prop :=
  ∀ v s, k.InRange v → k.InRange s →
    (k.maxV < s + v → ∃ r, add k v s = (r, some .overflow)) ∧
    (s + v < k.minV → ∃ r, add k v s = (r, some .underflow)) ∧
    (k.InRange (s + v) → add k v s = (s + v, none))

private theorem avg_loop {add : Kind → Int → Int → Int × Option MathInt.MErr} {k : Kind} (c64 : Kind) (hadd : Adds add k) (nx : PCall P σ Int)
    (t : σ) (tail : List (Except P Int)) (e : Err) (xs : List Int) : ∀ (s : σ), Ends nx s (xs.map .ok ++ tail) e t →
    (∀ x ∈ xs, k.InRange x) → ∃ s1, Ends nx s1 tail e t ∧
      ∀ sum count, k.InRange sum → sumsOk k sum xs = none → 0 ≤ count → c64.InRange (count + xs.length) →
        avgLoopP add k c64 nx sum count s = avgLoopP add k c64 nx (sum + xs.sum) (count + xs.length) s1 ∧ k.InRange (sum + xs.sum) := by
  induction xs with
  | nil => intro s h _; exact ⟨s, h, fun sum count hs _ _ _ => by simpa using hs⟩
  | cons x xs ih =>
    intro s h hx
    simp only [List.map_cons, List.cons_append] at h
    cases h with
    | @val _ s1 _ _ _ _ hn h' =>
      obtain ⟨s2, k1, k2⟩ := ih s1 h' (fun y hy => hx y (by simp [hy]))
      refine ⟨s2, k1, fun sum count hs hso h0 hc => ?_⟩
      unfold sumsOk at hso
      by_cases ho : k.maxV < sum + x
      · rw [if_pos ho] at hso; cases hso
      rw [if_neg ho] at hso
      by_cases hu : sum + x < k.minV
      · rw [if_pos hu] at hso; cases hso
      rw [if_neg hu] at hso
      have hin : k.InRange (sum + x) := ⟨by omega, by omega⟩
      simp only [List.length_cons] at hc
      have hmin : c64.minV ≤ 0 := by cases c64 <;> decide
      have hc1 : c64.InRange (count + 1) := ⟨by omega, by have := hc.2; push_cast at this; omega⟩
      obtain ⟨k3, k4⟩ := k2 (sum + x) (count + 1) hin hso (by omega) (by
        have := hc; push_cast at this ⊢; rw [show count + 1 + (xs.length : Int) = count + (xs.length + 1) by omega]; exact this)
      have e1 : sum + (x :: xs).sum = sum + x + xs.sum := by rw [List.sum_cons]; omega
      have e2 : count + ((x :: xs).length : Int) = count + 1 + xs.length := by rw [List.length_cons]; push_cast; omega
      rw [e1, e2]
      refine ⟨?_, k4⟩
      rw [avgLoopP, hn]
      dsimp only
      rw [(hadd x sum (hx x (by simp)) hs).2.2 hin]
      dsimp only
      rw [Kind.wrap_of_inRange hc1]
      exact k3

private theorem avg_all {add : Kind → Int → Int → Int × Option MathInt.MErr} {k : Kind} (c64 : Kind) (hadd : Adds add k) (nx : PCall P σ Int)
    (xs : List Int) (s s' : σ) (e : Err) (hx : ∀ x ∈ xs, k.InRange x) (hso : sumsOk k 0 xs = none) (hc : c64.InRange xs.length) :
    (∀ p rest, Ends nx s (xs.map .ok ++ .error p :: rest) e s' →
      ∃ t, Ends nx t rest e s' ∧ nextP (avgP add k c64 nx) (ofIter (), s) = some (.panic p, (ofIter (), t))) ∧
    (Ends nx s (xs.map .ok) e s' → e = .eoi → xs ≠ [] →
      nextP (avgP add k c64 nx) (ofIter (), s) = some (.val (avgResult k c64 xs.sum xs.length), (ofIter (), s'))) ∧
    (Ends nx s (xs.map .ok) e s' → e ≠ .eoi ∨ xs = [] → nextP (avgP add k c64 nx) (ofIter (), s) = some (.err e, (stopped e, s'))) ∧
    (∀ v rest, k.InRange v → Ends nx s (xs.map .ok ++ .ok v :: rest) e s' → ∀ e', sumsOk k xs.sum [v] = some e' →
      ∃ t, Ends nx t rest e s' ∧ nextP (avgP add k c64 nx) (ofIter (), s) = some (.err e', (stopped e', t))) := by
  have hz : k.InRange 0 := by cases k <;> decide
  have hc0 : c64.InRange (0 + (xs.length : Int)) := by simpa using hc
  refine ⟨?_, ?_, ?_, ?_⟩
  · intro p rest h
    obtain ⟨s1, k1, k2⟩ := avg_loop c64 hadd nx s' _ e xs s h hx
    have k3 := (k2 0 0 hz hso (by omega) hc0).1
    cases k1 with
    | @panic _ t _ _ _ _ hn ht =>
      refine ⟨t, ht, ?_⟩
      rw [nextP_fresh, avgP, k3, avgLoopP, hn]
  · rintro h rfl hne
    obtain ⟨s1, k1, k2⟩ := avg_loop c64 hadd nx s' [] .eoi xs s (by simpa using h) hx
    have k3 := (k2 0 0 hz hso (by omega) hc0).1
    cases k1 with
    | stop hn =>
      rw [nextP_fresh, avgP, k3, avgLoopP, hn]
      simp [hne]
  · intro h he
    obtain ⟨s1, k1, k2⟩ := avg_loop c64 hadd nx s' [] e xs s (by simpa using h) hx
    have k3 := (k2 0 0 hz hso (by omega) hc0).1
    cases k1 with
    | stop hn =>
      rw [nextP_fresh, avgP, k3, avgLoopP, hn]
      rcases he with he | he
      · simp [he]
      · by_cases h0 : e = .eoi <;> simp [he, h0]
  · intro v rest hv h e' he
    obtain ⟨s1, k1, k2⟩ := avg_loop c64 hadd nx s' _ e xs s h hx
    obtain ⟨k3, k4⟩ := k2 0 0 hz hso (by omega) hc0
    cases k1 with
    | @val _ t _ _ _ _ hn ht =>
      refine ⟨t, ht, ?_⟩
      rw [nextP_fresh, avgP, k3, avgLoopP, hn]
      dsimp only
      rw [Int.zero_add] at k4 ⊢
      unfold sumsOk at he
      by_cases ho : k.maxV < xs.sum + v
      · rw [if_pos ho] at he; cases he
        obtain ⟨r, hr⟩ := (hadd v xs.sum hv k4).1 ho
        rw [hr]; rfl
      · rw [if_neg ho] at he
        by_cases hu : xs.sum + v < k.minV
        · rw [if_pos hu] at he; cases he
          obtain ⟨r, hr⟩ := (hadd v xs.sum hv k4).2.1 hu
          rw [hr]; rfl
        · rw [if_neg hu] at he; cases he

/-- C142: AvgInt over a source that panics (xs are values before the panic, whose sums are values of the type): the call of Next panics, and the next call
begins anew with the values after the panic, as if there had been no others. Without a panic it yields what AvgInt of the values yields (C40); the error of
the source, or EOI if there are no values; and if the sum leaves the type at v, the overflow or underflow error, with the values (and panics) after v
still in the source. -/
theorem c142_avgInt (k : Kind) (hk : k.signed = true) (nx : PCall P σ Int) (xs : List Int) (s s' : σ) (e : Err) (hx : ∀ x ∈ xs, k.InRange x)
    (hso : sumsOk k 0 xs = none) (hc : xs.length < 2 ^ 63) :
    (∀ p rest, Ends nx s (xs.map .ok ++ .error p :: rest) e s' →
      ∃ t, Ends nx t rest e s' ∧ nextP (avgIntP k nx) (ofIter (), s) = some (.panic p, (ofIter (), t))) ∧
    (Ends nx s (xs.map .ok) e s' → e = .eoi → xs ≠ [] →
      ∃ q, YieldsForever (It.next (avgIntCall k (It.next (sliceCall xs)))) (ofIter (ofIter 0)) [q] .eoi ∧
        nextP (avgIntP k nx) (ofIter (), s) = some (.val q, (ofIter (), s'))) ∧
    (Ends nx s (xs.map .ok) e s' → e ≠ .eoi ∨ xs = [] → nextP (avgIntP k nx) (ofIter (), s) = some (.err e, (stopped e, s'))) ∧
    (∀ v rest, k.InRange v → Ends nx s (xs.map .ok ++ .ok v :: rest) e s' → ∀ e', sumsOk k xs.sum [v] = some e' →
      ∃ t, Ends nx t rest e s' ∧ nextP (avgIntP k nx) (ofIter (), s) = some (.err e', (stopped e', t))) := by
  have hcount : Kind.int64.InRange (xs.length : Int) := by
    constructor
    · simp [Kind.minV, Kind.signed, Kind.bits]
    · simp [Kind.maxV, Kind.signed, Kind.bits]; omega
  obtain ⟨h1, h2, h3, h4⟩ := avg_all .int64 (addInt_spec k hk) nx xs s s' e hx hso hcount
  refine ⟨h1, fun h he hne => ⟨_, ?_, h2 h he hne⟩, h3, h4⟩
  have := avg_yields MathInt.addInt k .int64 (addInt_spec k hk) (c26_slice xs) hx hcount
  rw [hso, if_pos ⟨rfl, rfl, hne⟩] at this
  exact this

/-- C142: the same for AvgUint. -/
theorem c142_avgUint (k : Kind) (hk : k.signed = false) (nx : PCall P σ Int) (xs : List Int) (s s' : σ) (e : Err) (hx : ∀ x ∈ xs, k.InRange x)
    (hso : sumsOk k 0 xs = none) (hc : xs.length < 2 ^ 64) :
    (∀ p rest, Ends nx s (xs.map .ok ++ .error p :: rest) e s' →
      ∃ t, Ends nx t rest e s' ∧ nextP (avgUintP k nx) (ofIter (), s) = some (.panic p, (ofIter (), t))) ∧
    (Ends nx s (xs.map .ok) e s' → e = .eoi → xs ≠ [] →
      ∃ q, YieldsForever (It.next (avgUintCall k (It.next (sliceCall xs)))) (ofIter (ofIter 0)) [q] .eoi ∧
        nextP (avgUintP k nx) (ofIter (), s) = some (.val q, (ofIter (), s'))) ∧
    (Ends nx s (xs.map .ok) e s' → e ≠ .eoi ∨ xs = [] → nextP (avgUintP k nx) (ofIter (), s) = some (.err e, (stopped e, s'))) ∧
    (∀ v rest, k.InRange v → Ends nx s (xs.map .ok ++ .ok v :: rest) e s' → ∀ e', sumsOk k xs.sum [v] = some e' →
      ∃ t, Ends nx t rest e s' ∧ nextP (avgUintP k nx) (ofIter (), s) = some (.err e', (stopped e', t))) := by
  have hcount : Kind.uint64.InRange (xs.length : Int) := by
    constructor
    · simp [Kind.minV, Kind.signed]
    · simp [Kind.maxV, Kind.signed, Kind.bits]; omega
  obtain ⟨h1, h2, h3, h4⟩ := avg_all .uint64 (addUint_spec k hk) nx xs s s' e hx hso hcount
  refine ⟨h1, fun h he hne => ⟨_, ?_, h2 h he hne⟩, h3, h4⟩
  have := avg_yields MathInt.addUint k .uint64 (addUint_spec k hk) (c26_slice xs) hx hcount
  rw [hso, if_pos ⟨rfl, rfl, hne⟩] at this
  exact this

/-- The average of 4 ends with the error of the source; that of 100, 27 (int8) at the next value 1, before the panic. -/
example := (c142_avgInt (P := String) .int8 rfl (fun (s : Bool) => if s then some (.val 4, false) else some (.err (.user 3), s)) [4] true false
  (.user 3) (by decide) (by decide) (by decide)).2.2.1 (.val rfl (.stop rfl)) (Or.inl (by simp))

example : ∃ t, Ends listP t [.error "source"] .eoi [] ∧
    nextP (avgIntP .int8 listP) (ofIter (), [.ok 100, .ok 27, .ok 1, .error "source"]) = some (.err .overflow, (stopped .overflow, t)) :=
  (c142_avgInt .int8 rfl listP [100, 27] _ [] .eoi (by decide) (by decide) (by decide)).2.2.2 1 _ (by decide)
    (listP_ends [.ok 100, .ok 27, .ok 1, .error "source"]) .overflow (by decide)

example := (c142_avgUint (P := String) .uint8 rfl listP [1, 2] [.ok 1, .ok 2] [] .eoi (by decide) (by decide) (by decide)).2.1 (listP_ends _) rfl (by simp)

/-- C142 is false for averages: an average that was interrupted by a panic reports a number after all, which is not the average of the values of the
source: for 1, 1, (panic), 9 the second call of Next returns 9. -/
theorem c142_avg_refuted : ¬ ∀ (nx : PCall String (List (Except String Int)) Int) (gs : List (Except String Int)) (p : String)
      (w : It Unit Int × List (Except String Int)),
    Ends nx gs gs .eoi [] → nextP (avgIntP .int nx) (ofIter (), gs) = some (.panic p, w) →
    ∃ w', nextP (avgIntP .int nx) w = some (.err .eoi, w') := by
  intro h
  have hs := listP_ends [.ok 1, .ok 1, Except.error "source", .ok (9 : Int)]
  obtain ⟨t, k1, k2⟩ := (c142_avgInt .int rfl listP [1, 1] [.ok 1, .ok 1, .error "source", .ok 9] [] .eoi (by decide) (by decide) (by decide)).1
    "source" [.ok 9] hs
  obtain ⟨w', hw⟩ := h listP _ "source" _ hs k2
  obtain ⟨q, -, h9⟩ := (c142_avgInt .int rfl listP [9] t [] .eoi (by decide) (by decide) (by decide)).2.1 k1 rfl (by simp)
  rw [h9] at hw
  simp at hw

end Micro.Stream.Crash
