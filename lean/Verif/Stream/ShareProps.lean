import Verif.Stream.ShareModel
import Verif.Stream.Props
set_option linter.unusedSimpArgs false
/-
C131: how much of its source each transform consumes, and pipelines that share a source.
-/
namespace Micro.Stream
open Micro Micro.Iter

variable {σ η ℓ φ α β : Type}

/-! ### One call -/

theorem nextOn_fresh (call : Call (ℓ × η) α) (l : ℓ) (h : η) :
    nextOn call ⟨some l, [], none⟩ h = match call (l, h) with
      | none => none
      | some (.ok v, (l', h')) => some (.ok v, ⟨some l', [], none⟩, h')
      | some (.error e, (_, h')) => some (.error e, ⟨none, [], some e⟩, h') := by
  simp only [nextOn, List.getLast?_nil]
  rcases call (l, h) with _ | ⟨_ | _, _, _⟩ <;> rfl

theorem takeN_succ {call : Call σ α} {n : Nat} {s s2 : σ} {vs : List α} (h : takeN call (n + 1) s = some (vs, s2)) :
    ∃ v vs' s1, call s = some (.ok v, s1) ∧ takeN call n s1 = some (vs', s2) ∧ vs = v :: vs' := by
  simp only [takeN] at h
  split at h
  · rename_i v s1 hs
    rcases ht : takeN call n s1 with _ | ⟨vs', s2'⟩ <;> simp [ht] at h
    obtain ⟨rfl, rfl⟩ := h
    exact ⟨v, vs', s1, hs, ht, rfl⟩
  · simp at h

/-- Running the closure of a fresh iterator. -/
theorem takeOn_of_takeN {call : Call (ℓ × η) α} {n : Nat} {l l' : ℓ} {h h' : η} {vs : List α}
    (ht : takeN call n (l, h) = some (vs, (l', h'))) : takeOn call n (ofIter l) h = some (vs, ofIter l', h') := by
  unfold ofIter
  induction n generalizing l h vs with
  | zero => simp [takeN] at ht; simp [takeOn, ht]
  | succ n ih =>
    obtain ⟨v, vs', ⟨l1, h1⟩, h2, h3, rfl⟩ := takeN_succ ht
    simp only [takeOn, nextOn_fresh, h2, ih h3, Option.map_some]

/-! ### C131: consumption -/

/-- C131: Map and Peek read one value of the source for each value they yield: when the source delivers `vs`, n calls yield their images and
leave the source just after `vs`. -/
theorem c131_map (f : α → β) (next : Call η α) (n : Nat) (h h' : η) (vs : List α) (ht : takeN next n h = some (vs, h')) :
    takeOn (mapOn f next) n (ofIter ()) h = some (vs.map f, ofIter (), h') ∧
    takeOn (peekCall next) n (ofIter []) h = some (vs, ofIter vs, h') := by
  constructor
  · apply takeOn_of_takeN
    induction n generalizing h vs with
    | zero => simp [takeN] at ht ⊢; obtain ⟨rfl, rfl⟩ := ht; simp
    | succ n ih =>
      obtain ⟨v, vs', h1, h2, h3, rfl⟩ := takeN_succ ht
      have : mapOn f next ((), h) = some (.ok (f v), ((), h1)) := by simp [mapOn, mapCall, withState, h2]
      simp only [takeN, this, ih h1 vs' h3, Option.map_some, List.map_cons]
  · exact takeOn_of_takeN (by simpa using peek_log ht [])

example := c131_map (· * 2) (nextAt (sliceCall [1, 2, 3, 4, 5]) 7) 2 (fun _ => ofIter 0) _ [1, 2] rfl

/-- C131: Filter reads up to and including the value it yields: when the source delivers `vs`, the last of which passes, asking for as many
values as pass yields these and leaves the source just after `vs`. -/
theorem c131_filter (p : α → Bool) (next : Call η α) (n : Nat) (h h' : η) (vs : List α) (ht : takeN next n h = some (vs, h'))
    (hl : ∀ x, vs.getLast? = some x → p x = true) :
    takeOn (filterOn (pure p) next) (vs.filter p).length (ofIter ()) h = some (vs.filter p, ofIter (), h') := by
  apply takeOn_of_takeN
  induction n generalizing h vs with
  | zero => simp [takeN] at ht ⊢; obtain ⟨rfl, rfl⟩ := ht; simp [takeN]
  | succ n ih =>
    obtain ⟨v, vs', h1, h2, h3, rfl⟩ := takeN_succ ht
    have hl' : ∀ x, vs'.getLast? = some x → p x = true := by
      intro x hx; apply hl; rw [List.getLast?_cons, hx]; rfl
    have ih := ih h1 vs' h3 hl'
    by_cases hp : p v = true
    · have : filterOn (pure p) next ((), h) = some (.ok v, ((), h1)) := by
        simp only [filterOn]; rw [filterCall]; simp [h2, pure, hp, withState]
      simp only [List.filter_cons, hp, if_true, List.length_cons, takeN, this, ih, Option.map_some]
    · have hne : vs' ≠ [] := by rintro rfl; exact hp (hl v rfl)
      have hlen : 0 < (vs'.filter p).length := by
        obtain ⟨x, hx⟩ : ∃ x, vs'.getLast? = some x := ⟨_, List.getLast?_eq_some_getLast hne⟩
        exact List.length_pos_iff.mpr (List.ne_nil_of_mem (List.mem_filter.mpr ⟨List.mem_of_getLast? hx, hl' x hx⟩))
      have : filterOn (pure p) next ((), h) = filterOn (pure p) next ((), h1) := by
        simp only [filterOn]; rw [filterCall]; simp [h2, pure, hp]
      rw [List.filter_cons, if_neg hp]
      obtain ⟨k, hk⟩ : ∃ k, (vs'.filter p).length = k + 1 := ⟨_, (Nat.succ_pred_eq_of_pos hlen).symm⟩
      rw [hk] at ih ⊢
      simpa only [takeN, this] using ih

example := c131_filter (fun n => n % 2 == 0) (nextAt (sliceCall [1, 2, 3, 4, 5]) 7) 4 (fun _ => ofIter 0) _ [1, 2, 3, 4] rfl (by simp)

/-- A predicate with captured variables applied to the values in turn: each value with its verdict, and the variables afterwards. -/
def verdicts (p : φ → α → Bool × φ) : φ → List α → List (α × Bool) × φ
  | c, [] => ([], c)
  | c, v :: vs => ((v, (p c v).1) :: (verdicts p (p c v).2 vs).1, (verdicts p (p c v).2 vs).2)

/-- C131: the same for a predicate with captured variables: it is applied exactly once to each value of the source up to the last one yielded,
in order, and sees the variables as it has left them. -/
theorem c131_filter_state (p : φ → α → Bool × φ) (next : Call η α) (n : Nat) (h h' : η) (vs : List α) (c : φ) (ht : takeN next n h = some (vs, h'))
    (hl : ∀ x, (verdicts p c vs).1.getLast? = some x → x.2 = true) :
    takeOn (filterOn p next) ((verdicts p c vs).1.filter (·.2)).length (ofIter c) h =
      some (((verdicts p c vs).1.filter (·.2)).map (·.1), ofIter (verdicts p c vs).2, h') := by
  apply takeOn_of_takeN
  induction n generalizing h vs c with
  | zero => simp [takeN] at ht ⊢; obtain ⟨rfl, rfl⟩ := ht; simp [takeN, verdicts]
  | succ n ih =>
    obtain ⟨v, vs', h1, h2, h3, rfl⟩ := takeN_succ ht
    have hl' : ∀ x, (verdicts p (p c v).2 vs').1.getLast? = some x → x.2 = true := by
      intro x hx; apply hl; simp only [verdicts]; rw [List.getLast?_cons, hx]; rfl
    have ih := ih h1 vs' (p c v).2 h3 hl'
    rcases hp : p c v with ⟨b, c1⟩
    simp only [verdicts, hp] at ih hl hl' ⊢
    cases b with
    | true =>
      have : filterOn p next (c, h) = some (.ok v, (c1, h1)) := by
        simp only [filterOn]; rw [filterCall]; simp [h2, hp, withState]
      simp only [List.filter_cons, if_true, List.length_cons, takeN, this, ih, Option.map_some, List.map_cons]
    | false =>
      have hne : (verdicts p c1 vs').1 ≠ [] := by
        intro h0; rw [h0] at hl; exact absurd (hl (v, false) rfl) (by simp)
      have hlen : 0 < ((verdicts p c1 vs').1.filter (·.2)).length := by
        obtain ⟨x, hx⟩ : ∃ x, (verdicts p c1 vs').1.getLast? = some x := ⟨_, List.getLast?_eq_some_getLast hne⟩
        exact List.length_pos_iff.mpr (List.ne_nil_of_mem (List.mem_filter.mpr ⟨List.mem_of_getLast? hx, hl' x hx⟩))
      have : filterOn p next (c, h) = filterOn p next (c1, h1) := by
        simp only [filterOn]; rw [filterCall]; simp [h2, hp]
      rw [List.filter_cons, if_neg (by simp)]
      obtain ⟨k, hk⟩ : ∃ k, ((verdicts p c1 vs').1.filter (·.2)).length = k + 1 := ⟨_, (Nat.succ_pred_eq_of_pos hlen).symm⟩
      rw [hk] at ih ⊢
      simpa only [takeN, this] using ih

/-- Non-vacuity: every other value. -/
example := c131_filter_state (fun b (_ : Nat) => (b, !b)) (nextAt (sliceCall [1, 2, 3, 4, 5]) 7) 4 (fun _ => ofIter 0) _ [1, 2, 3, 4] false rfl
  (by intro x hx; simp [verdicts] at hx; simp [← hx])

/-- C131: Limit(n) takes exactly n values: after yielding them the source is just after them, and every further call yields EOI without
touching the source, whatever has become of it. -/
theorem c131_limit (next : Call η α) (n : Nat) (h h' : η) (vs : List α) (ht : takeN next n h = some (vs, h')) :
    takeOn (limitCall next) n (ofIter n) h = some (vs, ofIter 0, h') ∧
    (∀ w : η, nextOn (limitCall next) (ofIter 0) w = some (.error .eoi, ⟨none, [], some .eoi⟩, w)) ∧
    (∀ w : η, nextOn (limitCall next) ⟨none, [], some .eoi⟩ w = some (.error .eoi, ⟨none, [], some .eoi⟩, w)) := by
  refine ⟨takeOn_of_takeN ?_, fun w => rfl, fun w => rfl⟩
  induction n generalizing h vs with
  | zero => simp [takeN] at ht ⊢; exact ht
  | succ n ih =>
    obtain ⟨v, vs', h1, h2, h3, rfl⟩ := takeN_succ ht
    have : limitCall next (n + 1, h) = some (.ok v, (n, h1)) := by simp [limitCall, h2]
    simp only [takeN, this, ih h1 vs' h3, Option.map_some]

/-- C131: Skip(m) reads nothing until it is asked; its first n values (n > 0) cost m + n values of the source. -/
theorem c131_skip (next : Call η α) (m n : Nat) (h h' : η) (vs : List α) (ht : takeN next (m + n) h = some (vs, h')) (hn : 0 < n) :
    takeOn (skipCall next) n (ofIter m) h = some (vs.drop m, ofIter 0, h') := by
  apply takeOn_of_takeN
  have h0 : ∀ k (h : η) vs, takeN next k h = some (vs, h') → takeN (skipCall next) k (0, h) = some (vs, (0, h')) := by
    intro k
    induction k with
    | zero => intro h vs ht; simp [takeN] at ht ⊢; exact ht
    | succ k ih =>
      intro h vs ht
      obtain ⟨v, vs', h1, h2, h3, rfl⟩ := takeN_succ ht
      have : skipCall next (0, h) = some (.ok v, (0, h1)) := by simp [skipCall, skipLoop, h2]
      simp only [takeN, this, ih h1 vs' h3, Option.map_some]
  induction m generalizing h vs with
  | zero => simpa using h0 n h vs (by simpa using ht)
  | succ m ih =>
    rw [show m + 1 + n = (m + n) + 1 by omega] at ht
    obtain ⟨v, vs', h1, h2, h3, rfl⟩ := takeN_succ ht
    have e : skipCall next (m + 1, h) = skipCall next (m, h1) := by simp [skipCall, skipLoop, h2]
    obtain ⟨k, rfl⟩ : ∃ k, n = k + 1 := ⟨n - 1, by omega⟩
    have := ih h1 vs' h3
    simp only [takeN, e, List.drop_succ_cons] at this ⊢
    exact this

example := c131_skip (nextAt (sliceCall [1, 2, 3, 4, 5]) 7) 2 2 (fun _ => ofIter 0) _ [1, 2, 3, 4] rfl (by decide)

/-- C131: AllMatch, AnyMatch and NoneMatch stop reading at the value that decides: the values after it are left for the next reader of the
source. -/
theorem c131_match (p : α → Bool) (next : Call η α) (n : Nat) (h h' h'' : η) (vs : List α) (x : α)
    (ht : takeN next n h = some (vs, h')) (hx : next h' = some (.ok x, h'')) :
    ((∀ v ∈ vs, p v = true) → p x = false → ∃ it, nextOn (allMatchCall p next) (ofIter false) h = some (.ok false, it, h'')) ∧
    ((∀ v ∈ vs, p v = false) → p x = true →
      (∃ it, nextOn (anyMatchCall p next) (ofIter false) h = some (.ok true, it, h'')) ∧
      (∃ it, nextOn (noneMatchCall p next) (ofIter false) h = some (.ok false, it, h''))) := by
  have c := c34_short_circuit p next n h h' h'' vs x ht hx
  refine ⟨fun h1 h2 => ?_, fun h1 h2 => ⟨?_, ?_⟩⟩
  · exact ⟨_, by rw [show (ofIter false : It Bool Bool) = ⟨some false, [], none⟩ from rfl, nextOn_fresh, c.1 h1 h2]⟩
  · exact ⟨_, by rw [show (ofIter false : It Bool Bool) = ⟨some false, [], none⟩ from rfl, nextOn_fresh, (c.2 h1 h2).1]⟩
  · exact ⟨_, by rw [show (ofIter false : It Bool Bool) = ⟨some false, [], none⟩ from rfl, nextOn_fresh, (c.2 h1 h2).2]⟩

example := c131_match (fun n => n < 3) (nextAt (sliceCall [1, 2, 3, 4, 5]) 7) 2 (fun _ => ofIter 0) _ _ [1, 2] 3 rfl rfl

theorem foldLoop_end (next : Call η α) (f : β → α → β) (n : Nat) (h h' h'' : η) (vs : List α) (acc : β)
    (ht : takeN next n h = some (vs, h')) (hx : next h' = some (.error .eoi, h'')) :
    foldLoop next f acc h = some (.ok (vs.foldl f acc), h'') := by
  induction n generalizing h vs acc with
  | zero => simp [takeN] at ht; obtain ⟨rfl, rfl⟩ := ht; rw [foldLoop]; simp [hx]
  | succ n ih =>
    obtain ⟨v, vs', h1, h2, h3, rfl⟩ := takeN_succ ht
    rw [foldLoop]; simp only [h2]
    exact ih h1 vs' _ h3

/-- C131: ReduceToSlice reads nothing until it is asked, and then everything up to the end; the end has then been seen by the source. -/
theorem c131_toSlice (next : Call η α) (n : Nat) (h h' h'' : η) (vs : List α)
    (ht : takeN next n h = some (vs, h')) (hx : next h' = some (.error .eoi, h'')) :
    nextOn (reduceToSliceCall next) (ofIter false) h = some (.ok vs, ofIter true, h'') := by
  have : ∀ (vs acc : List α), vs.foldl (fun slc v => slc ++ [v]) acc = acc ++ vs := by
    intro vs; induction vs with
    | nil => simp
    | cons v vs ih => intro acc; simp [ih]
  have e : reduceToSliceCall next (false, h) = some (.ok vs, (true, h'')) := by
    simp [reduceToSliceCall, withState, foldLoop_end next _ n h h' h'' vs [] ht hx, this]
  rw [show (ofIter false : It Bool (List α)) = ⟨some false, [], none⟩ from rfl, nextOn_fresh, e]
  rfl

/-- Non-vacuity: a header of two values is read with Limit(2), the rest with ReduceToSlice, from one iterator over 1, 2, 3, 4, 5. -/
example : ∃ w : Nat → It Nat Nat, takeOn (limitCall (nextAt (sliceCall [1, 2, 3, 4, 5]) 7)) 2 (ofIter 2) (fun _ => ofIter 0) = some ([1, 2], ofIter 0, w) ∧
    ∃ it w', nextOn (reduceToSliceCall (nextAt (sliceCall [1, 2, 3, 4, 5]) 7)) (ofIter false) w = some (.ok [3, 4, 5], it, w') := by
  refine ⟨_, (c131_limit (nextAt (sliceCall [1, 2, 3, 4, 5]) 7) 2 (fun _ => ofIter 0) _ [1, 2] rfl).1, _, _,
    c131_toSlice _ 3 _ _ _ [3, 4, 5] rfl rfl⟩

/-! ### C131: a finished pipeline -/

/-- C131: once a pipeline has yielded an error, EOI included, it repeats it and never asks its source again, even if the source has more values by
then (after Unread, or an iterating function that goes on). -/
theorem c131_finished (call : Call (ℓ × η) α) (l : ℓ) (h h' : η) (it : It ℓ α) (e : Err)
    (hx : nextOn call (ofIter l) h = some (.error e, it, h')) (w : η) : nextOn call it w = some (.error e, it, w) := by
  rw [show (ofIter l : It ℓ α) = ⟨some l, [], none⟩ from rfl, nextOn_fresh] at hx
  generalize call (l, h) = r at hx
  rcases r with _ | ⟨_ | _, _, _⟩
  · simp at hx
  · simp at hx
    obtain ⟨rfl, rfl, rfl⟩ := hx
    rfl
  · simp at hx

/-- Non-vacuity: the source is at its end, Map yields EOI; a value is put back into the source: the source yields it, Map still yields EOI. -/
example : ∃ it w, nextOn (mapOn (· + 1) (nextAt (sliceCall ([] : List Nat)) 0)) (ofIter ()) (fun _ => ofIter 0) = some (.error .eoi, it, w) ∧
    (∃ w', nextAt (sliceCall ([] : List Nat)) 0 (unreadAt 0 5 w) = some (.ok 5, w')) ∧
    nextOn (mapOn (· + 1) (nextAt (sliceCall ([] : List Nat)) 0)) it (unreadAt 0 5 w) = some (.error .eoi, it, unreadAt 0 5 w) := by
  refine ⟨_, _, rfl, ⟨_, rfl⟩, rfl⟩

/-! ### C131: pipelines that share a source -/

/-- C131: any number of Map pipelines over one source, asked for values in any order: each value of the source goes to exactly one of them, the
one that asks next; when the source is at its end they all get the end. -/
theorem c131_shared (f : Nat → α → β) (next : Call η α) (h : η) (xs : List α) (e : Err) (hy : YieldsForever next h xs e) (sched : List Nat) :
    runMaps f next sched (fun _ => ofIter ()) h =
      some (sched.zipIdx.map (fun (c, i) => match xs[i]? with | some x => .ok (f c x) | none => .error e)) := by
  obtain ⟨stt, rfl, h1, h2⟩ := hy
  have key : ∀ (sched : List Nat) (k k' : Nat) (its : Nat → It Unit β),
      (∀ c, its c = ofIter () ∨ (xs.length < k ∧ its c = ⟨none, [], some e⟩)) →
      (k ≤ xs.length → k' = k) → (xs.length < k → xs.length ≤ k') →
      runMaps f next sched its (stt k') =
        some ((sched.zipIdx k).map (fun (c, i) => match xs[i]? with | some x => .ok (f c x) | none => .error e)) := by
    intro sched
    induction sched with
    | nil => intro k k' its _ _ _; rfl
    | cons c sched ih =>
      intro k k' its hi hk hk'
      simp only [runMaps, List.zipIdx_cons, List.map_cons]
      by_cases hlt : k < xs.length
      · obtain rfl : k' = k := hk (by omega)
        have hc : its c = ⟨some (), [], none⟩ := by
          rcases hi c with h | ⟨h, _⟩
          · exact h
          · omega
        rw [hc, nextOn_fresh]
        simp only [mapOn, mapCall, withState, h1 k' hlt, List.getElem?_eq_getElem hlt]
        rw [ih (k' + 1) (k' + 1) _ ?_ (by intro _; rfl) (by omega)]
        · rfl
        · intro d
          by_cases hd : d = c
          · left; simp [hd, ofIter]
          · rcases hi d with h | ⟨h, _⟩
            · left; simp [hd, h]
            · omega
      · have hge : xs.length ≤ k' := by
          rcases Nat.lt_or_ge xs.length k with h | h
          · exact hk' h
          · have := hk h; omega
        rw [List.getElem?_eq_none (by omega)]
        have hsome : ∃ k'', xs.length ≤ k'' ∧ nextOn (mapOn (f c) next) (its c) (stt k') = some (.error e, ⟨none, [], some e⟩, stt k'') := by
          rcases hi c with h | ⟨_, h⟩
          · refine ⟨k' + 1, by omega, ?_⟩
            rw [h, show (ofIter () : It Unit β) = ⟨some (), [], none⟩ from rfl, nextOn_fresh]
            simp only [mapOn, mapCall, withState, h2 k' hge]
          · exact ⟨k', hge, by rw [h]; rfl⟩
        obtain ⟨k'', hge', hn⟩ := hsome
        rw [hn]
        simp only
        rw [ih (k + 1) k'' _ ?_ (by omega) (by intro _; exact hge')]
        · rfl
        · intro d
          by_cases hd : d = c
          · right; exact ⟨by omega, by simp [hd]⟩
          · rcases hi d with h | ⟨h, h3⟩
            · left; simp [hd, h]
            · right; exact ⟨by omega, by simp [hd, h3]⟩
  exact key sched 0 0 _ (fun c => .inl rfl) (fun _ => rfl) (by omega)

/-- Non-vacuity: two pipelines, adding 10 and 20, over 1, 2, 3, asked in the order 0, 1, 1, 0. -/
example : runMaps (fun c x => 10 * (c + 1) + x) (It.next (sliceCall [1, 2, 3])) [0, 1, 1, 0] (fun _ => ofIter ()) (ofIter 0)
    = some [.ok 11, .ok 22, .ok 23, .error .eoi] :=
  c131_shared _ _ _ [1, 2, 3] .eoi (ofIter_forever (.value rfl (.value rfl (.value rfl (.stop rfl))))) _

/-! ### C131: Concat of iterators that may be the same -/

theorem forever_on {call : Call (ℓ × η) α} {l : ℓ} {h : η} {xs : List α} {e : Err} (hy : Yields call (l, h) xs e) :
    ∃ stt : Nat → It ℓ α × η, stt 0 = (ofIter l, h) ∧
      (∀ i (hi : i < xs.length), nextOn call (stt i).1 (stt i).2 = some (.ok xs[i], stt (i + 1))) ∧
      (∀ i, xs.length ≤ i → nextOn call (stt i).1 (stt i).2 = some (.error e, stt (i + 1))) := by
  generalize hs : (l, h) = s at hy
  induction hy generalizing l h with
  | @stop s s' e hc =>
    subst hs
    refine ⟨fun i => if i = 0 then (ofIter l, h) else (⟨none, [], some e⟩, s'.2), rfl, fun i hi => by simp at hi, fun i _ => ?_⟩
    by_cases hi : i = 0
    · subst hi
      simp only [if_true]
      rw [show (ofIter l : It ℓ α) = ⟨some l, [], none⟩ from rfl, nextOn_fresh, hc]
      simp
    · simp only [hi, if_false]
      rfl
  | @value s s' x xs e hc _ ih =>
    subst hs
    obtain ⟨l', h'⟩ := s'
    obtain ⟨stt, h0, h1, h2⟩ := ih rfl
    refine ⟨fun i => match i with | 0 => (ofIter l, h) | i + 1 => stt i, rfl, ?_, ?_⟩
    · intro i hi
      cases i with
      | zero =>
        show nextOn call (ofIter l) h = some (.ok x, stt 0)
        rw [show (ofIter l : It ℓ α) = ⟨some l, [], none⟩ from rfl, nextOn_fresh, hc, h0]
        rfl
      | succ i => simpa using h1 i (by simpa using hi)
    · intro i hi
      cases i with
      | zero => simp at hi
      | succ i => exact h2 i (by simpa using hi)

theorem next_error {call : Call σ α} {it it' : It σ α} {e : Err} (h : It.next call it = some (.error e, it')) :
    It.next call it' = some (.error e, it') := by
  unfold It.next at h
  split at h
  · simp at h
  · rename_i hb
    have hb : it.buffer = [] := List.getLast?_eq_none_iff.mp hb
    split at h
    · rename_i s hf
      generalize call s = r at h
      rcases r with _ | ⟨_ | _, _⟩ <;> simp at h
      obtain ⟨rfl, rfl⟩ := h
      exact next_stopped _ _ _ hb rfl rfl
    · rename_i hf
      unfold It.stopped at h
      split at h
      · rename_i e' he
        simp at h
        obtain ⟨rfl, rfl⟩ := h
        exact next_stopped _ _ _ hb hf he
      · simp at h

theorem _root_.Micro.Iter.Yields.of_eq {call : Call σ α} {s t : σ} {xs : List α} {e : Err} (h : Yields call t xs e) (he : call s = call t) :
    Yields call s xs e := by
  cases h with
  | stop hc => exact .stop (he.trans hc)
  | value hc hc' => exact .value (he.trans hc) hc'

theorem concat_shared_aux (call : Call σ α) (den : Nat → List α × Err) (as : List (Option Nat)) :
    ∀ (D : List Nat) (h : Nat → It σ α),
      (∀ a ∈ D, It.next call (h a) = some (.error .eoi, h a)) →
      (∀ a, some a ∈ as → a ∉ D → Yields (It.next call) (h a) (den a).1 (den a).2) →
      Yields (concatOn (nextAt call)) (⟨as, .eoi⟩, h)
        (concatSpec (((as.filter (fun o => ∀ a ∈ D, o ≠ some a)).eraseDups).map (Option.map den))).1
        (concatSpec (((as.filter (fun o => ∀ a ∈ D, o ≠ some a)).eraseDups).map (Option.map den))).2 := by
  have none_irrel : ∀ l : List (Option Nat),
      concatSpec ((l.filter (fun o => !o == none)).eraseDups.map (Option.map den)) = concatSpec (l.eraseDups.map (Option.map den)) := by
    intro l
    generalize hn : l.length = n
    induction n using Nat.strong_induction_on generalizing l with
    | _ n ih =>
      cases l with
      | nil => rfl
      | cons o t =>
        simp only [List.length_cons] at hn
        cases o with
        | none =>
          simp only [List.eraseDups_cons, List.map_cons, Option.map_none, concatSpec]
          rfl
        | some a =>
          rw [List.filter_cons_of_pos (by simp), List.eraseDups_cons, List.eraseDups_cons]
          simp only [List.map_cons, Option.map_some, concatSpec]
          rw [List.filter_filter]
          have := ih (t.filter (fun b => !b == some a)).length
            (by have := List.length_filter_le (fun b => !b == some a) t; omega) _ rfl
          rw [List.filter_filter] at this
          rw [show (fun b => (!b == some a) && !b == none) = fun (b : Option Nat) => (!b == none) && !b == some a from
            funext fun b => Bool.and_comm _ _, this]
  induction as with
  | nil =>
    intro D h _ _
    exact .stop (s' := (⟨[], .eoi⟩, h)) rfl
  | cons o as ih =>
    intro D h hD hy
    cases o with
    | none =>
      have key : concatOn (nextAt call) (⟨none :: as, .eoi⟩, h) = concatOn (nextAt call) (⟨as, .eoi⟩, h) := by simp [concatOn, concatGoAt]
      have := ih D h hD (fun a ha => hy a (by simp [ha]))
      rw [List.filter_cons_of_pos (by simp), List.eraseDups_cons, List.map_cons, Option.map_none, concatSpec, none_irrel]
      exact this.of_eq key
    | some a =>
      by_cases ha : a ∈ D
      · have key : concatOn (nextAt call) (⟨some a :: as, .eoi⟩, h) = concatOn (nextAt call) (⟨as, .eoi⟩, h) := by
          have e : (fun b => if b = a then h a else h b) = h := by funext b; by_cases hb : b = a <;> simp [hb]
          simp [concatOn, concatGoAt, nextAt, hD a ha, e]
        have := ih D h hD (fun b hb => hy b (by simp [hb]))
        rw [List.filter_cons_of_neg (by simpa using ha)]
        exact this.of_eq key
      · rw [List.filter_cons_of_pos (by simp; rintro b hb rfl; exact ha hb), List.eraseDups_cons, List.map_cons, Option.map_some, concatSpec]
        have hya := hy a (by simp) ha
        have others : ∀ b, some b ∈ as → b ∉ a :: D → Yields (It.next call) (h b) (den b).1 (den b).2 := by
          intro b hb hbD
          simp only [List.mem_cons, not_or] at hbD
          exact hy b (by simp [hb]) hbD.2
        clear hy
        have hfil : (as.filter (fun o => ∀ b ∈ D, o ≠ some b)).filter (fun b => !b == some a) =
            as.filter (fun o => ∀ b ∈ a :: D, o ≠ some b) := by
          rw [List.filter_filter]
          congr 1; funext o
          rw [Bool.eq_iff_iff]; simp
        rw [hfil]
        generalize hd : den a = d at hya ⊢
        obtain ⟨vs, e⟩ := d
        simp only at hya ⊢
        generalize hit : h a = it at hya
        clear hd
        induction hya generalizing h with
        | @stop it it' e hn =>
          have hn' : nextAt call a h = some (.error e, fun b => if b = a then it' else h b) := by simp [nextAt, hit, hn]
          by_cases he : e = .eoi
          · subst he
            simp only [if_true, List.nil_append]
            refine (ih (a :: D) (fun b => if b = a then it' else h b) ?_ ?_).of_eq (by simp [concatOn, concatGoAt, hn'])
            · intro b hb
              by_cases hba : b = a
              · simp only [hba, if_true]; exact next_error hn
              · simp only [hba, if_false]; exact hD b (by simpa [hba] using hb)
            · intro b hb hbD
              have hba : b ≠ a := by rintro rfl; simp at hbD
              simp only [hba, if_false]; exact others b hb hbD
          · simp only [he, if_false]
            exact .stop (s' := (⟨[], e⟩, _)) (by simp [concatOn, concatGoAt, hn', he]; rfl)
        | @value it it' x xs e hn _ ih2 =>
          have hn' : nextAt call a h = some (.ok x, fun b => if b = a then it' else h b) := by simp [nextAt, hit, hn]
          have := ih2 (fun b => if b = a then it' else h b) ?_ ?_ (by simp)
          · have hc : concatOn (nextAt call) (⟨some a :: as, .eoi⟩, h) =
                some (.ok x, (⟨some a :: as, .eoi⟩, fun b => if b = a then it' else h b)) := by simp [concatOn, concatGoAt, hn']
            by_cases he : e = .eoi
            · simp only [he, if_true, List.cons_append] at this ⊢
              exact .value hc this
            · simp only [he, if_false] at this ⊢
              exact .value hc this
          · intro b hb
            have hba : b ≠ a := by rintro rfl; exact ha hb
            simp only [hba, if_false]; exact hD b hb
          · intro b hb hbD
            have hba : b ≠ a := by rintro rfl; simp at hbD
            simp only [hba, if_false]; exact others b hb hbD

/-- C131: Concat of iterators of which some may be one and the same object: each iterator contributes its values once, where it first occurs (and
the sequence stops at the first error other than EOI, as in C27). -/
theorem c131_concat (call : Call σ α) (h : Nat → It σ α) (as : List (Option Nat)) (den : Nat → List α × Err)
    (hy : ∀ a, some a ∈ as → Yields (It.next call) (h a) (den a).1 (den a).2) :
    ∃ stt : Nat → It (ConcatState Nat) α × (Nat → It σ α), stt 0 = (ofIter ⟨as, .eoi⟩, h) ∧
      (∀ i (hi : i < (concatSpec (as.eraseDups.map (Option.map den))).1.length), nextOn (concatOn (nextAt call)) (stt i).1 (stt i).2 =
        some (.ok (concatSpec (as.eraseDups.map (Option.map den))).1[i], stt (i + 1))) ∧
      (∀ i, (concatSpec (as.eraseDups.map (Option.map den))).1.length ≤ i → nextOn (concatOn (nextAt call)) (stt i).1 (stt i).2 =
        some (.error (concatSpec (as.eraseDups.map (Option.map den))).2, stt (i + 1))) := by
  have := concat_shared_aux call den as [] h (by simp) (fun a ha _ => hy a ha)
  rw [show as.filter (fun o => ∀ a ∈ ([] : List Nat), o ≠ some a) = as by simp] at this
  exact forever_on this

/-- Non-vacuity: Concat(it, it) over 1, 2 yields 1, 2 once; Concat(a, b, a) yields the values of a and then those of b. -/
example : concatSpec (([some 0, some 0] : List (Option Nat)).eraseDups.map (Option.map (fun _ => ([1, 2], Err.eoi)))) = ([1, 2], .eoi) := by decide
example : concatSpec (([some 0, some 1, none, some 0] : List (Option Nat)).eraseDups.map
    (Option.map (fun a => (if a = 0 then [1, 2] else [3], Err.eoi)))) = ([1, 2, 3], .eoi) := by decide

/-- One call of Concat's closure: the iterators it has passed are finished, those it has not reached are as they were. -/
theorem concatGoAt_spec (call : Call σ α) : ∀ (src : List (Option Nat)) (h h' : Nat → It σ α) (r : Except Err α) (st : ConcatState Nat),
    concatGoAt (nextAt call) src .eoi h = some (r, (st, h')) →
    ∃ d rest, src = d ++ rest ∧
      (∀ a, some a ∈ d → It.next call (h' a) = some (.error .eoi, h' a)) ∧
      (∀ a e, It.next call (h a) = some (.error e, h a) → h' a = h a) ∧
      (∀ b, some b ∉ d → rest.head? ≠ some (some b) → h' b = h b) ∧
      (∀ v, r = .ok v → st = ⟨rest, .eoi⟩) ∧
      (∀ e, r = .error e → (e = .eoi ∧ rest = []) ∨
        (e ≠ .eoi ∧ ∃ a t, rest = some a :: t ∧ It.next call (h' a) = some (.error e, h' a))) := by
  intro src
  induction src with
  | nil =>
    intro h h' r st hc
    simp only [concatGoAt, Option.some.injEq, Prod.mk.injEq] at hc
    obtain ⟨rfl, rfl, rfl⟩ := hc
    exact ⟨[], [], rfl, by simp, fun _ _ _ => rfl, fun _ _ _ => rfl, by simp, fun e he => .inl ⟨by cases he; rfl, rfl⟩⟩
  | cons o src ih =>
    intro h h' r st hc
    cases o with
    | none =>
      rw [concatGoAt] at hc
      obtain ⟨d, rest, h1, h2, h3, h4, h5, h6⟩ := ih h h' r st hc
      exact ⟨none :: d, rest, by simp [h1], by simpa using h2, h3, by simpa using h4, h5, h6⟩
    | some a =>
      rw [concatGoAt] at hc
      rcases hn : It.next call (h a) with _ | ⟨r1, it1⟩
      · simp [nextAt, hn] at hc
      · have hna : nextAt call a h = some (r1, fun b => if b = a then it1 else h b) := by simp [nextAt, hn]
        rw [hna] at hc
        have same : ∀ b e, It.next call (h b) = some (.error e, h b) → (if b = a then it1 else h b) = h b := by
          intro b e hb
          by_cases hba : b = a
          · subst hba
            rw [hn] at hb
            simp only [Option.some.injEq, Prod.mk.injEq] at hb
            simp [hb.2]
          · simp [hba]
        cases r1 with
        | ok v =>
          simp only [Option.some.injEq, Prod.mk.injEq] at hc
          obtain ⟨rfl, rfl, rfl⟩ := hc
          refine ⟨[], some a :: src, rfl, by simp, same, ?_, fun _ _ => rfl, by simp⟩
          intro b _ hb
          have hba : b ≠ a := by rintro rfl; simp at hb
          simp [hba]
        | error e =>
          by_cases he : e = .eoi
          · subst he
            simp only [ne_eq, not_true_eq_false, if_false] at hc
            obtain ⟨d, rest, h1, h2, h3, h4, h5, h6⟩ := ih _ h' r st hc
            have fin : It.next call ((fun b => if b = a then it1 else h b) a) =
                some (.error .eoi, (fun b => if b = a then it1 else h b) a) := by simpa using next_error hn
            have ha' : h' a = it1 := by simpa using h3 a _ fin
            refine ⟨some a :: d, rest, by simp [h1], ?_, ?_, ?_, h5, h6⟩
            · intro b hb
              by_cases hba : b = a
              · subst hba; rw [ha']; exact next_error hn
              · exact h2 b (by simpa [hba] using hb)
            · intro b e hb
              have e1 := same b e hb
              rw [h3 b e (by simp only [e1]; exact hb), e1]
            · intro b hb hb'
              simp only [List.mem_cons, Option.some.injEq, not_or] at hb
              rw [h4 b hb.2 hb']
              simp [hb.1]
          · simp only [ne_eq, he, not_false_eq_true, if_true, Option.some.injEq, Prod.mk.injEq] at hc
            obtain ⟨rfl, rfl, rfl⟩ := hc
            refine ⟨[], some a :: src, rfl, by simp, same, ?_, by simp, ?_⟩
            · intro b _ hb
              have hba : b ≠ a := by rintro rfl; simp at hb
              simp [hba]
            · intro e' he'
              cases he'
              exact .inr ⟨he, a, src, rfl, by simpa using next_error hn⟩

/-- What Concat has done to the iterators: those before some place are finished, those behind it are as they were. -/
private def ConcatInv (call : Call σ α) (as : List (Option Nat)) (h : Nat → It σ α) (it : It (ConcatState Nat) α) (h' : Nat → It σ α)
    (last : Option (Except Err α)) : Prop :=
  ∃ d rest, as = d ++ rest ∧
    (∀ a, some a ∈ d → It.next call (h' a) = some (.error .eoi, h' a)) ∧
    (∀ b, some b ∉ d → rest.head? ≠ some (some b) → h' b = h b) ∧
    ((it = ofIter ⟨rest, .eoi⟩ ∧ ∀ e, last ≠ some (.error e)) ∨
      ∃ e, it = ⟨none, [], some e⟩ ∧ last = some (.error e) ∧ ((e = .eoi ∧ rest = []) ∨
        (e ≠ .eoi ∧ ∃ a t, rest = some a :: t ∧ It.next call (h' a) = some (.error e, h' a))))

private theorem concatInv_step {call : Call σ α} {as : List (Option Nat)} {h h1 h2 : Nat → It σ α} {it it' : It (ConcatState Nat) α}
    {last : Option (Except Err α)} {r : Except Err α} (hi : ConcatInv call as h it h1 last)
    (hn : nextOn (concatOn (nextAt call)) it h1 = some (r, it', h2)) : ConcatInv call as h it' h2 (some r) := by
  obtain ⟨d, rest, e1, fin, unt, hit⟩ := hi
  rcases hit with ⟨rfl, _⟩ | ⟨e, rfl, _, hf⟩
  · rw [show (ofIter ⟨rest, .eoi⟩ : It (ConcatState Nat) α) = ⟨some ⟨rest, .eoi⟩, [], none⟩ from rfl, nextOn_fresh] at hn
    rcases hc : concatOn (nextAt call) (⟨rest, .eoi⟩, h1) with _ | ⟨r', st, h2'⟩
    · rw [hc] at hn; simp at hn
    · obtain ⟨d', rest', k1, k2, k3, k4, k5, k6⟩ := concatGoAt_spec call rest h1 h2' r' st hc
      have fin' : ∀ a, some a ∈ d ++ d' → It.next call (h2' a) = some (.error .eoi, h2' a) := by
        intro a ha
        rcases List.mem_append.mp ha with ha | ha
        · rw [k3 a _ (fin a ha)]; exact fin a ha
        · exact k2 a ha
      have unt' : ∀ b, some b ∉ d ++ d' → rest'.head? ≠ some (some b) → h2' b = h b := by
        intro b hb hb'
        simp only [List.mem_append, not_or] at hb
        rw [k4 b hb.2 hb']
        apply unt b hb.1
        rw [k1]
        cases d' with
        | nil => simpa using hb'
        | cons x d' =>
          rintro hx
          simp only [List.cons_append, List.head?_cons, Option.some.injEq] at hx
          exact hb.2 (by simp [hx])
      rw [hc] at hn
      cases r' with
      | ok v =>
        simp only [Option.some.injEq, Prod.mk.injEq] at hn
        obtain ⟨rfl, rfl, rfl⟩ := hn
        refine ⟨d ++ d', rest', by simp [e1, k1], fin', unt', .inl ⟨?_, by simp⟩⟩
        rw [k5 v rfl]; rfl
      | error e =>
        simp only [Option.some.injEq, Prod.mk.injEq] at hn
        obtain ⟨rfl, rfl, rfl⟩ := hn
        exact ⟨d ++ d', rest', by simp [e1, k1], fin', unt', .inr ⟨e, rfl, rfl, k6 e rfl⟩⟩
  · simp only [nextOn, List.getLast?_nil, Option.some.injEq, Prod.mk.injEq] at hn
    obtain ⟨rfl, rfl, rfl⟩ := hn
    exact ⟨d, rest, e1, fin, unt, .inr ⟨e, rfl, rfl, hf⟩⟩

/-- C131: what Concat leaves behind. However often Next has been called on it, the iterators given to it split in two: those before some place have
been read to their end and are finished, those behind the one at that place have not been touched, nor has any iterator that was not given to it.
Once Concat has returned EOI all are finished; once it has returned another error, that is the error the iterator at that place goes on returning. -/
theorem c131_concat_reads (call : Call σ α) (h h' : Nat → It σ α) (as : List (Option Nat)) (n : Nat) (rs : List (Except Err α))
    (it : It (ConcatState Nat) α) (hrun : callsOn (concatOn (nextAt call)) n (ofIter ⟨as, .eoi⟩) h = some (rs, it, h')) :
    ∃ done rest, as = done ++ rest ∧
      (∀ a, some a ∈ done → It.next call (h' a) = some (.error .eoi, h' a)) ∧
      (∀ b, some b ∉ done → rest.head? ≠ some (some b) → h' b = h b) ∧
      (rs.getLast? = some (.error .eoi) → rest = []) ∧
      (∀ e, e ≠ .eoi → rs.getLast? = some (.error e) → ∃ a t, rest = some a :: t ∧ It.next call (h' a) = some (.error e, h' a)) := by
  have key : ∀ (n : Nat) (it0 it : It (ConcatState Nat) α) (h0 h' : Nat → It σ α) (last : Option (Except Err α)) (rs : List (Except Err α)),
      ConcatInv call as h it0 h0 last → callsOn (concatOn (nextAt call)) n it0 h0 = some (rs, it, h') →
      ConcatInv call as h it h' (rs.getLast?.or last) := by
    intro n
    induction n with
    | zero =>
      intro it0 it h0 h' last rs hi hr
      simp only [callsOn, Option.some.injEq, Prod.mk.injEq] at hr
      obtain ⟨rfl, rfl, rfl⟩ := hr
      simpa using hi
    | succ n ih =>
      intro it0 it h0 h' last rs hi hr
      rcases hn : nextOn (concatOn (nextAt call)) it0 h0 with _ | ⟨r, it1, h1⟩
      · simp [callsOn, hn] at hr
      · rcases hr' : callsOn (concatOn (nextAt call)) n it1 h1 with _ | ⟨rs', it2, h2⟩
        · simp [callsOn, hn, hr'] at hr
        · simp only [callsOn, hn, hr', Option.map_some, Option.some.injEq, Prod.mk.injEq] at hr
          obtain ⟨rfl, rfl, rfl⟩ := hr
          have := ih it1 it2 h1 h2 (some r) rs' (concatInv_step hi hn) hr'
          rw [List.getLast?_cons]
          cases hl : rs'.getLast? <;> simpa [hl] using this
  obtain ⟨d, rest, e1, fin, unt, hit⟩ := key n _ it h h' none rs
    ⟨[], as, rfl, by simp, fun _ _ _ => rfl, .inl ⟨rfl, by simp⟩⟩ hrun
  simp only [Option.or_none] at hit
  refine ⟨d, rest, e1, fin, unt, ?_, ?_⟩
  · intro hl
    rcases hit with ⟨_, hne⟩ | ⟨e, _, hl', hf⟩
    · exact absurd hl (hne _)
    · rw [hl] at hl'
      cases hl'
      rcases hf with ⟨_, hf⟩ | ⟨hf, _⟩
      · exact hf
      · exact absurd rfl hf
  · intro e he hl
    rcases hit with ⟨_, hne⟩ | ⟨e', _, hl', hf⟩
    · exact absurd hl (hne _)
    · rw [hl] at hl'
      cases hl'
      rcases hf with ⟨hf, _⟩ | ⟨_, hf⟩
      · exact absurd hf he
      · exact hf

/-- Non-vacuity: three calls on Concat(a0, a0, a1) over 1, 2 and 7, 8: yields 1, 2, 7. -/
example : ∃ it h', callsOn (concatOn (nextAt (fun i : Nat => sliceCall (if i < 10 then [1, 2] else [7, 8]) (i % 10) |>.map
    fun (r, j) => (r, i / 10 * 10 + j)))) 3 (ofIter ⟨[some 0, some 0, some 1], .eoi⟩) (fun a => ofIter (10 * a)) =
    some ([.ok 1, .ok 2, .ok 7], it, h') := ⟨_, _, rfl⟩

/-! ### C131: Unread -/

/-- C131: values put back into a pipeline come back last in first out, without touching the source; then it goes on where it was. -/
theorem c131_unread (call : Call (ℓ × η) α) (it : It ℓ α) (h : η) (vs : List α) :
    takeOn call vs.length (vs.reverse.foldl (fun it v => it.unread v) it) h = some (vs, it, h) := by
  induction vs with
  | nil => rfl
  | cons v vs ih =>
    have e : ((v :: vs).reverse.foldl (fun it v => it.unread v) it) = (vs.reverse.foldl (fun it v => it.unread v) it).unread v := by
      simp [List.foldl_append]
    generalize hg : vs.reverse.foldl (fun it v => it.unread v) it = g at e ih
    rw [e, List.length_cons, takeOn]
    have : nextOn call (g.unread v) h = some (.ok v, g, h) := by simp [nextOn, It.unread]
    rw [this]
    simp [ih]

example := c131_unread (limitCall (nextAt (sliceCall [1, 2, 3]) 0)) (ofIter 2) (fun _ => ofIter 0) [8, 9]

/-- C131: a value put back into a source is the next value that any pipeline over that source gets; other iterators are not affected by it, and
after the value is read all is as it was before. -/
theorem c131_unread_source (f : α → β) (call : Call σ α) (a : Nat) (v : α) (h : Nat → It σ α) :
    nextOn (mapOn f (nextAt call a)) (ofIter ()) (unreadAt a v h) = some (.ok (f v), ofIter (), h) ∧
    ∀ b, b ≠ a → unreadAt a v h b = h b := by
  constructor
  · have e : nextAt call a (unreadAt a v h) = some (.ok v, h) := by
      have : It.next call (unreadAt a v h a) = some (.ok v, h a) := by simp [unreadAt, It.next, It.unread]
      simp only [nextAt, this]
      congr 2
      funext b
      by_cases hb : b = a <;> simp [hb, unreadAt]
    rw [show (ofIter () : It Unit β) = ⟨some (), [], none⟩ from rfl, nextOn_fresh]
    simp [mapOn, mapCall, withState, e]
  · intro b hb
    simp [unreadAt, hb]

example := c131_unread_source (· + 1) (sliceCall [1, 2, 3]) 4 9 (fun _ => ofIter 2)

end Micro.Stream
