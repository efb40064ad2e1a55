import Verif.Stream.ExpandCrashModel
import Verif.Stream.CrashProps
set_option linter.unusedSimpArgs false
/-
C143: panics in sources of expanding, concatenating and eager iterators.
-/
namespace Micro.Stream.Crash
open Micro Micro.Iter

variable {P σ η ι α β γ ε φ : Type}

/-! ### Specification -/

/-- What ExpandSlices is meant to give: the elements of the slices in order, panics of the source where they happen. -/
def expandSpec : List (Except P (Option (List α))) → List (Except P α)
  | [] => []
  | .error p :: gs => .error p :: expandSpec gs
  | .ok none :: gs => expandSpec gs
  | .ok (some l) :: gs => l.map .ok ++ expandSpec gs

/-- The source panics right after it has given an empty slice that is not nil, and some slice before had elements. -/
def StuckAt (a : List (Except P (Option (List α)))) (gs : List (Except P (Option (List α)))) : Prop :=
  ∃ p b, gs = a ++ .ok (some []) :: .error p :: b ∧ ∃ l, .ok (some l) ∈ a ∧ l ≠ []

/-- What ExpandMaps is meant to give: the entries of the maps in order, with a panic in the place of an entry that cannot be made a tuple. -/
def expandMapsSpec (conv : ε → Except P γ) : List (Except P (Option (List ε))) → List (Except P γ)
  | [] => []
  | .error p :: gs => .error p :: expandMapsSpec conv gs
  | .ok none :: gs => expandMapsSpec conv gs
  | .ok (some l) :: gs => l.map conv ++ expandMapsSpec conv gs

/-- The source panics right after it has given an empty map that is not nil. -/
def MapStuckAt (a : List (Except P (Option (List ε)))) (gs : List (Except P (Option (List ε)))) : Prop :=
  ∃ p b, gs = a ++ .ok (some []) :: .error p :: b

/-- Iterators read one after the other (nil ones are skipped): the values and panics, up to the first error that is not EOI. -/
inductive InTurn (next : ι → PCall P η α) : List (Option ι) → η → List (Except P α) → Err → η → Prop where
  | nil {h} : InTurn next [] h [] .eoi h
  | skip {js h gs e h'} : InTurn next js h gs e h' → InTurn next (none :: js) h gs e h'
  | stop {j js h gs e h'} : Ends (next j) h gs e h' → e ≠ .eoi → InTurn next (some j :: js) h gs e h'
  | next {j js h gs gs' e h1 h'} : Ends (next j) h gs .eoi h1 → InTurn next js h1 gs' e h' → InTurn next (some j :: js) h (gs ++ gs') e h'

/-- f is called once per call of Next with the last value it returned; a panic does not change that value. -/
def iterSpec (f : Fn P φ α α) : Nat → α → φ → List (Except P α) × φ
  | 0, _, c => ([], c)
  | n + 1, acc, c =>
    match (f acc c).1 with
    | .ok u => (.ok u :: (iterSpec f n u (f acc c).2).1, (iterSpec f n u (f acc c).2).2)
    | .error p => (.error p :: (iterSpec f n acc (f acc c).2).1, (iterSpec f n acc (f acc c).2).2)

/-- The values not seen before, and the panics. -/
def distinctSpec [DecidableEq α] : List α → List (Except P α) → List (Except P α)
  | _, [] => []
  | seen, .error p :: gs => .error p :: distinctSpec seen gs
  | seen, .ok v :: gs => if v ∈ seen then distinctSpec seen gs else .ok v :: distinctSpec (v :: seen) gs

/-- The values seen exactly once before, and the panics. -/
def duplicateSpec [DecidableEq α] : List α → List (Except P α) → List (Except P α)
  | _, [] => []
  | seen, .error p :: gs => .error p :: duplicateSpec seen gs
  | seen, .ok v :: gs => if seen.count v = 1 then .ok v :: duplicateSpec (v :: seen) gs else duplicateSpec (v :: seen) gs

/-! ### ExpandSlices -/

/-- What the first Next of an iterator makes of the result of its function. -/
private def fresh {ℓ : Type} : Option (Got P α × (ℓ × η)) → Option (Got P α × (It ℓ α × η))
  | none => none
  | some (.val v, (l', h')) => some (.val v, (ofIter l', h'))
  | some (.err e, (_, h')) => some (.err e, (stopped e, h'))
  | some (.panic p, (l', h')) => some (.panic p, (ofIter l', h'))

private theorem nextP_fresh' {ℓ : Type} (call : PCall P (ℓ × η) α) (l : ℓ) (h : η) : nextP call (ofIter l, h) = fresh (call (l, h)) := by
  rw [nextP_fresh]
  rcases call (l, h) with _ | ⟨_ | _ | _, _, _⟩ <;> rfl

/-- The condition of `StuckAt`, along the list: `started` says whether an element has been delivered, `empty` whether the last slice was empty. -/
private def Fine : Bool → Bool → List (Except P (Option (List α))) → Prop
  | _, _, [] => True
  | started, empty, .error _ :: gs => ¬ (started = true ∧ empty = true) ∧ Fine started false gs
  | started, _, .ok none :: gs => Fine started false gs
  | started, _, .ok (some []) :: gs => Fine started true gs
  | _, _, .ok (some (_ :: _)) :: gs => Fine true false gs

private theorem fine_of (gs : List (Except P (Option (List α)))) : ∀ (pre : List (Except P (Option (List α)))) (started empty : Bool),
    (started = true → ∃ l, .ok (some l) ∈ pre ∧ l ≠ []) →
    (empty = true → ∃ a, pre = a ++ [.ok (some [])] ∧ (started = true → ∃ l, .ok (some l) ∈ a ∧ l ≠ [])) →
    (∀ a, ¬ StuckAt a (pre ++ gs)) → Fine started empty gs := by
  induction gs with
  | nil => intro _ _ _ _ _ _; exact True.intro
  | cons g gs ih =>
    intro pre started empty hs he hg
    have hg' : ∀ a, ¬ StuckAt a ((pre ++ [g]) ++ gs) := by simpa using hg
    have up : started = true → ∃ l, Except.ok (some l) ∈ pre ++ [g] ∧ l ≠ [] := fun h => by
      obtain ⟨l, h1, h2⟩ := hs h
      exact ⟨l, by simp [h1], h2⟩
    match g with
    | .error p =>
      refine ⟨?_, ih _ _ _ up (by simp) hg'⟩
      rintro ⟨h1, h2⟩
      obtain ⟨a, ha, hl⟩ := he h2
      exact hg a ⟨p, gs, by simp [ha], hl h1⟩
    | .ok none => exact ih _ _ _ up (by simp) hg'
    | .ok (some []) => exact ih _ _ _ up (fun _ => ⟨pre, rfl, hs⟩) hg'
    | .ok (some (x :: l)) => exact ih _ _ _ (fun _ => ⟨x :: l, by simp, by simp⟩) (by simp) hg'

/-- The first call gives what the search gives, further calls go on from there. -/
private def starts (oor : Nat → Nat → P) (nx : PCall P σ (Option (List α))) (st : It (Option (List α) × Nat) α × σ) (slc : Option (List α)) (idx : Nat) (s : σ) : Prop :=
  nextP (expandSlicesP oor nx) st = fresh (searchSliceP oor nx slc idx s)

private theorem starts_clean (oor : Nat → Nat → P) (nx : PCall P σ (Option (List α))) (slc : Option (List α)) (idx : Nat) (s : σ)
    (h : ∀ l, slc = some l → idx = l.length) : starts oor nx (ofIter (slc, idx), s) none idx s := by
  simp only [starts, nextP_fresh', expandSlicesP]
  cases slc with
  | none => rfl
  | some l => simp [h l rfl]

private theorem expand_deliver (oor : Nat → Nat → P) (nx : PCall P σ (Option (List α))) (s s' : σ) (outs : List (Except P α)) (e : Err) (l : List α)
    (h : Ends (nextP (expandSlicesP oor nx)) (ofIter (some l, l.length), s) outs e (stopped e, s')) :
    ∀ n idx, l.length - idx = n → idx ≤ l.length →
      Ends (nextP (expandSlicesP oor nx)) (ofIter (some l, idx), s) ((l.drop idx).map .ok ++ outs) e (stopped e, s') := by
  intro n
  induction n with
  | zero =>
    intro idx h1 h2
    have : idx = l.length := by omega
    subst this
    simpa using h
  | succ n ih =>
    intro idx h1 h2
    have hlt : idx < l.length := by omega
    rw [List.drop_eq_getElem_cons hlt]
    refine .val ?_ (ih (idx + 1) (by omega) (by omega))
    rw [nextP_fresh]
    simp [expandSlicesP, deliverP, hlt, Nat.ne_of_lt hlt]

private theorem expand_all (oor : Nat → Nat → P) (nx : PCall P σ (Option (List α))) (s s' : σ) (gs : List (Except P (Option (List α)))) (e : Err)
    (h : Ends nx s gs e s') : ∀ (slc : Option (List α)) (idx : Nat) (started empty : Bool) (st : It (Option (List α) × Nat) α × σ),
    (started = false → idx = 0) → slc = (if empty then some [] else none) → Fine started empty gs → starts oor nx st slc idx s →
    Ends (nextP (expandSlicesP oor nx)) st (expandSpec gs) e (stopped e, s') := by
  induction h with
  | stop hn =>
    intro slc idx started empty st _ _ _ hst
    rw [starts, searchSliceP, hn] at hst
    exact .stop hst
  | @panic s s1 s' p gs e hn _ ih =>
    intro slc idx started empty st hi hs hf hst
    rw [starts, searchSliceP, hn] at hst
    refine .panic hst (ih none idx started false _ hi rfl hf.2 (starts_clean oor nx slc idx s1 ?_))
    intro l hl
    cases empty with
    | false => simp [hs] at hl
    | true =>
      have hn : started = false := by cases started <;> simp_all [Fine]
      rw [hs] at hl
      cases hl
      simp [hi hn]
  | @val s s1 s' v gs e hn _ ih =>
    intro slc idx started empty st hi hs hf hst
    match v with
    | none =>
      refine ih none idx started false st hi rfl hf ?_
      rw [starts] at hst ⊢
      rw [hst]
      conv => lhs; rw [searchSliceP, hn]
    | some [] =>
      refine ih (some []) idx started true st hi rfl hf ?_
      rw [starts] at hst ⊢
      rw [hst]
      conv => lhs; rw [searchSliceP, hn]
      simp
    | some (x :: l) =>
      have hst' : nextP (expandSlicesP oor nx) st = some (.val x, (ofIter (some (x :: l), 1), s1)) := by
        rw [starts, searchSliceP, hn] at hst
        simpa [deliverP, fresh] using hst
      have k := ih none (x :: l).length true false (ofIter (some (x :: l), (x :: l).length), s1) (by simp) rfl hf
        (starts_clean oor nx _ _ s1 (fun m hm => by cases hm; rfl))
      have := expand_deliver oor nx s1 s' _ e (x :: l) k _ 1 rfl (by simp)
      exact .val hst' (by simpa using this)

/-- C143, partial: ExpandSlices gives the elements of the slices of its source in order and passes the panics of the source on, unless the source
panics right after an empty slice that is not nil when there were elements before: then it does not go on (`c143_expandSlices_stuck`). -/
theorem c143_expandSlices_partial (oor : Nat → Nat → P) (nx : PCall P σ (Option (List α))) (s s' : σ) (gs : List (Except P (Option (List α)))) (e : Err)
    (h : Ends nx s gs e s') (hg : ∀ a, ¬ StuckAt a gs) :
    Ends (nextP (expandSlicesP oor nx)) (ofIter (none, 0), s) (expandSpec gs) e (stopped e, s') :=
  expand_all oor nx s s' gs e h none 0 false false _ (fun _ => rfl) rfl (fine_of gs [] false false (by simp) (by simp) (by simpa using hg))
    (starts_clean oor nx none 0 s (by simp))

/-- Calls that gave these results and left this state. -/
inductive Gave (nx : PCall P σ α) : σ → List (Except P α) → σ → Prop where
  | nil {s} : Gave nx s [] s
  | val {s s1 s' v gs} : nx s = some (.val v, s1) → Gave nx s1 gs s' → Gave nx s (.ok v :: gs) s'
  | panic {s s1 s' p gs} : nx s = some (.panic p, s1) → Gave nx s1 gs s' → Gave nx s (.error p :: gs) s'

theorem Gave.append {nx : PCall P σ α} {s s1 s' : σ} {gs gs' : List (Except P α)} (h : Gave nx s gs s1) (h' : Gave nx s1 gs' s') :
    Gave nx s (gs ++ gs') s' := by
  induction h with
  | nil => exact h'
  | val hn _ ih => exact .val hn (ih h')
  | panic hn _ ih => exact .panic hn (ih h')

theorem Ends.split {nx : PCall P σ α} (a : List (Except P α)) : ∀ {s s' : σ} {b : List (Except P α)} {e : Err}, Ends nx s (a ++ b) e s' →
    ∃ t, Gave nx s a t ∧ Ends nx t b e s' := by
  induction a with
  | nil => intro s s' b e h; exact ⟨s, .nil, h⟩
  | cons g a ih =>
    intro s s' b e h
    cases h with
    | val hn h => obtain ⟨t, h1, h2⟩ := ih h; exact ⟨t, .val hn h1, h2⟩
    | panic hn h => obtain ⟨t, h1, h2⟩ := ih h; exact ⟨t, .panic hn h1, h2⟩

theorem Gave.ends {nx : PCall P σ α} {s t s' : σ} {a b : List (Except P α)} {e : Err} (h : Gave nx s a t) (h' : Ends nx t b e s') :
    Ends nx s (a ++ b) e s' := by
  induction h with
  | nil => exact h'
  | val hn _ ih => exact .val hn (ih h')
  | panic hn _ ih => exact .panic hn (ih h')

private theorem fine_append (a b : List (Except P (Option (List α)))) : ∀ started empty, Fine started empty (a ++ b) → Fine started empty a := by
  induction a with
  | nil => intros; exact True.intro
  | cons g a ih =>
    intro started empty h
    match g with
    | .error p => exact ⟨h.1, ih _ _ h.2⟩
    | .ok none => exact ih _ _ h
    | .ok (some []) => exact ih started true h
    | .ok (some (x :: l)) => exact ih true false h

/-- The values delivered while the source gives `a` without getting stuck, and where this leaves ExpandSlices: either searching (in one call that has
not returned yet), or between calls. -/
private theorem expand_upto (oor : Nat → Nat → P) (nx : PCall P σ (Option (List α))) (a : List (Except P (Option (List α)))) :
    ∀ (s t : σ), Gave nx s a t → ∀ (slc : Option (List α)) (idx : Nat) (started empty : Bool) (st : It (Option (List α) × Nat) α × σ),
    (started = false → idx = 0) → (started = true → idx ≠ 0) → slc = (if empty then some [] else none) → Fine started empty a → starts oor nx st slc idx s →
    ∃ slc' idx' st', Gave (nextP (expandSlicesP oor nx)) st (expandSpec a) st' ∧ starts oor nx st' slc' idx' t ∧
      ((started = true ∨ ∃ l, .ok (some l) ∈ a ∧ l ≠ []) → idx' ≠ 0) := by
  intro s t h
  induction h with
  | nil =>
    intro slc idx started empty st hi hi' hs hf hst
    exact ⟨slc, idx, st, .nil, hst, fun h => h.elim hi' (fun ⟨_, h, _⟩ => absurd h (by simp))⟩
  | @panic s s1 t p a hn _ ih =>
    intro slc idx started empty st hi hi' hs hf hst
    have hst' : nextP (expandSlicesP oor nx) st = some (.panic p, (ofIter (slc, idx), s1)) := by
      rw [starts, searchSliceP, hn] at hst
      exact hst
    have hc : starts oor nx (ofIter (slc, idx), s1) none idx s1 := starts_clean oor nx slc idx s1 (by
      intro l hl
      cases empty with
      | false => simp [hs] at hl
      | true =>
        have hn : started = false := by cases started <;> simp_all [Fine]
        rw [hs] at hl
        cases hl
        simp [hi hn])
    obtain ⟨slc', idx', st', g1, g2, g3⟩ := ih none idx started false _ hi hi' rfl hf.2 hc
    exact ⟨slc', idx', st', .panic hst' g1, g2, fun h => g3 (h.imp id (by simp))⟩
  | @val s s1 t v a hn _ ih =>
    intro slc idx started empty st hi hi' hs hf hst
    match v with
    | none =>
      obtain ⟨slc', idx', st', g1, g2, g3⟩ := ih none idx started false st hi hi' rfl hf (by
        rw [starts] at hst ⊢
        rw [hst]
        conv => lhs; rw [searchSliceP, hn])
      exact ⟨slc', idx', st', g1, g2, fun h => g3 (h.imp id (by simp))⟩
    | some [] =>
      obtain ⟨slc', idx', st', g1, g2, g3⟩ := ih (some []) idx started true st hi hi' rfl hf (by
        rw [starts] at hst ⊢
        rw [hst]
        conv => lhs; rw [searchSliceP, hn]
        simp)
      refine ⟨slc', idx', st', g1, g2, fun h => g3 (h.imp id ?_)⟩
      rintro ⟨l, hl, hne⟩
      simp only [List.mem_cons, Except.ok.injEq, Option.some.injEq] at hl
      rcases hl with rfl | hl
      · exact absurd rfl hne
      · exact ⟨l, hl, hne⟩
    | some (x :: l) =>
      have hst' : nextP (expandSlicesP oor nx) st = some (.val x, (ofIter (some (x :: l), 1), s1)) := by
        rw [starts, searchSliceP, hn] at hst
        simpa [deliverP, fresh] using hst
      obtain ⟨slc', idx', st', g1, g2, g3⟩ := ih none (x :: l).length true false (ofIter (some (x :: l), (x :: l).length), s1) (by simp) (by simp) rfl hf
        (starts_clean oor nx _ _ s1 (fun m hm => by cases hm; rfl))
      have dl : ∀ n idx, (x :: l).length - idx = n → idx ≤ (x :: l).length →
          Gave (nextP (expandSlicesP oor nx)) (ofIter (some (x :: l), idx), s1) (((x :: l).drop idx).map .ok ++ expandSpec a) st' := by
        intro n
        induction n with
        | zero =>
          intro idx h1 h2
          have : idx = (x :: l).length := by omega
          subst this
          simpa using g1
        | succ n ihn =>
          intro idx h1 h2
          have hlt : idx < (x :: l).length := by omega
          rw [List.drop_eq_getElem_cons hlt]
          refine .val ?_ (ihn (idx + 1) (by omega) (by omega))
          rw [nextP_fresh]
          simp only [expandSlicesP, deliverP, if_neg (Nat.ne_of_lt hlt), List.getElem?_eq_getElem hlt]
      exact ⟨slc', idx', st', .val hst' (by simpa using dl _ 1 rfl (by simp)), g2, fun _ => g3 (.inl rfl)⟩

/-- C143: where ExpandSlices gets stuck: at the first place where the source panics right after an empty slice that is not nil, with elements before.
Up to there everything is right; after it every call of Next panics with an index out of range, forever, without reading the source. -/
theorem c143_expandSlices_stuck (oor : Nat → Nat → P) (nx : PCall P σ (Option (List α))) (s s' : σ) (a b : List (Except P (Option (List α)))) (p : P) (e : Err)
    (h : Ends nx s (a ++ .ok (some []) :: .error p :: b) e s') (hl : ∃ l, .ok (some l) ∈ a ∧ l ≠ []) (hg : ∀ a', ¬ StuckAt a' a) :
    ∃ t i, i ≠ 0 ∧ Ends nx t b e s' ∧ ∀ n, Gave (nextP (expandSlicesP oor nx)) (ofIter (none, 0), s)
      (expandSpec a ++ .error p :: List.replicate n (.error (oor i 0))) (ofIter (some [], i), t) := by
  obtain ⟨t0, h1, h2⟩ := Ends.split a h
  obtain ⟨slc, idx, st, g1, g2, g3⟩ := expand_upto oor nx a s t0 h1 none 0 false false _ (fun _ => rfl) (by simp) rfl
    (fine_of a [] false false (by simp) (by simp) (by simpa using hg)) (starts_clean oor nx none 0 s (by simp))
  cases h2 with
  | @val _ t1 _ _ _ _ hn1 h2 =>
    cases h2 with
    | @panic _ t2 _ _ _ _ hn2 h2 =>
      have hidx := g3 (.inr hl)
      refine ⟨t2, idx, hidx, h2, fun n => g1.append (.panic (s1 := (ofIter (some [], idx), t2)) ?_ ?_)⟩
      · rw [g2, searchSliceP, hn1]
        simp only [List.length_nil, Nat.lt_irrefl, gt_iff_lt, if_false]
        rw [searchSliceP, hn2]; rfl
      · induction n with
        | zero => exact .nil
        | succ n ih =>
          refine .panic ?_ ih
          rw [nextP_fresh]
          simp [expandSlicesP, deliverP, hidx]

/-- C143 is false for ExpandSlices: after a panic of the source it does not go on with the next slice. -/
theorem c143_expandSlices_refuted : ¬ ∀ (oor : Nat → Nat → String) (gs : List (Except String (Option (List Nat)))),
    Ends (nextP (expandSlicesP oor listP)) (ofIter (none, 0), gs) (expandSpec gs) .eoi (stopped .eoi, []) := by
  intro h
  have := h (fun _ _ => "index out of range") [.ok (some [1]), .ok (some []), .error "source", .ok (some [2])]
  obtain ⟨t, i, _, _, hg⟩ := c143_expandSlices_stuck (fun _ _ => "index out of range") listP _ _ [.ok (some [1])] [.ok (some [2])] "source" .eoi
    (listP_ends [.ok (some [1]), .ok (some []), .error "source", .ok (some [(2 : Nat)])]) ⟨[1], by simp, by simp⟩
    (by rintro a' ⟨q, b, hb, _⟩; have := congrArg List.length hb; simp at this; omega)
  have hg := hg 1
  simp only [expandSpec, List.map_cons, List.map_nil, List.nil_append, List.cons_append, List.replicate] at this hg
  cases this with
  | val k1 this =>
    cases hg with
    | val k1' hg =>
      rw [k1] at k1'
      cases k1'
      cases this with
      | panic k2 this =>
        cases hg with
        | panic k2' hg =>
          rw [k2] at k2'
          cases k2'
          cases this with
          | val k3 _ =>
            cases hg with
            | panic k3' _ =>
              rw [k3] at k3'
              cases k3'

example : Ends (nextP (expandSlicesP (fun _ _ => "index out of range") listP)) (ofIter (none, 0), [.ok (some []), .error "source", .ok (some [1, 2]), .ok none, .error "again", .ok (some [3])])
    [.error "source", .ok 1, .ok 2, .error "again", .ok 3] .eoi (stopped .eoi, []) :=
  c143_expandSlices_partial _ listP _ _ _ _ (listP_ends [.ok (some []), .error "source", .ok (some [1, 2]), .ok none, .error "again", .ok (some [3])])
    (by
      rintro a ⟨p, b, hb, l, hl, hne⟩
      match a, hb with
      | [], hb => simp at hl
      | [_], hb => simp at hb
      | [_, _], hb => simp at hb
      | [_, _, _], hb => simp at hb
      | [_, _, _, _], hb => simp at hb
      | [_, _, _, _, _], hb => simp at hb
      | _ :: _ :: _ :: _ :: _ :: _ :: _, hb => have := congrArg List.length hb; simp at this)

/-! ### ExpandMaps -/

private def MFine : Bool → List (Except P (Option (List ε))) → Prop
  | _, [] => True
  | empty, .error _ :: gs => empty = false ∧ MFine false gs
  | _, .ok none :: gs => MFine false gs
  | _, .ok (some []) :: gs => MFine true gs
  | _, .ok (some (_ :: _)) :: gs => MFine false gs

private theorem mfine_of (gs : List (Except P (Option (List ε)))) : ∀ (pre : List (Except P (Option (List ε)))) (empty : Bool),
    (empty = true → ∃ a, pre = a ++ [.ok (some [])]) → (∀ a, ¬ MapStuckAt a (pre ++ gs)) → MFine empty gs := by
  induction gs with
  | nil => intro _ _ _ _; exact True.intro
  | cons g gs ih =>
    intro pre empty he hg
    have hg' : ∀ a, ¬ MapStuckAt a ((pre ++ [g]) ++ gs) := by simpa using hg
    match g with
    | .error p =>
      refine ⟨?_, ih _ _ (by simp) hg'⟩
      cases empty with
      | false => rfl
      | true =>
        obtain ⟨a, ha⟩ := he rfl
        exact absurd ⟨p, gs, by simp [ha]⟩ (hg a)
    | .ok none => exact ih _ false (by simp) hg'
    | .ok (some []) => exact ih _ true (fun _ => ⟨pre, rfl⟩) hg'
    | .ok (some (x :: l)) => exact ih _ false (by simp) hg'

private def mstarts (exh : P) (conv : ε → Except P γ) (nx : PCall P σ (Option (List ε))) (st : It (Option (MapIt ε)) γ × σ) (m : Option (MapIt ε)) (s : σ) : Prop :=
  nextP (expandMapsP exh conv nx) st = fresh (searchMapP conv nx m s)

private theorem mstarts_nil (exh : P) (conv : ε → Except P γ) (nx : PCall P σ (Option (List ε))) (s : σ) :
    mstarts exh conv nx (ofIter none, s) none s := by
  simp only [mstarts, nextP_fresh', expandMapsP]

private theorem mstarts_done (exh : P) (conv : ε → Except P γ) (nx : PCall P σ (Option (List ε))) (s : σ) :
    mstarts exh conv nx (ofIter (some ⟨[], false⟩), s) none s := by
  simp [mstarts, nextP_fresh', expandMapsP]

private theorem maps_deliver (exh : P) (conv : ε → Except P γ) (nx : PCall P σ (Option (List ε))) (s : σ) (st' : It (Option (MapIt ε)) γ × σ)
    (outs : List (Except P γ)) (h : Gave (nextP (expandMapsP exh conv nx)) (ofIter (some ⟨[], false⟩), s) outs st') (l : List ε) :
    Gave (nextP (expandMapsP exh conv nx)) (ofIter (some ⟨l, false⟩), s) (l.map conv ++ outs) st' := by
  induction l with
  | nil => simpa using h
  | cons x l ih =>
    simp only [List.map_cons, List.cons_append]
    cases hc : conv x with
    | ok v => exact .val (by rw [nextP_fresh']; simp [expandMapsP, deliverEntryP, hc, fresh]) ih
    | error p => exact .panic (by rw [nextP_fresh']; simp [expandMapsP, deliverEntryP, hc, fresh]) ih

private theorem maps_upto (exh : P) (conv : ε → Except P γ) (nx : PCall P σ (Option (List ε))) (s t : σ) (a : List (Except P (Option (List ε))))
    (h : Gave nx s a t) : ∀ (m : Option (MapIt ε)) (empty : Bool) (st : It (Option (MapIt ε)) γ × σ),
    m = (if empty then some ⟨[], true⟩ else none) → MFine empty a → mstarts exh conv nx st m s →
    ∃ m' st', Gave (nextP (expandMapsP exh conv nx)) st (expandMapsSpec conv a) st' ∧ mstarts exh conv nx st' m' t := by
  induction h with
  | nil => intro m empty st _ _ hst; exact ⟨m, st, .nil, hst⟩
  | @panic s s1 t p a hn _ ih =>
    intro m empty st hm hf hst
    have he : empty = false := hf.1
    subst he
    have hm : m = none := by simpa using hm
    subst hm
    have hst' : nextP (expandMapsP exh conv nx) st = some (.panic p, (ofIter none, s1)) := by
      rw [mstarts, searchMapP, hn] at hst
      exact hst
    obtain ⟨m', st', g1, g2⟩ := ih none false _ rfl hf.2 (mstarts_nil exh conv nx s1)
    exact ⟨m', st', .panic hst' g1, g2⟩
  | @val s s1 t v a hn _ ih =>
    intro m empty st hm hf hst
    match v with
    | none =>
      exact ih none false st rfl hf (by
        rw [mstarts] at hst ⊢
        rw [hst]
        conv => lhs; rw [searchMapP, hn])
    | some [] =>
      exact ih (some ⟨[], true⟩) true st rfl hf (by
        rw [mstarts] at hst ⊢
        rw [hst]
        conv => lhs; rw [searchMapP, hn])
    | some (x :: l) =>
      obtain ⟨m', st', g1, g2⟩ := ih none false (ofIter (some ⟨[], false⟩), s1) rfl hf (mstarts_done exh conv nx s1)
      have k := maps_deliver exh conv nx s1 st' _ g1 l
      rw [mstarts, searchMapP, hn] at hst
      simp only [expandMapsSpec, List.map_cons, List.cons_append]
      cases hc : conv x with
      | ok v => exact ⟨m', st', .val (by rw [hst]; simp [deliverEntryP, hc, fresh]) k, g2⟩
      | error p => exact ⟨m', st', .panic (by rw [hst]; simp [deliverEntryP, hc, fresh]) k, g2⟩

private theorem Ends.gave {nx : PCall P σ α} {s s' : σ} {gs : List (Except P α)} {e : Err} (h : Ends nx s gs e s') :
    ∃ t, Gave nx s gs t ∧ nx t = some (.err e, s') := by
  obtain ⟨t, h1, h2⟩ := Ends.split gs (b := []) (by simpa using h)
  cases h2 with
  | stop hn => exact ⟨t, h1, hn⟩

/-- C143, partial: ExpandMaps gives the entries of the maps of its source in order, with a panic for an entry that cannot be made a tuple (the next call
goes on with the next entry), and passes the panics of the source on, unless the source panics right after an empty map that is not nil: then it does
not go on (`c143_expandMaps_stuck`). -/
theorem c143_expandMaps_partial (exh : P) (conv : ε → Except P γ) (nx : PCall P σ (Option (List ε))) (s s' : σ) (gs : List (Except P (Option (List ε)))) (e : Err)
    (h : Ends nx s gs e s') (hg : ∀ a, ¬ MapStuckAt a gs) :
    Ends (nextP (expandMapsP exh conv nx)) (ofIter none, s) (expandMapsSpec conv gs) e (stopped e, s') := by
  obtain ⟨t, h1, h2⟩ := h.gave
  obtain ⟨m, st, g1, g2⟩ := maps_upto exh conv nx s t gs h1 none false _ rfl (mfine_of gs [] false (by simp) (by simpa using hg)) (mstarts_nil exh conv nx s)
  have : Ends (nextP (expandMapsP exh conv nx)) st [] e (stopped e, s') := .stop (by rw [g2, searchMapP, h2]; rfl)
  simpa using g1.ends this

/-- C143: where ExpandMaps gets stuck: at the first place where the source panics right after an empty map that is not nil. Up to there everything is
right; after it every call of Next panics (MapIter.Next called on an exhausted iterator), forever, without reading the source. -/
theorem c143_expandMaps_stuck (exh : P) (conv : ε → Except P γ) (nx : PCall P σ (Option (List ε))) (s s' : σ) (a b : List (Except P (Option (List ε)))) (p : P)
    (e : Err) (h : Ends nx s (a ++ .ok (some []) :: .error p :: b) e s') (hg : ∀ a', ¬ MapStuckAt a' a) :
    ∃ t, Ends nx t b e s' ∧ ∀ n, Gave (nextP (expandMapsP exh conv nx)) (ofIter none, s)
      (expandMapsSpec conv a ++ .error p :: List.replicate n (.error exh)) (ofIter (some ⟨[], true⟩), t) := by
  obtain ⟨t0, h1, h2⟩ := Ends.split a h
  obtain ⟨m, st, g1, g2⟩ := maps_upto exh conv nx s t0 a h1 none false _ rfl (mfine_of a [] false (by simp) (by simpa using hg)) (mstarts_nil exh conv nx s)
  cases h2 with
  | @val _ t1 _ _ _ _ hn1 h2 =>
    cases h2 with
    | @panic _ t2 _ _ _ _ hn2 h2 =>
      refine ⟨t2, h2, fun n => g1.append (.panic (s1 := (ofIter (some ⟨[], true⟩), t2)) ?_ ?_)⟩
      · rw [g2, searchMapP, hn1]
        simp only
        rw [searchMapP, hn2]; rfl
      · induction n with
        | zero => exact .nil
        | succ n ih =>
          refine .panic ?_ ih
          rw [nextP_fresh']
          simp [expandMapsP, fresh]

/-- C143 is false for ExpandMaps: after a panic of the source it does not go on with the next map. -/
theorem c143_expandMaps_refuted : ¬ ∀ (exh : String) (gs : List (Except String (Option (List (Nat × Nat))))),
    Ends (nextP (expandMapsP exh .ok listP)) (ofIter none, gs) (expandMapsSpec .ok gs) .eoi (stopped .eoi, []) := by
  intro h
  have := h "exhausted" [.ok (some []), .error "source", .ok (some [(2, 2)])]
  obtain ⟨t, _, hg⟩ := c143_expandMaps_stuck (γ := Nat × Nat) "exhausted" .ok listP _ _ [] [.ok (some [(2, 2)])] "source" .eoi
    (listP_ends [.ok (some []), .error "source", .ok (some [((2, 2) : Nat × Nat)])])
    (by rintro a' ⟨q, b, hb⟩; have := congrArg List.length hb; simp at this)
  have hg := hg 1
  simp only [expandMapsSpec, List.map_cons, List.map_nil, List.nil_append, List.cons_append, List.replicate] at this hg
  cases this with
  | panic k2 this =>
    cases hg with
    | panic k2' hg =>
      rw [k2] at k2'
      cases k2'
      cases this with
      | val k3 _ =>
        cases hg with
        | panic k3' _ =>
          rw [k3] at k3'
          cases k3'

/-- Values that are not nil. -/
private def notNil : Nat × Option Nat → Except String (Nat × Nat)
  | (k, some v) => .ok (k, v)
  | (_, none) => .error "nil"

example : Ends (nextP (expandMapsP "exhausted" notNil listP)) (ofIter none, [.ok (some [(1, some 1), (2, none), (3, some 3)]), .error "source", .ok (some []), .ok (some [(4, some 4)])])
    [.ok (1, 1), .error "nil", .ok (3, 3), .error "source", .ok (4, 4)] .eoi (stopped .eoi, []) :=
  c143_expandMaps_partial "exhausted" notNil listP _ _ _ _ (listP_ends [.ok (some [(1, some 1), (2, none), (3, some 3)]), .error "source", .ok (some []), .ok (some [(4, some 4)])])
    (by
      rintro a ⟨p, b, hb⟩
      match a, hb with
      | [], hb => simp at hb
      | [_], hb => simp at hb
      | [_, _], hb => simp at hb
      | _ :: _ :: _ :: _, hb => have := congrArg List.length hb; simp at this; omega)

/-! ### Concat and SetError -/

private theorem concat_source (zv : α) (next : ι → PCall P η α) (src : List (Option ι)) (i : Nat) (j : ι) (hj : src[i]? = some (some j)) (h h1 : η)
    (gs : List (Except P α)) (e : Err) (hE : Ends (next j) h gs e h1) :
    ∀ (st : It (Nat × Option ι × Option Err) α × η) (it : Option ι) (err : Option Err), (it = none ∨ it = some j) →
      nextP (concatP zv next src) st = fresh (concatLoopP zv next src i it err h) →
      ∃ st', Gave (nextP (concatP zv next src)) st gs st' ∧
        (e ≠ .eoi → nextP (concatP zv next src) st' = some (.err e, (stopped e, h1))) ∧
        (e = .eoi → nextP (concatP zv next src) st' = fresh (concatLoopP zv next src (i + 1) none (some .eoi) h1)) := by
  have hi : i < src.length := by
    rcases Nat.lt_or_ge i src.length with h | h
    · exact h
    · simp [List.getElem?_eq_none h] at hj
  have pick : ∀ it, (it = none ∨ it = some j) → curIter src i it = some j := by
    rintro it (rfl | rfl) <;> simp [curIter, hj]
  induction hE with
  | @stop h h1 e hn =>
    intro st it err hit hst
    refine ⟨st, .nil, fun he => ?_, fun he => ?_⟩
    · rw [hst, concatLoopP.eq_def]
      simp only [if_neg (Nat.ne_of_lt hi), pick it hit, hn, if_pos he, fresh]
    · rw [hst, concatLoopP.eq_def]
      simp only [if_neg (Nat.ne_of_lt hi), pick it hit, hn, he, ne_eq, not_true, if_false]
  | @val h h2 h1 v gs e hn _ ih =>
    intro st it err hit hst
    obtain ⟨st', g1, g2⟩ := ih (ofIter (i, some j, none), h2) (some j) none (.inr rfl) (by rw [nextP_fresh']; rfl)
    refine ⟨st', .val ?_ g1, g2⟩
    rw [hst, concatLoopP.eq_def]
    simp only [if_neg (Nat.ne_of_lt hi), pick it hit, hn, fresh]
  | @panic h h2 h1 p gs e hn _ ih =>
    intro st it err hit hst
    obtain ⟨st', g1, g2⟩ := ih (ofIter (i, some j, err), h2) (some j) err (.inr rfl) (by rw [nextP_fresh']; rfl)
    refine ⟨st', .panic ?_ g1, g2⟩
    rw [hst, concatLoopP.eq_def]
    simp only [if_neg (Nat.ne_of_lt hi), pick it hit, hn, fresh]

private theorem concat_all (zv : α) (next : ι → PCall P η α) (src js : List (Option ι)) (h h' : η) (gs : List (Except P α)) (e : Err)
    (hT : InTurn next js h gs e h') : ∀ (i : Nat) (st : It (Nat × Option ι × Option Err) α × η), src.drop i = js → i ≤ src.length →
      nextP (concatP zv next src) st = fresh (concatLoopP zv next src i none (some .eoi) h) →
      Ends (nextP (concatP zv next src)) st gs e (stopped e, h') := by
  have at' : ∀ {i : Nat} {x : Option ι} {js : List (Option ι)}, src.drop i = x :: js → src[i]? = some x ∧ src.drop (i + 1) = js ∧ i < src.length := by
    intro i x js hd
    have hi : i < src.length := by
      rcases Nat.lt_or_ge i src.length with h | h
      · exact h
      · simp [List.drop_eq_nil_of_le h] at hd
    rw [List.drop_eq_getElem_cons hi] at hd
    simp only [List.cons.injEq] at hd
    exact ⟨by rw [List.getElem?_eq_getElem hi, hd.1], hd.2, hi⟩
  induction hT with
  | @nil h =>
    intro i st hd hl hst
    have : i = src.length := by
      have := List.drop_eq_nil_iff.mp hd
      omega
    refine .stop ?_
    rw [hst, concatLoopP.eq_def]
    simp [this, fresh]
  | @skip js h gs e h' _ ih =>
    intro i st hd hl hst
    obtain ⟨h1, h2, h3⟩ := at' hd
    refine ih (i + 1) st h2 (by omega) ?_
    rw [hst]
    conv => lhs; rw [concatLoopP.eq_def]
    simp [Nat.ne_of_lt h3, curIter, h1]
  | @stop j js h gs e h' hE he =>
    intro i st hd hl hst
    obtain ⟨h1, h2, h3⟩ := at' hd
    obtain ⟨st', g1, g2, _⟩ := concat_source zv next src i j h1 h h' gs e hE st none (some .eoi) (.inl rfl) hst
    simpa using g1.ends (.stop (g2 he))
  | @next j js h gs gs' e h1 h' hE _ ih =>
    intro i st hd hl hst
    obtain ⟨k1, k2, k3⟩ := at' hd
    obtain ⟨st', g1, _, g3⟩ := concat_source zv next src i j k1 h h1 gs .eoi hE st none (some .eoi) (.inl rfl) hst
    exact g1.ends (ih (i + 1) st' k2 (by omega) (g3 rfl))

/-- C143: Concat over iterators that panic: the panics go through where they happen, and the next call goes on with the same iterator, until it ends;
nothing is skipped or read twice. -/
theorem c143_concat (zv : α) (next : ι → PCall P η α) (src : List (Option ι)) (h h' : η) (gs : List (Except P α)) (e : Err)
    (hT : InTurn next src h gs e h') : Ends (nextP (concatP zv next src)) (ofIter concatInit, h) gs e (stopped e, h') :=
  concat_all zv next src src h h' gs e hT 0 _ rfl (Nat.zero_le _) (by rw [nextP_fresh']; rfl)

/-- Two lists read by two iterators. -/
private def two : Bool → PCall String (List (Except String Nat) × List (Except String Nat)) Nat
  | false => onSource listP
  | true => fun (a, b) => match listP b with
    | none => none
    | some (g, b') => some (g, (a, b'))

private theorem two_false (gs b : List (Except String Nat)) : Ends (two false) (gs, b) gs .eoi ([], b) := by
  induction gs with
  | nil => exact .stop rfl
  | cons g gs ih =>
    cases g with
    | ok v => exact .val rfl ih
    | error p => exact .panic rfl ih

private theorem two_true (gs a : List (Except String Nat)) : Ends (two true) (a, gs) gs .eoi (a, []) := by
  induction gs with
  | nil => exact .stop rfl
  | cons g gs ih =>
    cases g with
    | ok v => exact .val rfl ih
    | error p => exact .panic rfl ih

example : Ends (nextP (concatP 0 two [some false, none, some true])) (ofIter concatInit, ([.ok 1, .error "first", .ok 2], [.error "second", .ok 3]))
    [.ok 1, .error "first", .ok 2, .error "second", .ok 3] .eoi (stopped .eoi, ([], [])) :=
  c143_concat 0 two _ _ _ _ _ (.next (two_false [.ok 1, .error "first", .ok 2] [.error "second", .ok 3]) (.skip (.next (two_true [.error "second", .ok 3] []) .nil)))

/-- C143: SetError passes panics on. -/
theorem c143_setError (err : Err) (nx : PCall P σ α) (s s' : σ) (gs : List (Except P α)) (e : Err) (h : Ends nx s gs e s') :
    Ends (nextP (setErrorP err nx)) (ofIter (), s) gs err (stopped err, s') := by
  induction h with
  | stop hn => exact .stop (by simp [nextP_fresh, setErrorP, hn])
  | val hn _ ih => exact .val (by simp [nextP_fresh, setErrorP, hn]) ih
  | panic hn _ ih => exact .panic (by simp [nextP_fresh, setErrorP, hn]) ih

example := c143_setError .overflow listP _ _ _ _ (listP_ends [.ok 1, .error "source", .ok (2 : Nat)])

/-! ### InfiniteIterGen -/

/-- C143: an iterator from InfiniteIterGen yields all but the last of the initial values without calling the function. Then every call of Next calls the
function exactly once, with the value it returned last (at first the last initial value, or the zero value if there are none); if it panics the next
call tries again with the same value. -/
theorem c143_infinite (zv : α) (initial : List α) (f : Fn P φ α α) (n : Nat) (c : φ) :
    ∃ l, Gave (nextP (infiniteP f)) (ofIter (infiniteInit zv initial), c)
      (initial.dropLast.map .ok ++ (iterSpec f n (initial.getLast?.getD zv) c).1) (ofIter l, (iterSpec f n (initial.getLast?.getD zv) c).2) := by
  have go : ∀ n (acc : α) (c : φ), ∃ l, Gave (nextP (infiniteP f)) (ofIter ([], acc), c) (iterSpec f n acc c).1 (ofIter l, (iterSpec f n acc c).2) := by
    intro n
    induction n with
    | zero => intro acc c; exact ⟨_, .nil⟩
    | succ n ih =>
      intro acc c
      simp only [iterSpec]
      rcases hf : f acc c with ⟨p | u, c'⟩
      · obtain ⟨l, k⟩ := ih acc c'
        exact ⟨l, .panic (by simp [nextP_fresh, infiniteP, hf]) k⟩
      · obtain ⟨l, k⟩ := ih u c'
        exact ⟨l, .val (by simp [nextP_fresh, infiniteP, hf]) k⟩
  have lits : ∀ (ls : List α) (acc : α), Gave (nextP (infiniteP f)) (ofIter (ls, acc), c) (ls.map .ok) (ofIter ([], acc), c) := by
    intro ls acc
    induction ls with
    | nil => exact .nil
    | cons v ls ih => exact .val (by simp [nextP_fresh, infiniteP]) ih
  obtain ⟨l, k⟩ := go n (initial.getLast?.getD zv) c
  exact ⟨l, (lits _ _).append k⟩

/-- Doubles, and counts its calls; panics at every third call. -/
private def flaky : Fn String Nat Nat Nat := fun v c => (if c % 3 = 2 then .error "third" else .ok (v * 2), c + 1)

example : ∃ l, Gave (nextP (infiniteP flaky)) (ofIter (infiniteInit 0 [7, 5]), 0) [.ok 7, .ok 10, .ok 20, .error "third", .ok 40] (ofIter l, 4) :=
  c143_infinite 0 [7, 5] flaky 4 0

/-! ### ReduceIntoSlice -/

private theorem into_prefix (zv : α) (oor : Nat → Nat → P) (nx : PCall P σ α) (vs : List α) : ∀ (s t : σ) (pre slc : List α), Gave nx s (vs.map .ok) t →
    vs.length ≤ slc.length →
    intoLoopP zv oor nx pre.length s (pre ++ slc) = intoLoopP zv oor nx (pre.length + vs.length) t (pre ++ vs ++ slc.drop vs.length) := by
  induction vs with
  | nil =>
    intro s t pre slc h _
    cases h with
    | nil => simp
  | cons v vs ih =>
    intro s t pre slc h hl
    cases h with
    | @val _ s1 _ _ _ hn h =>
      cases slc with
      | nil => simp at hl
      | cons x slc =>
        rw [intoLoopP, hn]
        have hlt : pre.length < (pre ++ x :: slc).length := by simp
        simp only [hlt, if_true]
        have := ih s1 t (pre ++ [v]) slc h (by simpa using hl)
        simp only [List.length_append, List.length_cons, List.length_nil, Nat.zero_add, List.append_assoc, List.cons_append, List.nil_append] at this
        have e1 : (pre ++ x :: slc).set pre.length v = pre ++ v :: slc := by simp
        rw [e1, this]
        simp [Nat.add_assoc, Nat.add_comm 1]

/-- C143: ReduceIntoSlice over a source that gives the values vs first. (1) At the end of the source the values are at the start of the slice and the rest
of it is as it was; after an error of the source all elements are zero. (2) If the source panics the values read so far are in the slice. (3) If
there is a value too many, the slice is full of the values before it, that value has been read, and the call panics. After any of these, Next returns
EOI and neither the source nor the slice is touched (4). -/
theorem c143_intoSlice (zv : α) (oor : Nat → Nat → P) (nx : PCall P σ α) (s s' : σ) (slc vs : List α) (e : Err) :
    (Ends nx s (vs.map .ok) e s' → vs.length ≤ slc.length →
      nextP (reduceIntoSliceP zv oor nx) (ofIter (false, 0), (s, slc)) =
        if e = .eoi then some (.val (vs ++ slc.drop vs.length), (ofIter (true, vs.length), (s', vs ++ slc.drop vs.length)))
        else some (.err e, (stopped e, (s', List.replicate slc.length zv)))) ∧
    (∀ p gs, Ends nx s (vs.map .ok ++ .error p :: gs) e s' → vs.length ≤ slc.length → ∃ t, Ends nx t gs e s' ∧
      nextP (reduceIntoSliceP zv oor nx) (ofIter (false, 0), (s, slc)) = some (.panic p, (ofIter (true, vs.length), (t, vs ++ slc.drop vs.length)))) ∧
    (∀ v gs, Ends nx s (vs.map .ok ++ .ok v :: gs) e s' → vs.length = slc.length → ∃ t, Ends nx t gs e s' ∧
      nextP (reduceIntoSliceP zv oor nx) (ofIter (false, 0), (s, slc)) = some (.panic (oor vs.length vs.length), (ofIter (true, vs.length), (t, vs)))) ∧
    (∀ i, nextP (reduceIntoSliceP zv oor nx) (ofIter (true, i), (s, slc)) = some (.err .eoi, (stopped .eoi, (s, slc)))) := by
  have one : ∀ t, Gave nx s (vs.map .ok) t → vs.length ≤ slc.length →
      nextP (reduceIntoSliceP zv oor nx) (ofIter (false, 0), (s, slc)) = fresh (intoLoopP zv oor nx vs.length t (vs ++ slc.drop vs.length)) := by
    intro t h hl
    rw [nextP_fresh']
    have := into_prefix zv oor nx vs s t [] slc h hl
    simp only [List.length_nil, List.nil_append, Nat.zero_add] at this
    simp only [reduceIntoSliceP, Bool.false_eq_true, if_false, this]
  refine ⟨?_, ?_, ?_, fun _ => rfl⟩
  · intro h hl
    obtain ⟨t, h1, h2⟩ := h.gave
    rw [one t h1 hl, intoLoopP, h2]
    by_cases he : e = .eoi
    · simp [he, fresh]
    · simp only [he, if_false, fresh, Option.some.injEq, Prod.mk.injEq, true_and, List.map_const']
      rw [List.length_append, List.length_drop, Nat.add_sub_cancel' hl]
  · intro p gs h hl
    obtain ⟨t, h1, h2⟩ := Ends.split _ h
    cases h2 with
    | @panic _ t1 _ _ _ _ hn h3 => exact ⟨t1, h3, by rw [one t h1 hl, intoLoopP, hn]; rfl⟩
  · intro v gs h hl
    obtain ⟨t, h1, h2⟩ := Ends.split _ h
    cases h2 with
    | @val _ t1 _ _ _ _ hn h3 =>
      refine ⟨t1, h3, ?_⟩
      rw [one t h1 (by omega), intoLoopP, hn]
      simp [hl, fresh]

example : ∃ t, Ends listP t [.ok 3] .eoi [] ∧
    nextP (reduceIntoSliceP 0 (fun _ _ => "index out of range") listP) (ofIter (false, 0), ([.ok 1, .ok 2, .error "source", .ok 3], [8, 8, 8])) =
      some (.panic "source", (ofIter (true, 2), (t, [1, 2, 8]))) :=
  (c143_intoSlice 0 (fun _ _ => "index out of range") listP _ [] [8, 8, 8] [1, 2] .eoi).2.1 "source" [.ok 3]
    (listP_ends [.ok 1, .ok 2, .error "source", .ok 3]) (by simp)
example : ∃ t, Ends listP t [.ok 4] .eoi [] ∧
    nextP (reduceIntoSliceP 0 (fun _ _ => "index out of range") listP) (ofIter (false, 0), ([.ok 1, .ok 2, .ok 3, .ok 4], [8, 8])) =
      some (.panic "index out of range", (ofIter (true, 2), (t, [1, 2]))) :=
  (c143_intoSlice 0 (fun _ _ => "index out of range") listP _ [] [8, 8] [1, 2] .eoi).2.2.1 3 [.ok 4]
    (listP_ends [.ok 1, .ok 2, .ok 3, .ok 4]) (by simp)

/-! ### Distinct and Duplicate -/

private theorem distinct_spec [DecidableEq α] (gs : List (Except P α)) : ∀ (m : α → Bool) (seen : List α), (∀ v, m v = true ↔ v ∈ seen) →
    (filterSpec (distinctFn (P := P)) gs m).1 = distinctSpec seen gs := by
  induction gs with
  | nil => intros; rfl
  | cons g gs ih =>
    intro m seen hm
    cases g with
    | error p => simp [filterSpec, distinctSpec, ih m seen hm]
    | ok v =>
      by_cases hv : v ∈ seen
      · have h1 := (hm v).mpr hv
        simp [filterSpec, distinctSpec, distinctFn, h1, hv, ih m seen hm]
      · have h1 : m v = false := by
          cases h : m v
          · rfl
          · exact absurd ((hm v).mp h) hv
        simp only [filterSpec, distinctSpec, distinctFn, h1, hv, Bool.not_false, Bool.false_eq_true, if_false, List.cons.injEq, true_and]
        apply ih
        intro w
        by_cases hw : w = v
        · simp [hw]
        · simp [hw, hm w]

private theorem duplicate_spec [DecidableEq α] (gs : List (Except P α)) : ∀ (m : α → Nat) (seen : List α), (∀ v, m v = min (seen.count v) 3) →
    (filterSpec (duplicateFn (P := P)) gs m).1 = duplicateSpec seen gs := by
  induction gs with
  | nil => intros; rfl
  | cons g gs ih =>
    intro m seen hm
    cases g with
    | error p => simp [filterSpec, duplicateSpec, ih m seen hm]
    | ok v =>
      have hm' : ∀ w, (duplicateFn (P := P) v m).2 w = min ((v :: seen).count w) 3 := by
        intro w
        simp only [duplicateFn]
        by_cases hw : w = v
        · subst hw
          have := hm w
          by_cases h3 : m w < 3
          · simp only [h3, if_true, List.count_cons_self]; omega
          · simp only [h3, if_false, List.count_cons_self]; omega
        · have hc : (v :: seen).count w = seen.count w := by
            rw [List.count_cons_of_ne]
            exact fun h => hw h.symm
          rw [hc, ← hm w]
          by_cases h3 : m v < 3 <;> simp [h3, hw]
      have ih' := ih _ (v :: seen) hm'
      have hv := hm v
      simp only [filterSpec, duplicateSpec]
      by_cases h1 : seen.count v = 1
      · have : (duplicateFn (P := P) v m).1 = .ok true := by simp [duplicateFn, hv, h1]
        rw [this]
        simp [h1, ih']
      · have : (duplicateFn (P := P) v m).1 = .ok false := by
          simp only [duplicateFn, Except.ok.injEq, decide_eq_false_iff_not]
          by_cases h3 : m v < 3
          · simp only [h3, if_true]; omega
          · simp only [h3, if_false]; omega
        rw [this]
        simp [h1, ih']

/-- C143: Distinct and Duplicate over a source that panics: the panics go through, and what has been seen is not forgotten. -/
theorem c143_distinct [DecidableEq α] (nx : PCall P σ α) (s s' : σ) (gs : List (Except P α)) (e : Err) (h : Ends nx s gs e s') :
    (∃ m, Ends (nextP (filterP (onState distinctFn) (onSource nx))) (ofIter (), (s, fun _ => false)) (distinctSpec [] gs) e (stopped e, (s', m))) ∧
    (∃ m, Ends (nextP (filterP (onState duplicateFn) (onSource nx))) (ofIter (), (s, fun _ => 0)) (duplicateSpec [] gs) e (stopped e, (s', m))) := by
  constructor
  · rw [← distinct_spec gs (fun _ => false) [] (by simp)]
    exact ⟨_, c142_filter distinctFn nx s s' gs e _ h⟩
  · rw [← duplicate_spec gs (fun _ => 0) [] (by simp)]
    exact ⟨_, c142_filter duplicateFn nx s s' gs e _ h⟩

example : ∃ m, Ends (nextP (filterP (onState distinctFn) (onSource listP))) (ofIter (), ([.ok 1, .ok 2, .ok 1, .error "source", .ok 2, .ok 3], fun _ => false))
    [.ok 1, .ok 2, .error "source", .ok 3] .eoi (stopped .eoi, ([], m)) :=
  (c143_distinct listP _ _ _ _ (listP_ends [.ok 1, .ok 2, .ok 1, .error "source", .ok 2, .ok 3])).1

/-! ### Transforms that read their source when they are created -/

private theorem collect (nx : PCall P σ α) (vs : List α) : ∀ (s t : σ) (acc : List α), Gave nx s (vs.map .ok) t →
    foldP nx (fun slc v h => (.ok (slc ++ [v]), h)) acc s = foldP nx (fun slc v h => (.ok (slc ++ [v]), h)) (acc ++ vs) t := by
  induction vs with
  | nil =>
    intro s t acc h
    cases h with
    | nil => simp
  | cons v vs ih =>
    intro s t acc h
    cases h with
    | @val _ s1 _ _ _ hn h =>
      rw [foldP, hn]
      simp only
      rw [ih s1 t _ h]
      simp

/-- C143: Reverse and the sorting transforms read their source when they are created. (1) If it gives the values vs, then EOI, the values are arranged
exactly once. (2) Any other error is the error of the iterator they return. (3) If the source panics, creating the transform panics; the values read so
far are lost and the source is just behind the panic, so that creating it again arranges what is left. (4) A panic of the comparison function is the
panic of the transform. -/
theorem c143_eager (arrange : Fn P σ (List α) (List α)) (nx : PCall P σ α) (s s' : σ) (vs : List α) (e : Err) :
    (Ends nx s (vs.map .ok) e s' →
      (e = .eoi → ∀ out s'', arrange vs s' = (.ok out, s'') → eagerP arrange nx s = some (.values out, s'')) ∧
      (e ≠ .eoi → eagerP arrange nx s = some (.fails e, s')) ∧
      (e = .eoi → ∀ p s'', arrange vs s' = (.error p, s'') → eagerP arrange nx s = some (.panic p, s''))) ∧
    (∀ p gs, Ends nx s (vs.map .ok ++ .error p :: gs) e s' → ∃ t, Ends nx t gs e s' ∧ eagerP arrange nx s = some (.panic p, t)) := by
  have one : ∀ t, Gave nx s (vs.map .ok) t → nextP (reduceToSliceP nx) (ofIter false, s) =
      fresh (nowDone (foldP nx (fun slc v h => (.ok (slc ++ [v]), h)) vs t)) := by
    intro t h
    rw [nextP_fresh']
    simp only [reduceToSliceP, Bool.false_eq_true, if_false]
    rw [collect nx vs s t [] h]
    simp
  refine ⟨fun h => ?_, fun p gs h => ?_⟩
  · obtain ⟨t, h1, h2⟩ := h.gave
    have k := one t h1
    rw [foldP, h2] at k
    refine ⟨?_, ?_, ?_⟩
    · rintro rfl out s'' ha
      simp only [eagerP, k, nowDone, fresh, if_true, ha]
    · intro he
      simp only [eagerP, k, nowDone, fresh, he, if_false]
    · rintro rfl p s'' ha
      simp only [eagerP, k, nowDone, fresh, if_true, ha]
  · obtain ⟨t, h1, h2⟩ := Ends.split _ h
    cases h2 with
    | @panic _ t1 _ _ _ _ hn h3 =>
      have k := one t h1
      rw [foldP, hn] at k
      exact ⟨t1, h3, by simp only [eagerP, k, nowDone, fresh]⟩

example : ∃ t, Ends listP t [.ok 3, .ok 4] .eoi [] ∧
    eagerP (fun l h => (.ok l.reverse, h)) listP [.ok 1, .ok 2, .error "source", .ok 3, .ok 4] = some (.panic "source", t) :=
  (c143_eager _ listP _ [] [1, 2] .eoi).2 "source" [.ok 3, .ok 4] (listP_ends [.ok 1, .ok 2, .error "source", .ok 3, .ok 4])
example : eagerP (fun l h => (.ok l.reverse, h)) (listP (P := String)) [.ok 3, .ok 4] = some (.values [4, 3], []) :=
  ((c143_eager (fun l h => (.ok l.reverse, h)) listP _ [] [3, 4] .eoi).1 (listP_ends [.ok 3, .ok 4])).1 rfl _ _ rfl

end Micro.Stream.Crash
