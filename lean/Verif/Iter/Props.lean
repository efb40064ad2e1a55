import Verif.Iter.Lemmas
import Mathlib.Tactic.Linarith
set_option linter.unusedSimpArgs false
/-
C24-C31: iterators and iterating function generators.
-/
namespace Micro.Iter
open Micro

variable {σ α : Type}

/-! ### C24: Next and Unread -/

/-- C24. For every iterating function, every iterator over it and every sequence of Next and Unread
calls, the results of Next are those of the specification: a push-back stack in front of the results
of the iterating function (which end with its first error). -/
theorem c24_next_unread (call : Call σ α) (s : σ) (f : Fut α) (h : Produces call s f) (ops : List (Op α)) :
    runOps call (ofIter s) ops = some (Fut.run (sticky f) ops) := by
  obtain ⟨stt, rfl, h⟩ := h
  exact runOps_live call stt f 0 (by simpa using h) [] none ops

/-- Every iterating function whose calls return produces some future, so C24 covers them all. -/
theorem c24_total (call : Call σ α) (s : σ) (h : ∀ s, call s ≠ none) : ∃ f, Produces call s f := by
  have hsome : ∀ s, ∃ p, call s = some p := fun s => Option.ne_none_iff_exists'.mp (h s)
  let nx : σ → Except Err α × σ := fun s => (call s).get (Option.isSome_iff_exists.mpr (hsome s))
  have hnx : ∀ s, call s = some (nx s) := fun s => by simp [nx]
  let stt : Nat → σ := fun i => Nat.rec s (fun _ t => (nx t).2) i
  exact ⟨fun i => (nx (stt i)).1, stt, rfl, fun i _ => hnx (stt i)⟩

example (ops : List (Op Nat)) : ∃ f, runOps (sliceCall [1, 2]) (ofIter 0) ops = some (Fut.run (sticky f) ops) := by
  obtain ⟨f, h⟩ := c24_total (sliceCall [1, 2]) 0 (by intro s; unfold sliceCall; split <;> simp)
  exact ⟨f, c24_next_unread _ _ f h ops⟩

/-- The values put back come out in reverse order, before anything else. -/
theorem c24_lifo (call : Call σ α) (it : It σ α) (vs : List α) (ops : List (Op α)) :
    runOps call it (vs.map .unread ++ vs.map (fun _ => .next) ++ ops)
      = (runOps call it ops).map (vs.reverse.map .ok ++ ·) := by
  induction vs generalizing it ops with
  | nil => simp
  | cons v vs ih =>
    have e1 : (v :: vs).map (fun _ => (.next : Op α)) ++ ops = vs.map (fun _ => .next) ++ (.next :: ops) := by
      have : ∀ (l : List α), (Op.next : Op α) :: (l.map (fun _ => .next) ++ ops) = l.map (fun _ => .next) ++ (.next :: ops) := by
        intro l; induction l with
        | nil => rfl
        | cons _ l ih => simp only [List.map_cons, List.cons_append]; rw [← ih]
      simpa using this vs
    have : (v :: vs).map .unread ++ (v :: vs).map (fun _ => (.next : Op α)) ++ ops
        = .unread v :: (vs.map .unread ++ vs.map (fun _ => .next) ++ (.next :: ops)) := by
      rw [List.append_assoc, e1]; simp
    rw [this, runOps, ih, runOps, next_buffer call (it.unread v) it.buffer v rfl]
    have e2 : ({ it.unread v with buffer := it.buffer } : It σ α) = it := rfl
    simp only [e2]
    rcases runOps call it ops with _ | r <;> simp

/-- Non-vacuity: [1, 2] read with an Unread in between. -/
example : runOps (sliceCall [1, 2]) (ofIter 0) [.next, .unread 7, .unread 8, .next, .next, .next, .next]
    = some [.ok 1, .ok 8, .ok 7, .ok 2, .error .eoi] := rfl

/-! ### C25: sticky errors -/

/-- C25. When Next has returned an error, every later sequence of operations behaves as if the source
were that error forever, and the iterating function is not consulted any more: replacing it by any
other function changes nothing. -/
theorem c25_error_is_final (call : Call σ α) (it it' : It σ α) (e : Err)
    (h : it.next call = some (.error e, it')) (call' : Call σ α) (ops : List (Op α)) :
    runOps call' it' ops = some (Fut.run (fun _ => .error e) ops) := by
  have : it' = ⟨none, [], some e⟩ := by
    rcases List.eq_nil_or_concat it.buffer with hb | ⟨b', v, hb⟩
    · unfold It.next at h
      rw [hb] at h
      simp only [List.getLast?_nil] at h
      obtain ⟨fn, buffer, lastErr⟩ := it
      simp only at hb; subst hb
      cases fn with
      | some s =>
        simp only at h
        split at h <;> simp at h
        obtain ⟨rfl, rfl⟩ := h; rfl
      | none =>
        simp only [It.stopped] at h
        split at h
        · simp only [Option.some.injEq, Prod.mk.injEq, Except.error.injEq] at h
          obtain ⟨rfl, rfl⟩ := h; simp_all
        · simp at h
    · rw [List.concat_eq_append] at hb
      rw [next_buffer _ _ _ _ hb] at h; simp at h
  subst this
  exact runOps_stopped call' [] none e rfl ops

/-- Non-vacuity: a source that would answer differently after its error. -/
example : ∃ it', (ofIter (α := Nat) 0).next (fun i => some (if i = 0 then .error (.user 1) else .ok i, i + 1))
    = some (.error (.user 1), it') ∧
    runOps (σ := Nat) (fun i => some (.ok i, i)) it' [.next, .unread 3, .next, .next]
      = some [.error (.user 1), .ok 3, .error (.user 1)] := ⟨_, rfl, rfl⟩

/-! ### C26: generators -/

/-- C26. OfSlice/Of: exactly the elements in order, then EOI forever. -/
theorem c26_slice (slc : List α) : YieldsForever (It.next (sliceCall slc)) (ofIter 0) slc .eoi := by
  have := sliceCall_yields slc 0 (by omega)
  exact ofIter_forever (by simpa using this)

/-- C26. OfOne. -/
theorem c26_one (v : α) : YieldsForever (It.next (singleValueCall v)) (ofIter false) [v] .eoi :=
  ofIter_forever (.value (s' := true) rfl (.stop (s' := true) rfl))

/-- C26. OfEmpty. -/
theorem c26_empty : YieldsForever (It.next (noValueCall (α := α))) (ofIter ()) [] .eoi :=
  ofIter_forever (.stop (s' := ()) rfl)

/-! ### C120 -/

/-- C120. OfMap delivers exactly the entries of the map, each once, in the order in which the runtime presents them, and then EOI forever, if
no key and no value is a nil interface; if one is, some call of Next panics. -/
theorem c120_map_iff {κ ν : Type} (nilK : κ → Bool) (nilV : ν → Bool) (entries : List (κ × ν)) :
    YieldsForever (It.next (mapCall nilK nilV)) (ofIter (entries, false)) entries .eoi ↔
      ∀ kv ∈ entries, nilK kv.1 = false ∧ nilV kv.2 = false := by
  constructor
  · rintro ⟨stt, h0, hv, -⟩
    have key : ∀ i, i ≤ entries.length → stt i = ofIter (entries.drop i, false) ∧
        ∀ j (hj : j < i) (hl : j < entries.length), nilK entries[j].1 = false ∧ nilV entries[j].2 = false := by
      intro i
      induction i with
      | zero => intro _; exact ⟨by simpa using h0, by omega⟩
      | succ i ih =>
        intro hi
        obtain ⟨h1, h2⟩ := ih (by omega)
        have h3 := hv i (by omega)
        rw [h1, List.drop_eq_getElem_cons (by omega : i < entries.length)] at h3
        simp only [It.next, ofIter, mapCall, List.getLast?_nil, assertIface] at h3
        cases hk : nilK entries[i].1
        · cases hw : nilV entries[i].2
          · simp only [hk, hw] at h3
            refine ⟨?_, fun j hj hl => ?_⟩
            · simp only [Bool.false_eq_true, if_false, Option.some.injEq, Prod.mk.injEq] at h3
              exact h3.2.symm
            · rcases Nat.lt_succ_iff_lt_or_eq.mp hj with h | rfl
              · exact h2 j h hl
              · exact ⟨hk, hw⟩
          · simp [hk, hw] at h3
        · simp [hk] at h3
    intro kv hkv
    obtain ⟨j, hj, rfl⟩ := List.getElem_of_mem hkv
    exact (key entries.length (le_refl _)).2 j hj hj
  · intro h
    refine ofIter_forever ?_
    induction entries with
    | nil => exact .stop (s' := ([], true)) rfl
    | cons kv t ih =>
      refine .value (s' := (t, false)) ?_ (ih (fun kv hkv => h kv (List.mem_cons_of_mem _ hkv)))
      obtain ⟨h1, h2⟩ := h kv List.mem_cons_self
      simp [mapCall, assertIface, h1, h2]

/-- C120. The entries before the first nil interface are delivered; the Next that reaches it panics. -/
theorem c120_map_panics {κ ν : Type} (nilK : κ → Bool) (nilV : ν → Bool) (pre post : List (κ × ν)) (kv : κ × ν)
    (hpre : ∀ e ∈ pre, nilK e.1 = false ∧ nilV e.2 = false) (hkv : nilK kv.1 = true ∨ nilV kv.2 = true) :
    ∃ it, takeN (It.next (mapCall nilK nilV)) pre.length (ofIter (pre ++ kv :: post, false)) = some (pre, it) ∧
      It.next (mapCall nilK nilV) it = none := by
  refine ⟨ofIter (kv :: post, false), ?_, ?_⟩
  · induction pre with
    | nil => rfl
    | cons e pre ih =>
      obtain ⟨h1, h2⟩ := hpre e List.mem_cons_self
      have := ih (fun e he => hpre e (List.mem_cons_of_mem _ he))
      have hn : It.next (mapCall nilK nilV) (ofIter ((e :: pre) ++ kv :: post, false)) = some (.ok e, ofIter (pre ++ kv :: post, false)) := by
        simp [It.next, ofIter, mapCall, assertIface, h1, h2]
      simp only [List.length_cons, takeN]
      rw [hn]
      simp only [this, Option.map_some]
  · rcases hkv with h | h
    · simp [It.next, ofIter, mapCall, assertIface, h]
    · cases hk : nilK kv.1 <;> simp [It.next, ofIter, mapCall, assertIface, h, hk]

example := c120_map_panics (fun _ : Nat => false) (fun v : Option Nat => v.isNone) [(1, some 2)] [(5, some 6)] (3, none) (by simp) (by simp)

/-- C120 is violated: OfMap(map[string]any{"a": 1, "b": nil}) panics when it reaches "b" (`none` is the nil interface). -/
theorem c120_map_refuted : ¬ YieldsForever (It.next (mapCall (fun _ : String => false) (Option.isNone (α := Nat))))
    (ofIter ([("a", some 1), ("b", none)], false)) [("a", some 1), ("b", none)] .eoi := by
  rw [c120_map_iff]; simp

/-- C120. Maps whose key and value types are no interface types are iterated completely. Missing: nil interfaces (`c120_map_refuted`). -/
theorem c120_map_partial {κ ν : Type} (entries : List (κ × ν)) :
    YieldsForever (It.next (mapCall (fun _ => false) (fun _ => false))) (ofIter (entries, false)) entries .eoi :=
  (c120_map_iff _ _ _).mpr (by simp)

example : YieldsForever (It.next (mapCall (fun _ : String => false) (Option.isNone (α := Nat))))
    (ofIter ([("a", some 1), ("b", some 2)], false)) [("a", some 1), ("b", some 2)] .eoi := (c120_map_iff _ _ _).mpr (by simp)

theorem takeN_append (call : Call σ α) (n m : Nat) (s : σ) :
    takeN call (n + m) s = (takeN call n s).bind (fun (vs, s') =>
      (takeN call m s').map (fun (ws, s'') => (vs ++ ws, s''))) := by
  induction n generalizing s with
  | zero => simp [takeN]
  | succ n ih =>
    rw [show n + 1 + m = (n + m) + 1 by omega]
    simp only [takeN]
    split
    · rw [ih]
      rename_i v s' _
      rcases takeN call n s' with _ | ⟨a, b⟩
      · rfl
      · simp
        rcases takeN call m b with _ | ⟨a, b⟩ <;> rfl
    · rfl

theorem infinite_seed {γ : Type} (f : α → γ → α × γ) (n : Nat) (a : α) (c : γ) :
    takeN (infiniteCall f) n ⟨[], a, c⟩ =
      some ((List.range n).map (fun i => (iterN f (i + 1) (a, c)).1), ⟨[], (iterN f n (a, c)).1, (iterN f n (a, c)).2⟩) := by
  induction n generalizing a c with
  | zero => rfl
  | succ n ih =>
    simp only [takeN, infiniteCall]
    rw [ih]
    simp [List.range_succ_eq_map, iterN, Function.comp_def]

theorem infinite_literals {γ : Type} (f : α → γ → α × γ) (ls : List α) (a : α) (c : γ) :
    takeN (infiniteCall f) ls.length ⟨ls, a, c⟩ = some (ls, ⟨[], a, c⟩) := by
  induction ls with
  | nil => rfl
  | cons l ls ih => simp only [List.length_cons, takeN, infiniteCall, ih, Option.map_some]

/-- C26. InfiniteIterGen with initial values `ls ++ [seed]`: the first |ls| + n calls return the
values ls and then f(seed), f(f(seed)), … . -/
theorem c26_infinite {γ : Type} (f : α → γ → α × γ) (zero : α) (c : γ) (ls : List α) (seed : α) (n : Nat) :
    (takeN (infiniteCall f) (ls.length + n) (infiniteInit zero c (ls ++ [seed]))).map Prod.fst =
      some (ls ++ (List.range n).map (fun i => (iterN f (i + 1) (seed, c)).1)) := by
  have : infiniteInit zero c (ls ++ [seed]) = ⟨ls, seed, c⟩ := by simp [infiniteInit]
  rw [this, takeN_append, infinite_literals]
  simp [infinite_seed]

theorem wrap_add_wrap (a b : Int) : Kind.int.wrap (Kind.int.wrap a + Kind.int.wrap b) = Kind.int.wrap (a + b) := by
  simp only [Kind.wrap, Kind.bits, Kind.signed]
  simp
  omega

theorem fib_step (n : Nat) :
    iterN fibStep (n + 1) (1, 0) = (Kind.int.wrap (fib (n + 1)), Kind.int.wrap (fib n)) := by
  have key : ∀ n (p : Int × Int), iterN fibStep (n + 1) p = fibStep (iterN fibStep n p).1 (iterN fibStep n p).2 := by
    intro n
    induction n with
    | zero => intro p; rfl
    | succ n ih => intro p; rw [iterN, ih]; rfl
  induction n with
  | zero => rfl
  | succ n ih =>
    rw [key, ih]
    simp only [fibStep, wrap_add_wrap, fib]
    rw [Int.add_comm]

/-- C26. FibonnaciIterGen: the first n + 1 values are the Fibonacci numbers (in int arithmetic). -/
theorem c26_fibonacci (n : Nat) :
    (takeN (infiniteCall fibStep) (n + 1) fibInit).map Prod.fst
      = some ((List.range (n + 1)).map (fun i => Kind.int.wrap (fib i))) := by
  have := c26_infinite fibStep 0 0 [1] 1 n
  rw [show ([1] : List Int).length + n = n + 1 by simp; omega] at this
  rw [show fibInit = infiniteInit 0 0 ([1] ++ [1]) from rfl, this]
  congr 1
  rw [List.range_succ_eq_map, List.map_cons, List.map_map]
  simp only [List.singleton_append]
  congr 1
  apply List.map_congr_left
  intro i _
  rw [fib_step]; rfl

/-- Non-vacuity: the first ten Fibonacci numbers. -/
example : (takeN (infiniteCall fibStep) 10 fibInit).map Prod.fst = some [1, 1, 2, 3, 5, 8, 13, 21, 34, 55] := by
  rfl

/-! ### C27: Concat -/

theorem concat_yields {ι : Type} (next : Call ι α) (its : List (Option ι)) (spec : List (Option (List α × Err)))
    (h : List.Forall₂ (fun (it : Option ι) (r : Option (List α × Err)) =>
      (it = none ∧ r = none) ∨ ∃ i vs e, it = some i ∧ r = some (vs, e) ∧ Yields next i vs e) its spec) :
    Yields (concatCall next) ⟨its, .eoi⟩ (concatSpec spec).1 (concatSpec spec).2 := by
  induction h with
  | nil => exact .stop (s' := ⟨[], .eoi⟩) rfl
  | @cons it r its spec h _ ih =>
    rcases h with ⟨rfl, rfl⟩ | ⟨i, vs, e, rfl, rfl, hy⟩
    · exact Yields.congr (s' := ⟨its, .eoi⟩) rfl ih
    · have := concat_value hy its
      simp only [concatSpec]
      split
      · rename_i he
        exact this.1 he _ _ ih
      · rename_i he
        exact this.2 he

/-- C27. Concat(its...) yields the values of the iterators one after the other, up to and including
those of the first one that ends with an error other than EOI, whose error it then returns forever;
EOI if there is none. Nil iterators (none) are skipped. -/
theorem c27_concat {ι : Type} (next : Call ι α) (its : List (Option ι)) (spec : List (Option (List α × Err)))
    (h : List.Forall₂ (fun (it : Option ι) (r : Option (List α × Err)) =>
      (it = none ∧ r = none) ∨ ∃ i vs e, it = some i ∧ r = some (vs, e) ∧ Yields next i vs e) its spec) :
    YieldsForever (It.next (concatCall next)) (ofIter ⟨its, .eoi⟩) (concatSpec spec).1 (concatSpec spec).2 :=
  ofIter_forever (concat_yields next its spec h)

example := c27_concat (sliceCall [1, 2]) [some 0, none, some 1] [some ([1, 2], .eoi), none, some ([2], .eoi)]
  (.cons (.inr ⟨_, _, _, rfl, rfl, .value rfl (.value rfl (.stop rfl))⟩) (.cons (.inl ⟨rfl, rfl⟩) (.cons (.inr ⟨_, _, _, rfl, rfl, .value rfl (.stop rfl)⟩) .nil)))

/-- C27, the common case: all iterators end normally. -/
theorem c27_concat_flatten {ι : Type} (next : Call ι α) (its : List ι) (vss : List (List α))
    (h : List.Forall₂ (fun i vs => Yields next i vs .eoi) its vss) :
    YieldsForever (It.next (concatCall next)) (ofIter ⟨its.map some, .eoi⟩) vss.flatten .eoi := by
  have := c27_concat next (its.map some) (vss.map (fun vs => some (vs, .eoi))) (by
    induction h with
    | nil => exact .nil
    | cons h _ ih => exact .cons (.inr ⟨_, _, _, rfl, rfl, h⟩) ih)
  have e1 : concatSpec (vss.map (fun vs => some (vs, Err.eoi))) = (vss.flatten, .eoi) := by
    clear this h
    induction vss with
    | nil => rfl
    | cons vs vss ih => simp [concatSpec, ih]
  rw [e1] at this
  exact this

/-- Non-vacuity: an empty iterator, a nil one, and one that fails. -/
example : (takeN (It.next (concatCall (It.next (sliceCall [5, 6, 7])))) 4
    (ofIter ⟨[some (ofIter 3), none, some (ofIter 2), some (ofIter 0)], .eoi⟩)).map Prod.fst = some [7, 5, 6, 7] := rfl

/-! ### C28: SetError -/

/-- C28. SetError(it, err): the values of `it`, then `err` forever. -/
theorem c28_set_error (call : Call σ α) (s : σ) (xs : List α) (e err : Err) (h : Yields call s xs e) :
    YieldsForever (It.next (setErrorCall call err)) (ofIter s) xs err := by
  refine ofIter_forever ?_
  induction h with
  | @stop s s' e h => exact .stop (s' := s') (by simp only [setErrorCall, h])
  | @value s s' x xs e h _ ih => exact .value (s' := s') (by simp only [setErrorCall, h]) ih

/-- Non-vacuity. -/
example : YieldsForever (It.next (setErrorCall (It.next (sliceCall [1, 2])) (.user 9))) (ofIter (ofIter 0)) [1, 2]
    (.user 9) := c28_set_error _ _ _ .eoi _ (yields_of_forever (c26_slice [1, 2]))

/-- C28, for the nil error: SetError(it, nil) never ends. After the values of `it` come zero values, without end. -/
theorem c28_nil_endless (zv : α) (call : Call σ α) (s : σ) (xs : List α) (e : Err) (h : YieldsForever call s xs e) :
    ∀ n, ∃ it, takeN (It.next (setNilErrorCall zv call)) (xs.length + n) (ofIter s) = some (xs ++ List.replicate n zv, it) := by
  obtain ⟨stt, h0, hv, he⟩ := h
  have step : ∀ i, It.next (setNilErrorCall zv call) (ofIter (stt i)) = some (.ok (xs.getD i zv), ofIter (stt (i + 1))) := by
    intro i
    by_cases hi : i < xs.length
    · simp [It.next, ofIter, setNilErrorCall, hv i hi, List.getD_eq_getElem?_getD, hi]
    · simp [It.next, ofIter, setNilErrorCall, he i (by omega), List.getD_eq_getElem?_getD, hi]
  have run : ∀ m i, takeN (It.next (setNilErrorCall zv call)) m (ofIter (stt i)) =
      some ((List.range' i m).map (fun j => xs.getD j zv), ofIter (stt (i + m))) := by
    intro m
    induction m with
    | zero => intro i; rfl
    | succ m ih =>
      intro i
      simp only [takeN, step, ih, Option.map_some, List.range'_succ, List.map_cons]
      rw [show i + 1 + m = i + (m + 1) by omega]
  intro n
  refine ⟨ofIter (stt (0 + (xs.length + n))), ?_⟩
  rw [← h0, run]
  congr 2
  refine List.ext_getElem (by simp) (fun i h1 h2 => ?_)
  simp only [List.length_map, List.length_range'] at h1
  simp only [List.getElem_map, List.getElem_range', List.getElem_append, List.getElem_replicate, List.getD_eq_getElem?_getD]
  by_cases hi : i < xs.length
  · simp [hi]
  · simp [hi]

/-- Non-vacuity: SetError(Of(1, 2), nil) yields 1, 2, 0, 0, 0, ... -/
example : ∃ it, takeN (It.next (setNilErrorCall 0 (It.next (sliceCall [1, 2])))) (2 + 3) (ofIter (ofIter 0)) = some ([1, 2, 0, 0, 0], it) :=
  c28_nil_endless 0 _ _ [1, 2] .eoi (c26_slice [1, 2]) 3

/-! ### C29: runes -/

/-- C29, decoding: reading the UTF-8 encoding of any text yields exactly its code points, then EOI
forever. -/
theorem c29_roundtrip (cs : List Char) :
    YieldsForever (It.next (runeCall bytesReader)) (ofIter ⟨false, .eoi, cs.flatMap utf8⟩)
      (cs.map Char.toNat) .eoi := by
  refine ofIter_forever ?_
  suffices h : ∀ e, Yields (runeCall bytesReader) ⟨false, e, cs.flatMap utf8⟩ (cs.map Char.toNat) .eoi from h _
  induction cs with
  | nil => intro e; exact .stop (s' := ⟨true, .eoi, []⟩) (by simp [runeCall, bytesReader])
  | cons c cs ih =>
    intro e
    obtain ⟨e', h⟩ := rune_step (utf8 c) (cs.flatMap utf8) c.toNat e (utf8_gen c)
    exact .value (by simpa using h) (ih e')

/-- C29 is false for invalid input: over-long forms and surrogates are not UTF-8 (no text encodes to
them), yet they are decoded without an error. -/
theorem c29_rejects_invalid_refuted :
    (Yields (runeCall bytesReader) ⟨false, .eoi, [0xC0, 0x80]⟩ [0] .eoi ∧
      ∀ cs : List Char, cs.flatMap utf8 ≠ [0xC0, 0x80]) ∧
    (Yields (runeCall bytesReader) ⟨false, .eoi, [0xED, 0xA0, 0x80]⟩ [0xD800] .eoi ∧
      ∀ cs : List Char, cs.flatMap utf8 ≠ [0xED, 0xA0, 0x80]) := by
  have inj : ∀ (bs : List Nat) (xs : List Nat), Yields (runeCall bytesReader) ⟨false, .eoi, bs⟩ xs .eoi →
      ∀ cs : List Char, cs.flatMap utf8 = bs → cs.map Char.toNat = xs := by
    rintro bs xs h cs rfl
    have h2 : ∀ e, Yields (runeCall bytesReader) ⟨false, e, cs.flatMap utf8⟩ (cs.map Char.toNat) .eoi := by
      clear h
      induction cs with
      | nil => intro e; exact .stop (s' := ⟨true, .eoi, []⟩) (by simp [runeCall, bytesReader])
      | cons c cs ih =>
        intro e
        obtain ⟨e', h⟩ := rune_step (utf8 c) (cs.flatMap utf8) c.toNat e (utf8_gen c)
        exact .value (by simpa using h) (ih e')
    exact ((h2 .eoi).unique h).1
  have y1 : Yields (runeCall bytesReader) ⟨false, .eoi, [0xC0, 0x80]⟩ [0] .eoi :=
    .value (s' := ⟨false, .eoi, []⟩) rfl (.stop (s' := ⟨true, .eoi, []⟩) rfl)
  have y2 : Yields (runeCall bytesReader) ⟨false, .eoi, [0xED, 0xA0, 0x80]⟩ [0xD800] .eoi :=
    .value (s' := ⟨false, .eoi, []⟩) rfl (.stop (s' := ⟨true, .eoi, []⟩) rfl)
  refine ⟨⟨y1, ?_⟩, ⟨y2, ?_⟩⟩
  · intro cs h
    have h' := inj _ _ y1 cs h
    obtain ⟨c, rfl⟩ : ∃ c, cs = [c] := by
      have : cs.length = 1 := by have := congrArg List.length h'; simpa using this
      exact List.length_eq_one_iff.mp this
    simp at h' h
    simp [utf8, h'] at h
  · intro cs h
    have h' := inj _ _ y2 cs h
    obtain ⟨c, rfl⟩ : ∃ c, cs = [c] := by
      have : cs.length = 1 := by have := congrArg List.length h'; simpa using this
      exact List.length_eq_one_iff.mp this
    simp at h'
    have := c.valid
    simp only [UInt32.isValidChar, Nat.isValidChar] at this
    simp only [Char.toNat] at h'
    omega

/-- C29 is false for readers that return fewer bytes than asked for, as io.Reader permits: a three
byte character read through a one byte at a time reader is reported as invalid. -/
theorem c29_short_reads_refuted :
    utf8 '€' = [0xE2, 0x82, 0xAC] ∧
    Yields (runeCall bytesReader) ⟨false, .eoi, utf8 '€'⟩ [0x20AC] .eoi ∧
    Yields (runeCall oneByteReader) ⟨false, .eoi, utf8 '€'⟩ [] .invalidUTF8 := by
  refine ⟨rfl, ?_, ?_⟩
  · exact .value (s' := ⟨false, .eoi, []⟩) rfl (.stop (s' := ⟨true, .eoi, []⟩) rfl)
  · exact .stop rfl

/-- C29, what does hold for arbitrary bytes: the input is consumed in generalised UTF-8 sequences
(lead byte, continuation bytes, at most 10FFFF), whose code points are yielded; if the whole input is
consumed the final error is EOI, otherwise what remains does not begin with such a sequence and the
error is InvalidUTF8. (Over-long and surrogate forms are not rejected: see the refuted statement.) -/
theorem c29_decode_partial (bs : List Nat) (hb : ∀ b ∈ bs, b < 256) :
    ∃ (seqs : List (List Nat)) (rs : List Nat) (rest : List Nat) (e : Err),
      bs = seqs.flatten ++ rest ∧ List.Forall₂ GenUtf8 seqs rs ∧
      YieldsForever (It.next (runeCall bytesReader)) (ofIter ⟨false, .eoi, bs⟩) rs e ∧
      ((rest = [] ∧ e = .eoi) ∨
       (rest ≠ [] ∧ e = .invalidUTF8 ∧ ∀ seq r, GenUtf8 seq r → ¬ seq <+: rest)) := by
  suffices h : ∀ (n : Nat) (bs : List Nat), bs.length ≤ n → (∀ b ∈ bs, b < 256) → ∀ e0,
      ∃ (seqs : List (List Nat)) (rs : List Nat) (rest : List Nat) (e : Err),
      bs = seqs.flatten ++ rest ∧ List.Forall₂ GenUtf8 seqs rs ∧
      Yields (runeCall bytesReader) ⟨false, e0, bs⟩ rs e ∧
      ((rest = [] ∧ e = .eoi) ∨
       (rest ≠ [] ∧ e = .invalidUTF8 ∧ ∀ seq r, GenUtf8 seq r → ¬ seq <+: rest)) by
    obtain ⟨seqs, rs, rest, e, h1, h2, h3, h4⟩ := h bs.length bs (le_refl _) hb .eoi
    exact ⟨seqs, rs, rest, e, h1, h2, ofIter_forever h3, h4⟩
  intro n
  induction n with
  | zero =>
    intro bs hl _ e0
    have : bs = [] := List.length_eq_zero_iff.mp (by omega)
    subst this
    exact ⟨[], [], [], .eoi, rfl, .nil,
      .stop (s' := ⟨true, .eoi, []⟩) (by simp [runeCall, bytesReader]), .inl ⟨rfl, rfl⟩⟩
  | succ n ih =>
    intro bs hl hb e0
    by_cases hne : bs = []
    · exact ih bs (by simp [hne]) hb e0
    rcases rune_cases bs e0 hne hb with ⟨seq, rest, r, rfl, hs, hg, hcall⟩ | ⟨st, hcall⟩
    · have hlen : rest.length ≤ n := by
        have : 0 < seq.length := List.length_pos_iff.mpr hs
        simp at hl; omega
      obtain ⟨seqs, rs, rest', e, h1, h2, h3, h4⟩ := ih rest hlen (fun b h => hb b (by simp [h])) .eoi
      refine ⟨seq :: seqs, r :: rs, rest', e, by simp [← h1], .cons hg h2, .value hcall h3, h4⟩
    · refine ⟨[], [], bs, .invalidUTF8, by simp, .nil, .stop hcall, .inr ⟨hne, rfl, ?_⟩⟩
      rintro seq r hg ⟨t, rfl⟩
      obtain ⟨e', h⟩ := rune_step seq t r e0 hg
      rw [h] at hcall; simp at hcall

/-- Non-vacuity: a text with one, two, three and four byte characters; truncated input. -/
example : ("aé€😀".toList.flatMap utf8) = [97, 195, 169, 226, 130, 172, 240, 159, 152, 128] := rfl
example : Yields (runeCall bytesReader) ⟨false, .eoi, [97, 226, 130]⟩ [97] .invalidUTF8 :=
  .value (s' := ⟨false, .eoi, [226, 130]⟩) rfl (.stop rfl)

/-! ### C30: lines -/

/-- C30 is false: after a lone CR the next LF is dropped, however far away it is, so "a\rb\nc" gives
the lines "a", "bc" instead of "a", "b", "c". -/
theorem c30_lines_refuted :
    Yields (readLinesCall (sliceCall [97, 13, 98, 10, 99])) ⟨none, false, 0⟩ [[97], [98, 99]] .eoi ∧
    splitLines true [97, 13, 98, 10, 99] [] = [[97], [98], [99]] := by
  refine ⟨?_, by simp [splitLines]⟩
  refine .value (s' := ⟨none, true, 2⟩) ?_ (.value (s' := ⟨some .eoi, false, 5⟩) ?_ (.stop rfl))
  · show readLinesLoop _ _ _ _ = _
    simp [readLinesLoop, sliceCall, writeRune]
  · show readLinesLoop _ _ _ _ = _
    simp [readLinesLoop, sliceCall, writeRune]

/-- C30 for texts in which no line end LF follows a lone CR (with only CRLF in between): OfReaderAsLines
and OfStringAsLines yield exactly the lines and then the end (EOF becomes EOI) or the error of the
source, in which case an incomplete line is dropped. Missing: LF terminators after a lone CR. (Runes that have no UTF-8 encoding, the
surrogates, become U+FFFD.) -/
theorem c30_lines_partial (it : Call σ Nat) (s : σ) (text : List Nat) (e : Err) (h : Yields it s text e)
    (hg : NoLFAfterLoneCR false text) :
    YieldsForever (It.next (readLinesCall it)) (ofIter ⟨none, false, s⟩)
      (splitLines (decide (e = .eoi ∨ e = .eof)) (text.map writeRune) []) (if e = .eof then .eoi else e) :=
  ofIter_forever (yields_of_loop (readLines_main it e text.length text (le_refl _) [] false s h hg))

/-- "a", CR LF, "b". -/
example := c30_lines_partial (sliceCall [97, 13, 10, 98]) 0 [97, 13, 10, 98] .eoi (.value rfl (.value rfl (.value rfl (.value rfl (.stop rfl))))) (by simp [NoLFAfterLoneCR])

/-- C30 end to end for strings: the lines of the UTF-8 encoding of any text. -/
theorem c30_string_lines_partial (cs : List Char) (hg : NoLFAfterLoneCR false (cs.map Char.toNat)) :
    YieldsForever (It.next (readLinesCall (runeCall bytesReader)))
      (ofIter ⟨none, false, ⟨false, .eoi, cs.flatMap utf8⟩⟩) (splitLines true (cs.map Char.toNat) []) .eoi := by
  have h : ∀ e, Yields (runeCall bytesReader) ⟨false, e, cs.flatMap utf8⟩ (cs.map Char.toNat) .eoi := by
    clear hg
    induction cs with
    | nil => intro e; exact .stop (s' := ⟨true, .eoi, []⟩) (by simp [runeCall, bytesReader])
    | cons c cs ih =>
      intro e
      obtain ⟨e', h⟩ := rune_step (utf8 c) (cs.flatMap utf8) c.toNat e (utf8_gen c)
      exact .value (by simpa using h) (ih e')
  have := c30_lines_partial (runeCall bytesReader) ⟨false, .eoi, cs.flatMap utf8⟩ _ .eoi (h _) hg
  rw [map_writeRune_chars] at this
  simpa using this

example := c30_string_lines_partial ['a', '\r', '\n', 'é', '\n'] (by simp [NoLFAfterLoneCR])

/-- C30: the bytes of a surrogate (here U+D800, which is not valid UTF-8 but accepted by the rune iterator) appear in the line as U+FFFD:
the lines do not contain the bytes of the input. -/
theorem c30_surrogate_refuted :
    Yields (runeCall bytesReader) ⟨false, .eoi, [0xED, 0xA0, 0x80, 10]⟩ [0xD800, 10] .eoi ∧
    YieldsForever (It.next (readLinesCall (runeCall bytesReader)))
      (ofIter ⟨none, false, ⟨false, .eoi, [0xED, 0xA0, 0x80, 10]⟩⟩) [[0xFFFD]] .eoi := by
  have h : Yields (runeCall bytesReader) ⟨false, .eoi, [0xED, 0xA0, 0x80, 10]⟩ [0xD800, 10] .eoi :=
    .value (s' := ⟨false, .eoi, [10]⟩) rfl (.value (s' := ⟨false, .eoi, []⟩) rfl (.stop (s' := ⟨true, .eoi, []⟩) rfl))
  exact ⟨h, by simpa [splitLines, writeRune] using c30_lines_partial _ _ _ _ h (by simp [NoLFAfterLoneCR])⟩

/-- Non-vacuity: CRLF, LF and CR line ends, blank lines, an unterminated last line. -/
example : NoLFAfterLoneCR false ("ab\r\nc\n\nd\re".toList.map Char.toNat) ∧
    splitLines true ("ab\r\nc\n\nd\re".toList.map Char.toNat) [] = [[97, 98], [99], [], [100], [101]] := by
  constructor
  · simp [NoLFAfterLoneCR, Char.toNat]
  · simp [splitLines, Char.toNat]

/-! ### C31: bytes -/

/-- C31 is false for readers that return data together with an error, as io.Reader permits and
testing/iotest.DataErrReader does: the last byte is lost. -/
theorem c31_data_with_eof_refuted :
    Yields (readerCall dataErrReader none) ⟨false, 0, [7, 8]⟩ [7] .eoi :=
  .value (s' := ⟨false, 7, [8]⟩) rfl (.stop rfl)

/-- C31 also fails for a reader that returns (0, nil), which io.Reader permits: a stale byte is
yielded. -/
theorem c31_zero_read_refuted :
    ∃ rd : Reader Nat, (∀ s n, s ≠ 1 → (rd s n).1 = []) ∧ rd 1 1 = ([5], none, 2) ∧
      Yields (readerCall rd none) ⟨false, 0, 0⟩ [0, 5] .eoi := by
  refine ⟨fun s _ => match s with
    | 0 => ([], none, 1)
    | 1 => ([5], none, 2)
    | s => ([], some .eof, s), ?_, rfl, ?_⟩
  · intro s n h; match s with | 0 => rfl | 1 => exact absurd rfl h | _ + 2 => rfl
  · exact .value (s' := ⟨false, 0, 1⟩) rfl (.value (s' := ⟨false, 5, 2⟩) rfl (.stop rfl))

/-- C31 for readers that deliver data and errors separately: OfReader yields exactly the bytes
delivered, then forever the reader's error; io.EOF becomes EOI, or the error of Close if the reader is
an io.Closer whose Close fails. Missing: readers that return data with an error or (0, nil). -/
theorem c31_reader_partial {ρ : Type} (rd : Reader ρ) (close : Option (Option Err)) (s : ρ) (bs : List Nat)
    (e : Err) (buf : Nat) (h : Delivers rd s bs e) :
    YieldsForever (It.next (readerCall rd close)) (ofIter ⟨false, buf, s⟩) bs
      (if e = .eof ∨ e = .eoi then (close.join).getD .eoi else e) := by
  refine ofIter_forever ?_
  induction h generalizing buf with
  | @fail s s' e h =>
    by_cases he : e = .eof ∨ e = .eoi
    · have e1 : (if e = .eof then Err.eoi else e) = .eoi := by rcases he with rfl | rfl <;> simp
      rw [if_pos he]
      rcases close with _ | _ | ce
      · exact .stop (s' := ⟨true, buf, s'⟩) (by simp [readerCall, h, e1])
      · exact .stop (s' := ⟨true, buf, s'⟩) (by simp [readerCall, h, e1])
      · exact .stop (s' := ⟨true, buf, s'⟩) (by simp [readerCall, h, e1])
    · rw [if_neg he]
      simp only [not_or] at he
      refine .stop (s' := ⟨true, buf, s'⟩) ?_
      simp only [readerCall, h, he.1, if_false]
      cases e <;> simp_all
  | @byte s s' b bs e h _ ih =>
    exact .value (s' := ⟨false, b, s'⟩) (by simp [readerCall, h]) (ih b)

/-- C31 for byte slices and strings. -/
theorem c31_bytes (bs : List Nat) :
    YieldsForever (It.next (readerCall bytesReader none)) (ofIter ⟨false, 0, bs⟩) bs .eoi :=
  ofIter_forever (bytes_reader_yields bs 0 none (by simp))

/-- Non-vacuity: a byte slice is delivered byte by byte, then EOF. -/
example : Delivers bytesReader [3, 4] [3, 4] .eof :=
  .byte (s' := [4]) rfl (.byte (s' := []) rfl (.fail (s' := []) rfl))

end Micro.Iter
