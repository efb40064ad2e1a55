import Verif.Stream.ParLemmas
import Verif.Stream.Props
set_option linter.unusedSimpArgs false
/-
Theorems C41, C42, C43: stream.Parallel.
-/
namespace Micro.Stream
open Micro Micro.Iter

variable {σ τ α β μ : Type}

/-! ### C41: ranges -/

/-- C41. The ranges are non-empty, contiguous, begin at 0 and end at the number of items. -/
theorem c41_partition (n : Nat) (hn : 0 < n) (info : Option PInfo) : Chain 0 (generateRanges n info) n := by
  unfold generateRanges
  cases info with
  | none => exact bucketRanges_chain n _ (roundSqrt_pos n hn)
  | some inf =>
    simp only
    obtain ⟨h1, h2⟩ := clampN_pos n hn inf.n
    split
    · exact bucketRanges_chain n _ h1
    · refine (threadLoop n (n / clampN n inf.n) (Nat.div_pos h2 h1) n (clampN n inf.n) 0 (n % clampN n inf.n)
        ?_ (Nat.le_of_lt (Nat.mod_lt _ h1)) h2).1
      have := Nat.div_add_mod n (clampN n inf.n)
      omega

example := c41_partition 10 (by decide) (some ⟨-3, true⟩)

/-- C41. With Threads the number of ranges is min(items, max(1, N)) and any two sizes differ by at most
one. -/
theorem c41_threads (n : Nat) (hn : 0 < n) (N : Int) :
    (generateRanges n (some ⟨N, false⟩)).length = min n (max 1 N).toNat ∧
    ∀ r ∈ generateRanges n (some ⟨N, false⟩), ∀ q ∈ generateRanges n (some ⟨N, false⟩),
      r.2 - r.1 ≤ q.2 - q.1 + 1 := by
  obtain ⟨h1, h2⟩ := clampN_pos n hn N
  have h3 := Nat.div_add_mod n (clampN n N)
  obtain ⟨-, hl, hsz⟩ := threadLoop n (n / clampN n N) (Nat.div_pos h2 h1) n (clampN n N) 0 (n % clampN n N)
    (by omega) (Nat.le_of_lt (Nat.mod_lt _ h1)) h2
  have e : generateRanges n (some ⟨N, false⟩) = threadRangesLoop n (n / clampN n N) n 0 (n % clampN n N) := rfl
  rw [e]
  refine ⟨hl, fun r hr q hq => ?_⟩
  have := hsz r hr; have := hsz q hq
  omega

example := c41_threads 10 (by decide) 4

theorem rangesOf_size (count start bucket : Nat) : ∀ r ∈ rangesOf count start bucket, r.2 - r.1 = bucket := by
  induction count generalizing start with
  | zero => simp [rangesOf]
  | succ n ih =>
    intro r hr
    simp only [rangesOf, List.mem_cons] at hr
    rcases hr with rfl | hr
    · simp
    · exact ih _ r hr

/-- C41. With Items every range but the last has exactly min(items, max(1, N)) items, and the last has no
more. -/
theorem c41_items (n : Nat) (hn : 0 < n) (N : Int) :
    (∀ r ∈ (generateRanges n (some ⟨N, true⟩)).dropLast, r.2 - r.1 = min n (max 1 N).toNat) ∧
    ∀ r ∈ generateRanges n (some ⟨N, true⟩), r.2 - r.1 ≤ min n (max 1 N).toNat := by
  have e : generateRanges n (some ⟨N, true⟩) = bucketRanges n (clampN n N) := rfl
  have e2 : min n (max 1 N).toNat = clampN n N := rfl
  obtain ⟨h1, h2⟩ := clampN_pos n hn N
  rw [e, e2]
  unfold bucketRanges
  have hs := rangesOf_size (n / clampN n N) 0 (clampN n N)
  split
  · rename_i h
    constructor
    · intro r hr
      rw [List.dropLast_concat] at hr
      exact hs r hr
    · intro r hr
      simp only [List.mem_append, List.mem_singleton] at hr
      rcases hr with hr | rfl
      · exact Nat.le_of_eq (hs r hr)
      · have := Nat.mod_lt n h1
        simp only; omega
  · rw [List.append_nil]
    exact ⟨fun r hr => hs r ((List.dropLast_sublist _).subset hr), fun r hr => Nat.le_of_eq (hs r hr)⟩

example := c41_items 10 (by decide) 4

/-- C41. Without PInfo the bucket size `b` is the square root of the number of items rounded to the
nearest integer ((b - 1/2)² ≤ n < (b + 1/2)²): every range but the last has `b` items, the last no more. -/
theorem c41_default (n : Nat) (hn : 0 < n) :
    ∃ b, b * b < n + b ∧ n ≤ b * b + b ∧ (∀ r ∈ (generateRanges n none).dropLast, r.2 - r.1 = b) ∧
      ∀ r ∈ generateRanges n none, r.2 - r.1 ≤ b := by
  refine ⟨roundSqrt n, ?_, ?_, ?_⟩
  · unfold roundSqrt
    have h1 := Nat.sqrt_le n
    simp only
    split
    · by_cases h0 : Nat.sqrt n = 0
      · rw [h0]; omega
      · omega
    · have : (Nat.sqrt n + 1) * (Nat.sqrt n + 1) = Nat.sqrt n * Nat.sqrt n + Nat.sqrt n + Nat.sqrt n + 1 := by ring
      omega
  · unfold roundSqrt
    have h1 := Nat.lt_succ_sqrt n
    have : Nat.succ (Nat.sqrt n) * Nat.succ (Nat.sqrt n) = Nat.sqrt n * Nat.sqrt n + Nat.sqrt n + Nat.sqrt n + 1 := by
      rw [Nat.succ_eq_add_one]; ring
    have : (Nat.sqrt n + 1) * (Nat.sqrt n + 1) = Nat.sqrt n * Nat.sqrt n + Nat.sqrt n + Nat.sqrt n + 1 := by ring
    simp only
    split <;> omega
  · have e : generateRanges n none = bucketRanges n (roundSqrt n) := rfl
    have h1 := roundSqrt_pos n hn
    rw [e]
    unfold bucketRanges
    have hs := rangesOf_size (n / roundSqrt n) 0 (roundSqrt n)
    split
    · rename_i h
      constructor
      · intro r hr
        rw [List.dropLast_concat] at hr
        exact hs r hr
      · intro r hr
        simp only [List.mem_append, List.mem_singleton] at hr
        rcases hr with hr | rfl
        · exact Nat.le_of_eq (hs r hr)
        · have := Nat.mod_lt n h1
          simp only; omega
    · rw [List.append_nil]
      exact ⟨fun r hr => hs r ((List.dropLast_sublist _).subset hr), fun r hr => Nat.le_of_eq (hs r hr)⟩

example : generateRanges 10 none = [(0, 3), (3, 6), (6, 9), (9, 10)] := by
  have : Nat.sqrt 10 = 3 := by rw [eq_comm, Nat.eq_sqrt]; omega
  simp only [generateRanges, roundSqrt, this]; decide
example : generateRanges 10 (some ⟨4, false⟩) = [(0, 3), (3, 6), (6, 8), (8, 10)] := by decide
example : generateRanges 10 (some ⟨4, true⟩) = [(0, 4), (4, 8), (8, 10)] := by decide

/-! ### The shared memory as Parallel sets it up -/

/-- The memory Parallel creates: it is lawful, and initially shows the input. -/
structure Setup (M : Mem μ α β) (mem : List α → μ) (inplace : Bool) : Prop where
  lawful : Lawful M inplace
  rd : ∀ input i (hi : i < input.length), M.rd (mem input) i = some input[i]
  out : ∀ input, (M.out (mem input)).length = input.length

/-- Different element types: `output = make([]U, numItems)` (stream/stream.go:1219). -/
theorem setup_separate (zv : β) :
    Setup (sepMem α β) (fun input => (input, List.replicate input.length zv)) false :=
  ⟨sepMem_lawful α β, fun _ _ hi => List.getElem?_eq_getElem hi, by simp [sepMem]⟩

/-- Same element type: the input slice is also the output (stream/stream.go:1216). -/
theorem setup_inplace : Setup (oneMem α) (fun input => input) true :=
  ⟨oneMem_lawful α, fun _ _ hi => List.getElem?_eq_getElem hi, fun _ => rfl⟩

/-- The pieces of the input, concatenated, are the input. -/
theorem slices_flatten (xs : List α) {a : Nat} {rs : List (Nat × Nat)} (h : Chain a rs xs.length) :
    (rs.map (slice xs)).flatten = xs.drop a := by
  symm
  refine chain_concat xs h (slice xs) rfl ?_ ?_
  · intro r hr
    obtain ⟨k, hk⟩ := List.getElem?_of_mem hr
    have := h.bounds k r hk
    simp [slice]; omega
  · intro r hr i h1 h2
    simp only [slice]
    rw [List.getElem?_take_of_lt (by omega), List.getElem?_drop]
    congr 1; omega

theorem firstErr_none {es : List (Option Err)} (h : ∀ e ∈ es, e = none) : firstErr es = none := by
  induction es with
  | nil => rfl
  | cons e es ih =>
    rw [h e (by simp), firstErr]
    exact ih (fun x hx => h x (by simp [hx]))

/-! ### C43: transforms that produce one value per element -/

/-- C43 (restricted). If on every list of elements the transform, run sequentially, produces exactly one
value per element and ends with EOI — and, when the input and output types are the same, never gets
ahead of its input — then whatever the schedule, Parallel yields the concatenation of the transform's
outputs on the ranges, and cannot crash. Missing from C43: transforms which drop elements, for which
the claim is false (`c43_agrees_refuted`), and transforms which produce more, for which Parallel
crashes (`c43_expanding_refuted`). -/
theorem c43_agrees_partial {M : Mem μ α β} {mem : List α → μ} {ip : Bool} (S : Setup M mem ip)
    (act : τ → Act τ α β) (t0 : τ) (zv : β) (f : List α → List β)
    (hf : ∀ xs, SeqRun act ip t0 0 xs (f xs) .eoi ∧ (f xs).length = xs.length)
    (info : Option PInfo) (next : Call σ α) (s : σ) (xs : List α) (h : Yields next s xs .eoi)
    (res : Option (AnyIter β)) (hres : ParallelResult M mem act t0 zv info next s res) :
    ∃ it, res = some it ∧ it.YieldsForever
      (if xs.length < 2 then f xs else ((generateRanges xs.length info).map (fun r => f (slice xs r))).flatten)
      .eoi := by
  obtain ⟨st, hst⟩ := reduceToSlice_first next s xs .eoi h
  simp only [if_true] at hst
  cases hres with
  | sourceError he => rw [hst] at he; simp at he
  | empty he =>
    rw [hst] at he; simp at he
    obtain ⟨rfl, _⟩ := he
    refine ⟨_, rfl, ?_⟩
    have : f [] = [] := List.length_eq_zero_iff.mp (hf []).2
    simp [this]
    exact c26_empty
  | @one x st' he =>
    rw [hst] at he; simp at he
    obtain ⟨rfl, _⟩ := he
    refine ⟨_, rfl, ?_⟩
    simp only [List.length_singleton, if_pos (show (1 : Nat) < 2 by omega)]
    exact ofIter_forever (machine_yields act (hf [x]).1 _ _ (c26_one x))
  | @many input st' sched p he hl hp hfin =>
    rw [hst] at he; simp at he
    obtain ⟨rfl, _⟩ := he
    refine ⟨_, rfl, ?_⟩
    rw [if_neg (by omega)]
    have hc := c41_partition xs.length (by omega) info
    have hsl : ∀ r ∈ generateRanges xs.length info, (f (slice xs r)).length = r.2 - r.1 := by
      intro r hr
      obtain ⟨k, hk⟩ := List.getElem?_of_mem hr
      have := hc.bounds k r hk
      rw [(hf _).2]; simp [slice]; omega
    obtain ⟨-, -, h3⟩ := parallel_exec S.lawful act zv t0 (mem xs) xs _ hc (S.rd xs) (S.out xs)
      (fun r => f (slice xs r)) (fun _ => .eoi) (fun r _ => (hf _).1) (fun r hr => Nat.le_of_eq (hsl r hr))
    subst hp
    obtain ⟨h4, h5⟩ := h3 sched hfin
    rw [h5 (fun r hr => ⟨rfl, hsl r hr⟩)]
    have h6 : firstErr (Par.errs (Par.exec M act zv (generateRanges xs.length info)
        (Par.start t0 (mem xs) (generateRanges xs.length info)) sched)) = none := by
      rw [h4]; apply firstErr_none
      intro e he
      obtain ⟨r, -, hr⟩ := List.mem_map.mp he
      rw [← hr]; rfl
    unfold parResult
    simp only [h6]
    exact anySlice_forever _
  | @crash input st' sched p he hl hp hpan =>
    exfalso
    rw [hst] at he; simp at he
    obtain ⟨rfl, _⟩ := he
    have hc := c41_partition xs.length (by omega) info
    have hsl : ∀ r ∈ generateRanges xs.length info, (f (slice xs r)).length = r.2 - r.1 := by
      intro r hr
      obtain ⟨k, hk⟩ := List.getElem?_of_mem hr
      have := hc.bounds k r hk
      rw [(hf _).2]; simp [slice]; omega
    obtain ⟨-, h2, -⟩ := parallel_exec S.lawful act zv t0 (mem xs) xs _ hc (S.rd xs) (S.out xs)
      (fun r => f (slice xs r)) (fun _ => .eoi) (fun r _ => (hf _).1) (fun r hr => Nat.le_of_eq (hsl r hr))
    subst hp
    exact h2 sched hpan

/-- The hypotheses are met by Map: one value per element. -/
example : ∀ xs : List Nat, SeqRun (mapAct (· + 1)) true .idle 0 xs (xs.map (· + 1)) .eoi ∧ (xs.map (· + 1)).length = xs.length :=
  fun xs => ⟨mapAct_run _ _ _ _, List.length_map ..⟩

/-- `iter.OfSlice` as the source in the examples. -/
abbrev src (xs : List α) := It.next (sliceCall xs)

/-- C43 fails for Filter: the sequential result of keeping the even numbers of 1, 2 is 2, but Parallel
(here in one thread, for every schedule that lets it finish) yields 2, 2: the output keeps stale input. -/
theorem c43_agrees_refuted :
    YieldsForever (It.next (filterCall (pure (fun n : Nat => n % 2 == 0)) (src [1, 2]))) (ofIter (ofIter 0, ()))
      [2] .eoi ∧
    (∃ it, ParallelResult (oneMem Nat) (fun input => input) (filterAct (fun n : Nat => n % 2 == 0)) .idle 0
      (some ⟨1, false⟩) (src [1, 2]) (ofIter 0) (some it) ∧ it.YieldsForever [2, 2] .eoi) := by
  refine ⟨c32_filter (fun n : Nat => n % 2 == 0) (src [1, 2]) (ofIter 0) [1, 2] .eoi (yields_of_forever (c26_slice _)), ?_⟩
  obtain ⟨st, hst⟩ := reduceToSlice_first (src [1, 2]) (ofIter 0) [1, 2] .eoi (yields_of_forever (c26_slice _))
  refine ⟨_, .many (input := [1, 2]) (st := st) [0, 0, 0, 0, 0] _ (by simpa using hst) (by simp) rfl ?_, ?_⟩
  · intro ts hts
    have e : (Par.exec (oneMem Nat) (filterAct (fun n : Nat => n % 2 == 0)) 0 (generateRanges [1, 2].length (some ⟨1, false⟩))
      (Par.start .idle [1, 2] (generateRanges [1, 2].length (some ⟨1, false⟩))) [0, 0, 0, 0, 0]).threads = [.done none] := by
      rfl
    rw [e] at hts
    simp at hts
    exact ⟨_, hts⟩
  · exact anySlice_forever [2, 2]

/-- A transform that yields every element twice. -/
inductive TwiceState where
  | idle | first (a : Nat) | second (a : Nat) | ended

/-- stream/stream.go:109-117 `Transform` with a function that returns each value twice, as a machine. -/
def twiceAct : TwiceState → Act TwiceState Nat Nat
  | .idle => .read (fun r => match r with | some a => .first a | none => .ended)
  | .first a => .emit a (.second a)
  | .second a => .emit a .idle
  | .ended => .stop .eoi

/-- C43 fails for transforms that produce more values than elements: the program crashes. -/
theorem c43_expanding_refuted :
    ParallelResult (oneMem Nat) (fun input => input) twiceAct .idle 0 (some ⟨1, false⟩) (src [1, 2]) (ofIter 0)
      none := by
  obtain ⟨st, hst⟩ := reduceToSlice_first (src [1, 2]) (ofIter 0) [1, 2] .eoi (yields_of_forever (c26_slice _))
  refine .crash (input := [1, 2]) (st := st) [0, 0, 0, 0, 0] _ (by simpa using hst) (by simp) rfl ?_
  have e : (Par.exec (oneMem Nat) twiceAct 0 (generateRanges [1, 2].length (some ⟨1, false⟩))
      (Par.start .idle [1, 2] (generateRanges [1, 2].length (some ⟨1, false⟩))) [0, 0, 0, 0, 0]).threads = [.panicked] := by
    rfl
  rw [e]; simp

/-! ### C42: Map -/

theorem map_pieces (f : α → β) (xs : List α) (info : Option PInfo) :
    (if xs.length < 2 then xs.map f
      else ((generateRanges xs.length info).map (fun r => (slice xs r).map f)).flatten) = xs.map f := by
  split
  · rfl
  · have hc := c41_partition xs.length (by omega) info
    have := slices_flatten xs hc
    conv => rhs; rw [← List.drop_zero (l := xs), ← this, List.map_flatten, List.map_map]
    rfl

/-- C42. Parallel(Map(f)): whatever the schedule of the threads and the PInfo, the result is an iterator
over the images of the source's elements in order, both when the element types differ and when the
slice is modified in place. -/
theorem c42_map (f : α → β) (zv : β) (info : Option PInfo) (next : Call σ α) (s : σ) (xs : List α)
    (h : Yields next s xs .eoi) (res : Option (AnyIter β))
    (hres : ParallelResult (sepMem α β) (fun input => (input, List.replicate input.length zv)) (mapAct f) .idle zv
      info next s res) :
    ∃ it, res = some it ∧ it.YieldsForever (xs.map f) .eoi := by
  have := c43_agrees_partial (setup_separate zv) (mapAct f) .idle zv (List.map f)
    (fun xs => ⟨mapAct_run f _ xs 0, by simp⟩) info next s xs h res hres
  rwa [map_pieces] at this

/-- C42, element types equal: the slice is modified in place. -/
theorem c42_map_inplace (f : α → α) (zv : α) (info : Option PInfo) (next : Call σ α) (s : σ) (xs : List α)
    (h : Yields next s xs .eoi) (res : Option (AnyIter α))
    (hres : ParallelResult (oneMem α) (fun input => input) (mapAct f) .idle zv info next s res) :
    ∃ it, res = some it ∧ it.YieldsForever (xs.map f) .eoi := by
  have := c43_agrees_partial setup_inplace (mapAct f) .idle zv (List.map f)
    (fun xs => ⟨mapAct_run f _ xs 0, by simp⟩) info next s xs h res hres
  rwa [map_pieces] at this

/-- C42. The machine `mapAct f` is Map(f): applied to any source it yields what Map(f) yields. -/
theorem c42_machine_is_map (f : α → β) (next : Call σ α) (s : σ) (xs : List α) (h : YieldsForever next s xs .eoi) :
    YieldsForever (It.next (machineCall (mapAct f) next)) (ofIter (.idle, s)) (xs.map f) .eoi ∧
    YieldsForever (It.next (mapCall f next)) (ofIter s) (xs.map f) .eoi :=
  ⟨ofIter_forever (machine_yields _ (mapAct_run f false xs 0) next s h), c32_map f next s xs .eoi (yields_of_forever h)⟩

example := c42_machine_is_map (· * 2) (src [1, 2, 3]) (ofIter 0) [1, 2, 3] (c26_slice _)

/-- C42. The machine `mapErrAct f` is MapError(f). -/
theorem c42_machine_is_mapError (f : α → Except Err β) (next : Call σ α) (s : σ) (xs : List α)
    (h : YieldsForever next s xs .eoi) :
    YieldsForever (It.next (machineCall (mapErrAct f) next)) (ofIter (.idle, s)) (mapUntil f .eoi xs).1
      (mapUntil f .eoi xs).2 ∧
    YieldsForever (It.next (mapErrorCall f next)) (ofIter s) (mapUntil f .eoi xs).1 (mapUntil f .eoi xs).2 :=
  ⟨ofIter_forever (machine_yields _ (mapErrAct_run f false xs 0) next s h),
   c32_mapError f next s xs .eoi (yields_of_forever h)⟩

example := c42_machine_is_mapError (fun n : Nat => if n = 3 then .error (.user 1) else .ok (n * 10)) (src [1, 2, 3, 4]) (ofIter 0) [1, 2, 3, 4] (c26_slice _)

/-- C42. The machines `mapAct f` and `filterAct p` over a source that fails: like Map(f) and Filter(p), they yield the images, or the values that
pass, of what came before and then the source's error. -/
theorem c42_machine_failing (f : α → β) (p : α → Bool) (next : Call σ α) (s : σ) (xs : List α) (e : Err) (he : e ≠ .eoi) (h : Yields next s xs e) :
    (YieldsForever (It.next (machineCall (mapAct f) next)) (ofIter (.idle, s)) (xs.map f) e ∧
      YieldsForever (It.next (mapCall f next)) (ofIter s) (xs.map f) e) ∧
    (YieldsForever (It.next (machineCall (filterAct p) next)) (ofIter (.idle, s)) (xs.filter p) e ∧
      YieldsForever (It.next (filterCall (pure p) next)) (ofIter (s, ())) (xs.filter p) e) := by
  refine ⟨⟨ofIter_forever ?_, c32_map f next s xs e h⟩, ⟨ofIter_forever ?_, c32_filter p next s xs e h⟩⟩
  · induction h with
    | @stop s s' e h =>
      exact .stop (s' := (.idle, s')) (by simp only [machineCall]; rw [machineLoop]; simp only [mapAct, h, if_neg he])
    | @value s s' x xs e h _ ih =>
      refine .value (s' := (.idle, s')) ?_ (ih he)
      simp only [machineCall]
      rw [machineLoop]
      simp only [mapAct, h]
      rw [machineLoop]
      simp only [mapAct]
  · induction h with
    | @stop s s' e h =>
      exact .stop (s' := (.idle, s')) (by simp only [machineCall]; rw [machineLoop]; simp only [filterAct, h, if_neg he])
    | @value s s' x xs e h _ ih =>
      have hstep : machineCall (filterAct p) next (.idle, s) = machineCall (filterAct p) next (if p x then .have_ x else .idle, s') := by
        simp only [machineCall]
        conv_lhs => rw [machineLoop]
        simp only [filterAct, h]
      by_cases hx : p x
      · rw [List.filter_cons_of_pos hx]
        refine .value (s' := (.idle, s')) ?_ (ih he)
        rw [hstep, if_pos hx]
        simp only [machineCall]
        rw [machineLoop]
        simp only [filterAct]
      · rw [List.filter_cons_of_neg hx]
        rw [if_neg hx] at hstep
        have := ih he
        generalize xs.filter p = ys at this
        cases this with
        | stop h => exact .stop (hstep.trans h)
        | value h h' => exact .value (hstep.trans h) h'

/-- A source that gives 1 and 2 and then fails. -/
example := c42_machine_failing (· * 2) (· < 2) (It.next (mapErrorCall (fun n : Nat => if n = 3 then .error (.user 1) else .ok n) (src [1, 2, 3, 4])))
  (ofIter (ofIter 0)) [1, 2] (.user 1) (by simp) (yields_of_forever (c32_mapError (fun n : Nat => if n = 3 then .error (.user 1) else .ok n) (src [1, 2, 3, 4]) (ofIter 0)
    [1, 2, 3, 4] .eoi (yields_of_forever (c26_slice _))))

/-- C42. A failing source: its error is the result, no thread is started. -/
theorem c42_source_error {M : Mem μ α β} {mem : List α → μ} (act : τ → Act τ α β) (t0 : τ) (zv : β)
    (info : Option PInfo) (next : Call σ α) (s : σ) (xs : List α) (e : Err) (he : e ≠ .eoi)
    (h : Yields next s xs e) (res : Option (AnyIter β)) (hres : ParallelResult M mem act t0 zv info next s res) :
    ∃ it, res = some it ∧ it.YieldsForever [] e := by
  obtain ⟨st, hst⟩ := reduceToSlice_first next s xs e h
  simp only [he, if_false] at hst
  cases hres with
  | sourceError h' => rw [hst] at h'; simp at h'; obtain ⟨rfl, _⟩ := h'; exact ⟨_, rfl, anyError_forever _⟩
  | empty h' => rw [hst] at h'; simp at h'
  | one h' => rw [hst] at h'; simp at h'
  | many _ _ h' => rw [hst] at h'; simp at h'
  | crash _ _ h' => rw [hst] at h'; simp at h'

/-- A source that fails at its third element: Parallel does return, with that error. -/
example : ∃ it, ParallelResult (oneMem Nat) (fun input => input) (mapAct (· + 1)) .idle 0 none
    (It.next (mapErrorCall (fun n : Nat => if n = 3 then .error (.user 1) else .ok n) (src [1, 2, 3, 4]))) (ofIter (ofIter 0)) (some it) ∧
    it.YieldsForever [] (.user 1) := by
  have h := yields_of_forever (c32_mapError (fun n : Nat => if n = 3 then .error (.user 1) else .ok n) (src [1, 2, 3, 4]) (ofIter 0)
    [1, 2, 3, 4] .eoi (yields_of_forever (c26_slice _)))
  obtain ⟨st, hst⟩ := reduceToSlice_first _ _ _ _ h
  have hres : ParallelResult (oneMem Nat) (fun input => input) (mapAct (· + 1)) .idle 0 none
    (It.next (mapErrorCall (fun n : Nat => if n = 3 then .error (.user 1) else .ok n) (src [1, 2, 3, 4]))) (ofIter (ofIter 0)) (some (anyError (.user 1))) :=
    .sourceError (st := st) (by simpa [mapUntil] using hst)
  obtain ⟨it, h1, h2⟩ := c42_source_error _ _ _ _ _ _ [1, 2] (.user 1) (by simp) h _ hres
  cases h1
  exact ⟨_, hres, h2⟩

/-! #### Failing threads -/

theorem mapUntil_ok {f : α → Except Err β} {e : Err} {x : α} {y : β} (h : f x = .ok y) (xs : List α) :
    mapUntil f e (x :: xs) = (y :: (mapUntil f e xs).1, (mapUntil f e xs).2) := by
  simp only [mapUntil, h]

theorem mapUntil_err {f : α → Except Err β} {e e' : Err} {x : α} (h : f x = .error e') (xs : List α) :
    mapUntil f e (x :: xs) = ([], e') := by
  simp only [mapUntil, h]

theorem mapUntil_append (f : α → Except Err β) (xs ys : List α) (hf : ∀ x, f x ≠ .error .eoi) :
    (mapUntil f .eoi (xs ++ ys)).2 =
      if (mapUntil f .eoi xs).2 = .eoi then (mapUntil f .eoi ys).2 else (mapUntil f .eoi xs).2 := by
  induction xs with
  | nil => simp [mapUntil]
  | cons x xs ih =>
    rw [List.cons_append]
    cases hx : f x with
    | ok y => simp only [mapUntil_ok hx]; exact ih
    | error e =>
      simp only [mapUntil_err hx]
      rw [if_neg]
      intro h; subst h; exact hf x hx

theorem mapUntil_ok_length (f : α → Except Err β) (xs : List α) (hf : ∀ x, f x ≠ .error .eoi)
    (h : (mapUntil f .eoi xs).2 = .eoi) : (mapUntil f .eoi xs).1.length = xs.length := by
  induction xs with
  | nil => simp [mapUntil]
  | cons x xs ih =>
    simp only [mapUntil] at h ⊢
    cases hx : f x with
    | ok y => simp only [hx] at h ⊢; simp; exact ih h
    | error e => simp only [hx] at h; subst h; exact absurd hx (hf x)

theorem mapUntil_ok_append (f : α → Except Err β) (xs ys : List α)
    (h : (mapUntil f .eoi xs).2 = .eoi) (hf : ∀ x, f x ≠ .error .eoi) :
    (mapUntil f .eoi (xs ++ ys)).1 = (mapUntil f .eoi xs).1 ++ (mapUntil f .eoi ys).1 := by
  induction xs with
  | nil => simp [mapUntil]
  | cons x xs ih =>
    simp only [mapUntil, List.cons_append] at h ⊢
    cases hx : f x with
    | ok y => simp only [hx] at h ⊢; simp; exact ih h
    | error e => simp only [hx] at h; subst h; exact absurd hx (hf x)

theorem firstErr_pieces (f : α → Except Err β) (hf : ∀ x, f x ≠ .error .eoi) (xs : List α) {a : Nat}
    {rs : List (Nat × Nat)} (h : Chain a rs xs.length) :
    firstErr (rs.map (fun r => errOf (mapUntil f .eoi (slice xs r)).2)) = errOf (mapUntil f .eoi (xs.drop a)).2 := by
  rw [← slices_flatten xs h]
  clear h
  induction rs with
  | nil => simp [firstErr, mapUntil, errOf]
  | cons r rs ih =>
    simp only [List.map_cons, List.flatten_cons]
    rw [mapUntil_append f _ _ hf]
    unfold errOf at ih ⊢
    by_cases hr : (mapUntil f .eoi (slice xs r)).2 = .eoi
    · rw [if_pos hr, if_pos hr]; simp only [firstErr]; exact ih
    · rw [if_neg hr, if_neg hr, if_neg hr]; rfl

theorem values_pieces (f : α → Except Err β) (hf : ∀ x, f x ≠ .error .eoi) (ls : List (List α))
    (h : (mapUntil f .eoi ls.flatten).2 = .eoi) :
    (ls.map (fun l => (mapUntil f .eoi l).1)).flatten = (mapUntil f .eoi ls.flatten).1 ∧
    ∀ l ∈ ls, (mapUntil f .eoi l).2 = .eoi := by
  induction ls with
  | nil => simp [mapUntil]
  | cons l ls ih =>
    simp only [List.flatten_cons] at h
    rw [mapUntil_append f _ _ hf] at h
    by_cases hl : (mapUntil f .eoi l).2 = .eoi
    · rw [if_pos hl] at h
      obtain ⟨h1, h2⟩ := ih h
      refine ⟨?_, ?_⟩
      · simp only [List.map_cons, List.flatten_cons, h1, mapUntil_ok_append f _ _ hl hf]
      · intro l' hl'
        simp only [List.mem_cons] at hl'
        rcases hl' with rfl | hl'
        · exact hl
        · exact h2 l' hl'
    · rw [if_neg hl] at h; exact absurd h hl

/-- C42. Parallel(MapError(f)) for a function that never itself returns EOI: whatever the schedule, if no
element fails the result has all images; otherwise it has no values, and its error is that of the first
failing element in input order (hence of the first failing thread in range order). -/
theorem c42_mapError {M : Mem μ α β} {mem : List α → μ} {ip : Bool} (S : Setup M mem ip)
    (f : α → Except Err β) (hf : ∀ x, f x ≠ .error .eoi) (zv : β) (info : Option PInfo) (next : Call σ α) (s : σ)
    (xs : List α) (h : Yields next s xs .eoi) (res : Option (AnyIter β))
    (hres : ParallelResult M mem (mapErrAct f) .idle zv info next s res) :
    ∃ it, res = some it ∧
      ((∃ ys, xs.map f = ys.map .ok ∧ it.YieldsForever ys .eoi) ∨
       (∃ pre x post e, xs = pre ++ x :: post ∧ (∀ y ∈ pre, ∃ v, f y = .ok v) ∧ f x = .error e ∧
          it.YieldsForever [] e)) := by
  have spec : ∀ zs : List α, ((mapUntil f .eoi zs).2 = .eoi → zs.map f = (mapUntil f .eoi zs).1.map .ok) ∧
      ((mapUntil f .eoi zs).2 ≠ .eoi → ∃ pre x post, zs = pre ++ x :: post ∧ (∀ y ∈ pre, ∃ v, f y = .ok v) ∧
        f x = .error (mapUntil f .eoi zs).2) := by
    intro zs
    induction zs with
    | nil => simp [mapUntil]
    | cons z zs ih =>
      simp only [mapUntil]
      cases hz : f z with
      | ok y =>
        simp only
        refine ⟨fun h => by simp [hz, ih.1 h], fun h => ?_⟩
        obtain ⟨pre, x, post, h1, h2, h3⟩ := ih.2 h
        refine ⟨z :: pre, x, post, by simp [h1], ?_, h3⟩
        intro y hy
        simp only [List.mem_cons] at hy
        rcases hy with rfl | hy
        · exact ⟨_, hz⟩
        · exact h2 y hy
      | error e =>
        simp only
        exact ⟨fun h => by subst h; exact absurd hz (hf z), fun _ => ⟨[], z, zs, rfl, by simp, hz⟩⟩
  have main : ∃ it, res = some it ∧ ((mapUntil f .eoi xs).2 = .eoi → it.YieldsForever (mapUntil f .eoi xs).1 .eoi) ∧
      ((mapUntil f .eoi xs).2 ≠ .eoi → it.YieldsForever [] (mapUntil f .eoi xs).2) := by
    obtain ⟨st, hst⟩ := reduceToSlice_first next s xs .eoi h
    simp only [if_true] at hst
    have hexec := fun (hl : 2 ≤ xs.length) =>
      let hc := c41_partition xs.length (by omega) info
      parallel_exec S.lawful (mapErrAct f) zv .idle (mem xs) xs _ hc (S.rd xs) (S.out xs)
        (fun r => (mapUntil f .eoi (slice xs r)).1) (fun r => (mapUntil f .eoi (slice xs r)).2)
        (fun r _ => mapErrAct_run f ip _ 0)
        (fun r hr => Nat.le_trans (mapUntil_length f .eoi _) (by simp [slice]))
    cases hres with
    | sourceError he => rw [hst] at he; simp at he
    | empty he =>
      rw [hst] at he; simp at he
      obtain ⟨rfl, _⟩ := he
      exact ⟨_, rfl, fun _ => c26_empty, fun h => by simp [mapUntil] at h⟩
    | @one x st' he =>
      rw [hst] at he; simp at he
      obtain ⟨rfl, _⟩ := he
      have := ofIter_forever (machine_yields (mapErrAct f) (mapErrAct_run f ip [x] 0) _ _ (c26_one x))
      refine ⟨_, rfl, fun h => ?_, fun h => ?_⟩
      · rw [h] at this; exact this
      · have h0 : (mapUntil f .eoi [x]).1 = [] := by
          simp only [mapUntil] at h ⊢
          cases hx : f x with
          | ok y => simp [hx] at h
          | error e => rfl
        rw [h0] at this; exact this
    | @many input st' sched p he hl hp hfin =>
      rw [hst] at he; simp at he
      obtain ⟨rfl, _⟩ := he
      refine ⟨_, rfl, ?_⟩
      have hc := c41_partition xs.length (by omega) info
      obtain ⟨-, -, h3⟩ := hexec hl
      subst hp
      obtain ⟨h4, h5⟩ := h3 sched hfin
      have h6 := firstErr_pieces f hf xs hc
      rw [← h4, List.drop_zero] at h6
      unfold parResult
      simp only [h6]
      constructor
      · intro he
        simp only [he, errOf, if_true]
        have h7 := values_pieces f hf ((generateRanges xs.length info).map (slice xs))
        rw [slices_flatten xs hc, List.drop_zero] at h7
        obtain ⟨h8, h9⟩ := h7 he
        rw [h5, show ((generateRanges xs.length info).map (fun r => (mapUntil f .eoi (slice xs r)).1))
          = ((generateRanges xs.length info).map (slice xs)).map (fun l => (mapUntil f .eoi l).1) by simp [Function.comp_def], h8]
        · exact anySlice_forever _
        · intro r hr
          have := h9 (slice xs r) (List.mem_map_of_mem hr)
          refine ⟨this, ?_⟩
          rw [mapUntil_ok_length f _ hf this]
          obtain ⟨k, hk⟩ := List.getElem?_of_mem hr
          have := hc.bounds k r hk
          simp [slice]; omega
      · intro he
        simp only [errOf, if_neg he]
        exact anyError_forever _
    | @crash input st' sched p he hl hp hpan =>
      exfalso
      rw [hst] at he; simp at he
      obtain ⟨rfl, _⟩ := he
      subst hp
      exact (hexec hl).2.1 sched hpan
  obtain ⟨it, h1, h2, h3⟩ := main
  refine ⟨it, h1, ?_⟩
  by_cases he : (mapUntil f .eoi xs).2 = .eoi
  · exact Or.inl ⟨_, (spec xs).1 he, h2 he⟩
  · obtain ⟨pre, x, post, a, b, c⟩ := (spec xs).2 he
    exact Or.inr ⟨pre, x, post, _, a, b, c, h3 he⟩

/-- C42. The threads of Parallel(Map(f)) finish under every schedule that lets each of them make enough
steps: Parallel does not block. -/
theorem c42_map_finishes {M : Mem μ α β} {mem : List α → μ} {ip : Bool} (S : Setup M mem ip) (f : α → β) (zv : β)
    (xs : List α) (hl : 2 ≤ xs.length) (info : Option PInfo) :
    ∃ N, ∀ sched : List Nat, (∀ k, k < (generateRanges xs.length info).length → N ≤ sched.count k) →
      (Par.exec M (mapAct f) zv (generateRanges xs.length info)
        (Par.start .idle (mem xs) (generateRanges xs.length info)) sched).finished :=
  (parallel_exec S.lawful (mapAct f) zv .idle (mem xs) xs _ (c41_partition xs.length (by omega) info)
    (S.rd xs) (S.out xs) (fun r => (slice xs r).map f) (fun _ => .eoi) (fun r _ => mapAct_run f ip _ 0)
    (fun r hr => by simp [slice])).1

/-- A schedule interleaving two threads, read and write steps mixed: the hypotheses are met. -/
example : ∃ it, ParallelResult (oneMem Nat) (fun input => input) (mapAct (· + 1)) .idle 0 (some ⟨2, false⟩)
    (src [1, 2, 3]) (ofIter 0) (some it) := by
  obtain ⟨st, hst⟩ := reduceToSlice_first (src [1, 2, 3]) (ofIter 0) [1, 2, 3] .eoi (yields_of_forever (c26_slice _))
  refine ⟨_, .many (input := [1, 2, 3]) (st := st) [0, 1, 0, 1, 0, 1, 1, 1, 0, 0, 0, 0] _ (by simpa using hst) (by simp) rfl ?_⟩
  intro ts hts
  have e : (Par.exec (oneMem Nat) (mapAct (· + 1)) 0 (generateRanges [1, 2, 3].length (some ⟨2, false⟩))
    (Par.start .idle [1, 2, 3] (generateRanges [1, 2, 3].length (some ⟨2, false⟩))) [0, 1, 0, 1, 0, 1, 1, 1, 0, 0, 0, 0]).threads
      = [.done none, .done none] := by rfl
  rw [e] at hts
  simp at hts
  exact ⟨_, hts⟩

end Micro.Stream
