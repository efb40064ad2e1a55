import Verif.Stream.ParProps
set_option linter.unusedSimpArgs false
/-
C43, converse: what Parallel gives for transforms that drop values, exactly when this is right, and that it crashes for all transforms that produce
more values than a range has elements.
-/
namespace Micro.Stream
open Micro Micro.Iter

variable {σ τ α β μ : Type}

theorem exec_out_length {M : Mem μ α β} {ip : Bool} (L : Lawful M ip) (act : τ → Act τ α β) (zv : β) (ranges : List (Nat × Nat)) (p0 : Par μ τ)
    (sched : List Nat) : (M.out (Par.exec M act zv ranges p0 sched).mem).length = (M.out p0.mem).length := by
  induction sched using List.reverseRecOn with
  | nil => rfl
  | append_singleton sched j ih =>
    have hex : Par.exec M act zv ranges p0 (sched ++ [j]) = Par.step M act zv ranges (Par.exec M act zv ranges p0 sched) j := by
      simp [Par.exec, List.foldl_append]
    rw [hex, ← ih]
    generalize Par.exec M act zv ranges p0 sched = p
    unfold Par.step
    split
    · rename_i r ts _ _
      simp only
      unfold stepThread
      cases ts with
      | run t ri wi =>
        simp only
        cases act t with
        | read k => simp only; split <;> rfl
        | emit b t' => simp only; split
                       · simp only [L.out_wr, List.length_set]
                       · rfl
        | stop e => simp only; split <;> rfl
      | zeroing e i =>
        simp only; split
        · simp only [L.out_wr, List.length_set]
        · rfl
      | done e => rfl
      | panicked => rfl
    · rfl

/-- The output after every complete execution: each range begins with what its transform produced, the rest of the range is as it was before. -/
theorem parallel_stale {M : Mem μ α β} {ip : Bool} (L : Lawful M ip) (act : τ → Act τ α β) (zv : β) (t0 : τ) (m0 : μ)
    (input : List α) (ranges : List (Nat × Nat)) (hc : Chain 0 ranges input.length)
    (hrd : ∀ i (hi : i < input.length), M.rd m0 i = some input[i]) (hol : (M.out m0).length = input.length)
    (outs : Nat × Nat → List β) (hrun : ∀ r ∈ ranges, SeqRun act ip t0 0 (slice input r) (outs r) .eoi)
    (hlen : ∀ r ∈ ranges, (outs r).length ≤ r.2 - r.1) (sched : List Nat)
    (hfin : (Par.exec M act zv ranges (Par.start t0 m0 ranges) sched).finished) :
    M.out (Par.exec M act zv ranges (Par.start t0 m0 ranges) sched).mem =
      (ranges.map (fun r => outs r ++ (slice (M.out m0) r).drop (outs r).length)).flatten := by
  obtain ⟨hl, hp⟩ := exec_projection L act zv ranges hc t0 m0 sched
  have hlo := exec_out_length L act zv ranges (Par.start t0 m0 ranges) sched
  have := chain_concat (M.out (Par.exec M act zv ranges (Par.start t0 m0 ranges) sched).mem) hc
    (fun r => outs r ++ (slice (M.out m0) r).drop (outs r).length) (by rw [hlo]; exact hol) ?_ ?_
  · simpa using this
  · intro r hr
    obtain ⟨k, hk⟩ := List.getElem?_of_mem hr
    have hb := hc.bounds k r hk
    have := hlen r hr
    simp [slice]; omega
  · intro r hr i h1 h2
    obtain ⟨k, hk⟩ := List.getElem?_of_mem hr
    obtain ⟨hkl, rfl⟩ := List.getElem?_eq_some_iff.mp hk
    have hb := hc.bounds k _ hk
    have hsl : (slice input ranges[k]).length = ranges[k].2 - ranges[k].1 := by simp [slice]; omega
    obtain ⟨n, m', he, ho⟩ := thread_alone L act zv ranges[k] (by omega) (hrun _ hr) m0 hsl (by
      intro i hi
      rw [hsl] at hi
      rw [hrd (ranges[k].1 + i) (by omega)]
      simp [slice]) (by rw [hsl]; exact hlen _ hr)
    have h3 := hp k ranges[k] hk
    obtain ⟨e', he'⟩ := hfin _ (List.mem_of_getElem? h3.1)
    have he2 := alone_done_unique he he'
    rw [(h3.2 i h1 h2).2, he2]
    simp only
    rw [ho rfl, setMany_get _ _ _ _ (by omega)]
    have := hlen _ hr
    by_cases hi : i < ranges[k].1 + (outs ranges[k]).length
    · rw [if_pos ⟨h1, hi⟩, List.getElem?_append_left (by omega)]
    · rw [if_neg (by omega), List.getElem?_append_right (by omega), List.getElem?_drop]
      simp only [slice]
      rw [List.getElem?_take_of_lt (by omega), List.getElem?_drop]
      congr 1; omega

/-- What Parallel gives for a range: what the transform produced, then whatever the output slice had before in the rest of the range. -/
def stalePiece (f : List α → List β) (out0 : List β) (xs : List α) (r : Nat × Nat) : List β :=
  f (slice xs r) ++ (slice out0 r).drop (f (slice xs r)).length

theorem flatten_length_chain {a c : Nat} {rs : List (Nat × Nat)} (h : Chain a rs c) (g : Nat × Nat → List β) (hg : ∀ r ∈ rs, (g r).length = r.2 - r.1) :
    ((rs.map g).flatten).length = c - a := by
  induction h with
  | nil => simp
  | @cons a b c rs hab hc ih =>
    have := ih (fun r hr => hg r (by simp [hr]))
    have h2 := hg (a, b) (by simp)
    have := hc.le
    simp only [List.map_cons, List.flatten_cons, List.length_append, this, h2]
    omega

theorem flatten_length_lt {a c : Nat} {rs : List (Nat × Nat)} (h : Chain a rs c) (g : Nat × Nat → List β) (hg : ∀ r ∈ rs, (g r).length ≤ r.2 - r.1)
    (r0 : Nat × Nat) (hr0 : r0 ∈ rs) (hlt : (g r0).length < r0.2 - r0.1) : ((rs.map g).flatten).length < c - a := by
  have le : ∀ {a c : Nat} {rs : List (Nat × Nat)}, Chain a rs c → (∀ r ∈ rs, (g r).length ≤ r.2 - r.1) → ((rs.map g).flatten).length ≤ c - a := by
    intro a c rs h hg
    induction h with
    | nil => simp
    | @cons a b c rs hab hc ih =>
      have := ih (fun r hr => hg r (by simp [hr]))
      have h2 := hg (a, b) (by simp)
      have := hc.le
      simp only [List.map_cons, List.flatten_cons, List.length_append] at *
      omega
  induction h with
  | nil => simp at hr0
  | @cons a b c rs hab hc ih =>
    have hle := le hc (fun r hr => hg r (by simp [hr]))
    have h2 := hg (a, b) (by simp)
    have := hc.le
    simp only [List.map_cons, List.flatten_cons, List.length_append] at *
    simp only [List.mem_cons] at hr0
    rcases hr0 with rfl | hr0
    · simp only at hlt; omega
    · have := ih (fun r hr => hg r (by simp [hr])) hr0
      omega

/-- C43, exactly: a transform that produces no more values than it has read. With two or more elements, whatever the schedule, each range gives what the
transform produced for it followed by leftovers: zero values, or, if both types are the same, elements of the source. -/
theorem c43_exact {M : Mem μ α β} {mem : List α → μ} {ip : Bool} (S : Setup M mem ip)
    (act : τ → Act τ α β) (t0 : τ) (zv : β) (f : List α → List β)
    (hf : ∀ xs, SeqRun act ip t0 0 xs (f xs) .eoi ∧ (f xs).length ≤ xs.length)
    (info : Option PInfo) (next : Call σ α) (s : σ) (xs : List α) (h : Yields next s xs .eoi) (h2 : 2 ≤ xs.length)
    (res : Option (AnyIter β)) (hres : ParallelResult M mem act t0 zv info next s res) :
    ∃ it, res = some it ∧ it.YieldsForever ((generateRanges xs.length info).map (stalePiece f (M.out (mem xs)) xs)).flatten .eoi := by
  obtain ⟨st, hst⟩ := reduceToSlice_first next s xs .eoi h
  simp only [if_true] at hst
  have hc := c41_partition xs.length (by omega) info
  have hsl : ∀ r ∈ generateRanges xs.length info, (f (slice xs r)).length ≤ r.2 - r.1 := by
    intro r hr
    obtain ⟨k, hk⟩ := List.getElem?_of_mem hr
    have := hc.bounds k r hk
    refine le_trans (hf _).2 ?_
    simp [slice]
  have hex := parallel_exec S.lawful act zv t0 (mem xs) xs _ hc (S.rd xs) (S.out xs)
      (fun r => f (slice xs r)) (fun _ => .eoi) (fun r _ => (hf _).1) hsl
  cases hres with
  | sourceError he => rw [hst] at he; simp at he
  | empty he =>
    rw [hst] at he; simp at he
    obtain ⟨rfl, _⟩ := he
    simp at h2
  | @one x st' he =>
    rw [hst] at he; simp at he
    obtain ⟨rfl, _⟩ := he
    simp at h2
  | @many input st' sched p he hl hp hfin =>
    rw [hst] at he; simp at he
    obtain ⟨rfl, _⟩ := he
    refine ⟨_, rfl, ?_⟩
    subst hp
    obtain ⟨h4, -⟩ := hex.2.2 sched hfin
    rw [parallel_stale S.lawful act zv t0 (mem xs) xs _ hc (S.rd xs) (S.out xs) (fun r => f (slice xs r)) (fun r _ => (hf _).1) hsl sched hfin]
    have h6 : firstErr (Par.errs (Par.exec M act zv (generateRanges xs.length info)
        (Par.start t0 (mem xs) (generateRanges xs.length info)) sched)) = none := by
      rw [h4]; apply firstErr_none
      intro e he
      obtain ⟨r, -, hr⟩ := List.mem_map.mp he
      rw [← hr]; rfl
    unfold parResult
    simp only [h6]
    exact anySlice_forever _
  | @crash input st' sched p he hl hp hpan =>
    exfalso
    rw [hst] at he; simp at he
    obtain ⟨rfl, _⟩ := he
    subst hp
    exact hex.2.1 sched hpan

theorem yields_len {σ' α' : Type} {call : Call σ' α'} {s : σ'} {xs ys : List α'} {e e' : Err} (h1 : YieldsForever call s xs e)
    (h2 : YieldsForever call s ys e') : xs = ys := ((yields_of_forever h1).unique (yields_of_forever h2)).1

/-- C43: such a transform is right exactly if it gives one value per element on every range. -/
theorem c43_iff {M : Mem μ α β} {mem : List α → μ} {ip : Bool} (S : Setup M mem ip)
    (act : τ → Act τ α β) (t0 : τ) (zv : β) (f : List α → List β)
    (hf : ∀ xs, SeqRun act ip t0 0 xs (f xs) .eoi ∧ (f xs).length ≤ xs.length)
    (info : Option PInfo) (next : Call σ α) (s : σ) (xs : List α) (h : Yields next s xs .eoi) (h2 : 2 ≤ xs.length)
    (it : AnyIter β) (hres : ParallelResult M mem act t0 zv info next s (some it)) :
    it.YieldsForever ((generateRanges xs.length info).map (fun r => f (slice xs r))).flatten .eoi ↔
      ∀ r ∈ generateRanges xs.length info, (f (slice xs r)).length = r.2 - r.1 := by
  obtain ⟨it', he, hy⟩ := c43_exact S act t0 zv f hf info next s xs h h2 _ hres
  simp only [Option.some.injEq] at he
  subst he
  have hc := c41_partition xs.length (by omega) info
  have hsl : ∀ r ∈ generateRanges xs.length info, (f (slice xs r)).length ≤ r.2 - r.1 := by
    intro r hr
    refine le_trans (hf _).2 ?_
    simp [slice]
  have hst : ∀ r ∈ generateRanges xs.length info, (stalePiece f (M.out (mem xs)) xs r).length = r.2 - r.1 := by
    intro r hr
    obtain ⟨k, hk⟩ := List.getElem?_of_mem hr
    have := hc.bounds k r hk
    have := hsl r hr
    have := S.out xs
    simp [stalePiece, slice] at *; omega
  constructor
  · intro hy2 r hr
    by_contra hne
    have e := congrArg List.length (yields_len hy hy2)
    rw [flatten_length_chain hc _ hst] at e
    have := flatten_length_lt hc (fun r => f (slice xs r)) hsl r hr (lt_of_le_of_ne (hsl r hr) hne)
    omega
  · intro hall
    have e : (generateRanges xs.length info).map (fun r => f (slice xs r)) = (generateRanges xs.length info).map (stalePiece f (M.out (mem xs)) xs) := by
      apply List.map_congr_left
      intro r hr
      simp only [stalePiece]
      rw [List.drop_eq_nil_of_le, List.append_nil]
      rw [hall r hr]; simp [slice]
    rw [e]
    exact hy

/-- C43: Parallel(Filter(p)) of two or more elements gives the elements that match exactly if all do, and otherwise values that the sequential Filter
does not give. -/
theorem c43_filter_iff (p : α → Bool) (zv : α) (info : Option PInfo) (next : Call σ α) (s : σ) (xs : List α)
    (h : Yields next s xs .eoi) (h2 : 2 ≤ xs.length) (it : AnyIter α)
    (hres : ParallelResult (oneMem α) (fun input => input) (filterAct p) .idle zv info next s (some it)) :
    (it.YieldsForever (xs.filter p) .eoi ↔ ∀ x ∈ xs, p x = true) ∧ (∃ ys, ys.length = xs.length ∧ it.YieldsForever ys .eoi) := by
  obtain ⟨it', he, hy⟩ := c43_exact setup_inplace (filterAct p) .idle zv (List.filter p) (fun xs => ⟨filterAct_run p _ xs 0, List.length_filter_le _ _⟩)
    info next s xs h h2 _ hres
  simp only [Option.some.injEq] at he
  subst he
  have hc := c41_partition xs.length (by omega) info
  have hst : ∀ r ∈ generateRanges xs.length info, (stalePiece (List.filter p) xs xs r).length = r.2 - r.1 := by
    intro r hr
    obtain ⟨k, hk⟩ := List.getElem?_of_mem hr
    have := hc.bounds k r hk
    have := List.length_filter_le p (slice xs r)
    simp only [stalePiece, List.length_append, List.length_drop]
    have : (slice xs r).length = r.2 - r.1 := by simp [slice]; omega
    omega
  have hlen := flatten_length_chain hc _ hst
  rw [Nat.sub_zero] at hlen
  refine ⟨⟨fun hy2 => ?_, fun hall => ?_⟩, _, hlen, hy⟩
  · have e := congrArg List.length (yields_len hy hy2)
    have e2 : (xs.filter p).length = xs.length := by rw [← e]; exact hlen
    exact List.length_filter_eq_length_iff.1 e2
  · have e : ((generateRanges xs.length info).map (stalePiece (List.filter p) xs xs)).flatten = xs := by
      have := slices_flatten xs hc
      rw [List.drop_zero] at this
      refine Eq.trans ?_ this
      congr 1
      apply List.map_congr_left
      intro r _
      have : (slice xs r).filter p = slice xs r := by
        rw [List.filter_eq_self]
        intro a ha
        exact hall a (List.mem_of_mem_drop (List.mem_of_mem_take ha))
      simp only [stalePiece, this]
      simp
    have e2 : xs.filter p = xs := List.filter_eq_self.2 hall
    rw [e2]
    simp only [oneMem] at hy
    rw [e] at hy
    exact hy

/-- The case of `c43_agrees_refuted`: not all of 1, 2 are even, so the result is not the even ones. -/
example : ∃ it : AnyIter Nat, ¬ it.YieldsForever [2] .eoi ∧ ∃ ys, ys.length = 2 ∧ it.YieldsForever ys .eoi := by
  obtain ⟨it, h, -⟩ := c43_agrees_refuted.2
  obtain ⟨h1, h2⟩ := c43_filter_iff (fun n : Nat => n % 2 == 0) 0 _ _ _ [1, 2] (yields_of_forever (c26_slice _)) (by decide) it h
  exact ⟨it, fun hc => absurd (h1.1 hc) (by decide), h2⟩

theorem run_alone_panics {M : Mem μ α β} {ip : Bool} (L : Lawful M ip) (act : τ → Act τ α β) (zv : β) (r : Nat × Nat)
    {t : τ} {d : Nat} {xs : List α} {outs : List β} {e : Err} (h : SeqRun act ip t d xs outs e) :
    ∀ (m : μ) (ri wi : Nat), (ip = true → wi + d = ri) → r.1 + ri + xs.length = r.2 →
      (∀ i (hi : i < xs.length), M.rd m (r.1 + ri + i) = some xs[i]) → r.2 < r.1 + wi + outs.length → r.1 + wi ≤ r.2 →
      ∃ n m', alone M act zv r n (m, .run t ri wi) = (m', .panicked) := by
  induction h with
  | @stop t d xs e hs =>
    intro m ri wi _ _ _ h1 h2
    simp at h1; omega
  | @emit t d xs b t' outs e hs hd _ ih =>
    intro m ri wi hip hlen hrd hout hle
    simp only [List.length_cons] at hout
    by_cases hlt : r.1 + wi < r.2
    · obtain ⟨n, m', h1⟩ := ih (M.wr m (r.1 + wi) b) ri (wi + 1)
        (by intro h; have := hip h; have := hd h; omega) hlen
        (by
          intro i hi
          rw [← hrd i hi]
          cases ip with
          | false => exact L.rd_sep rfl _ _ _ _
          | true => have := hip rfl; have := hd rfl; exact L.rd_other _ _ _ _ (by omega))
        (by omega) (by omega)
      refine ⟨1 + n, m', ?_⟩
      rw [alone_add]
      simp only [alone, stepThread, hs]
      rw [if_pos hlt]
      exact h1
    · refine ⟨1, m, ?_⟩
      simp only [alone, stepThread, hs]
      rw [if_neg hlt]
  | @read t d k x xs outs e hs _ ih =>
    intro m ri wi hip hlen hrd hout hle
    simp only [List.length_cons] at hlen
    obtain ⟨n, m', h1⟩ := ih m (ri + 1) wi (by intro h; have := hip h; omega) (by omega)
      (by
        intro i hi
        have := hrd (i + 1) (by simpa using hi)
        rw [show r.1 + (ri + 1) + i = r.1 + ri + (i + 1) by omega, this]; simp)
      hout hle
    refine ⟨1 + n, m', ?_⟩
    rw [alone_add]
    simp only [alone, stepThread, hs]
    rw [if_pos (by omega)]
    have := hrd 0 (by simp)
    simp only [Nat.add_zero, List.getElem_cons_zero] at this
    simp only [this]
    exact h1
  | @readEnd t d k outs e hs _ ih =>
    intro m ri wi hip hlen hrd hout hle
    obtain ⟨n, m', h1⟩ := ih m ri wi hip hlen hrd hout hle
    refine ⟨1 + n, m', ?_⟩
    rw [alone_add]
    simp only [List.length_nil] at hlen
    simp only [alone, stepThread, hs]
    rw [if_neg (by omega)]
    exact h1

/-- C43: if on some range the transform produces more values than the range has elements, Parallel never returns: no schedule lets all threads finish,
and every schedule that lets that thread run long enough crashes the program. -/
theorem c43_expanding_crashes (act : τ → Act τ α β) (t0 : τ) (zv : β) (f : List α → List β) (e : Err)
    (info : Option PInfo) (xs : List α) (h2 : 2 ≤ xs.length) (k : Nat) (r : Nat × Nat) (hk : (generateRanges xs.length info)[k]? = some r)
    (hf : SeqRun act false t0 0 (slice xs r) (f (slice xs r)) e) (hlong : r.2 - r.1 < (f (slice xs r)).length) :
    ∃ N, ∀ sched : List Nat,
      let p := Par.exec (sepMem α β) act zv (generateRanges xs.length info)
        (Par.start t0 (xs, List.replicate xs.length zv) (generateRanges xs.length info)) sched
      ¬ p.finished ∧ (N ≤ sched.count k → .panicked ∈ p.threads) := by
  have hc := c41_partition xs.length (by omega) info
  have hb := hc.bounds k r hk
  have hsl : (slice xs r).length = r.2 - r.1 := by simp [slice]; omega
  obtain ⟨n, m', hn⟩ := run_alone_panics (sepMem_lawful α β) act zv r hf (xs, List.replicate xs.length zv) 0 0 (by simp) (by omega)
    (by
      intro i hi
      rw [hsl] at hi
      simp only [sepMem, slice, Nat.add_zero]
      rw [List.getElem?_eq_getElem (by omega)]
      simp) (by omega) (by omega)
  have fx : ∀ m, stepThread (sepMem α β) act zv r.1 r.2 m (.panicked : TS τ) = (m, .panicked) := fun _ => rfl
  refine ⟨n, fun sched => ?_⟩
  obtain ⟨hl, hp⟩ := exec_projection (sepMem_lawful α β) act zv _ hc t0 (xs, List.replicate xs.length zv) sched
  have h3 := (hp k r hk).1
  refine ⟨fun hfin => ?_, fun hN => ?_⟩
  · obtain ⟨e', he'⟩ := hfin _ (List.mem_of_getElem? h3)
    have : alone (sepMem α β) act zv r (sched.count k) ((xs, List.replicate xs.length zv), .run t0 0 0) =
        ((alone (sepMem α β) act zv r (sched.count k) ((xs, List.replicate xs.length zv), .run t0 0 0)).1, .done e') := by rw [← he']
    exact alone_not_panicked (k := n) this (by rw [hn])
  · obtain ⟨j, hj⟩ := Nat.exists_eq_add_of_le hN
    rw [hj, alone_add, hn, alone_fixed _ _ _ _ _ _ _ (fx _)] at h3
    exact List.mem_of_getElem? h3

/-- Two ranges, each element twice. -/
example : (generateRanges 4 (some ⟨2, false⟩))[1]? = some (2, 4) ∧ ∃ e, SeqRun twiceAct false .idle 0 (slice [1, 2, 3, 4] (2, 4)) [3, 3, 4, 4] e :=
  ⟨by decide, .eoi, .read rfl (.emit rfl (by simp) (.emit rfl (by simp) (.read rfl (.emit rfl (by simp) (.emit rfl (by simp) (.readEnd rfl (.stop rfl)))))))⟩

/-- The same name is the same type. -/
def SameKind (t u : ElemType) : Prop := t.name = u.name → t.iface = u.iface

/-- C43 fails for two different interface types (for example error and any): two or more elements make Parallel panic, whatever the transform. -/
theorem c43_interfaces_refuted : ∃ t u : ElemType, SameKind t u ∧ t.name ≠ u.name ∧ outputChoice t u = .panics :=
  ⟨⟨0, true⟩, ⟨1, true⟩, by simp [SameKind], by simp, by simp [outputChoice, ElemType.typeOfZero]⟩

/-- C43: the output slice is the input slice exactly for equal types, and Parallel panics exactly for two different interface types. -/
theorem c43_output_iff (t u : ElemType) (h : SameKind t u) :
    (outputChoice t u = .inplace ↔ t.name = u.name) ∧ (outputChoice t u = .panics ↔ t.iface = true ∧ u.iface = true ∧ t.name ≠ u.name) := by
  obtain ⟨n, i⟩ := t
  obtain ⟨m, j⟩ := u
  simp only [SameKind] at h
  by_cases hn : n = m
  · subst hn
    obtain rfl := h rfl
    simp [outputChoice]
  · cases i <;> cases j <;> simp [outputChoice, ElemType.typeOfZero, hn]

example := c43_output_iff ⟨0, true⟩ ⟨1, true⟩ (by intro h; cases h)

end Micro.Stream
