import Verif.IO.MemModel
import Verif.IO.Props
import Verif.Funcs.SliceLemmas
set_option linter.unusedSimpArgs false
/-
C137: the memory behind an ErrorWriter, and writers for which nil matters.
-/
namespace Micro.IO
open Micro Micro.Iter Micro.Funcs

/-- The writer's slice lies in memory, and has room for all bytes that may be written. -/
structure WOk (m : SMem Nat) (w : MemWriter) : Prop where
  ok : m.Ok w.out
  cap : 0 ≤ w.count → w.count = w.out.cap

theorem elems_sub (m : SMem Nat) (p : Slc) (n : Nat) (hn : n ≤ p.len) : m.elems (p.sub 0 n) = (m.elems p).take n := by
  simp [SMem.elems, Slc.sub, List.take_take, Nat.min_eq_left hn]

/-- Both cases of Write: nothing is written, or bytes are put behind the output, in place. -/
theorem write_cases (grow : Nat → Nat) (m : SMem Nat) (w : MemWriter) (p : Slc) (hw : WOk m w) (hp : m.Ok p) :
    ((w.write grow m p).2 = (m, w)) ∨
    (∃ vs, (w.write grow m p).2 = (m.write w.out.arr (w.out.off + w.out.len) vs, { w with out := { w.out with len := w.out.len + vs.length } }) ∧
      vs <+: m.elems p ∧ w.out.len + vs.length ≤ w.out.cap) := by
  unfold MemWriter.write
  by_cases h1 : (w.out.len : Int) = w.count
  · left; simp [h1]
  · by_cases h2 : w.count < 0
    · left; simp [h1, h2]
    · right
      have hc := hw.cap (by omega)
      have hl := hw.ok.len
      rw [if_neg h1, if_neg h2]
      obtain ⟨n, hn⟩ : ∃ n, n = (min (p.len : Int) (w.count - w.out.len)).toNat := ⟨_, rfl⟩
      rw [← hn]
      have hnp : n ≤ p.len := by omega
      have hnc : w.out.len + n ≤ w.out.cap := by omega
      have he := elems_sub m p n hnp
      have hlen : (m.elems (p.sub 0 n)).length = n := by rw [he, List.length_take, elems_length hp]; omega
      refine ⟨m.elems (p.sub 0 n), ?_, by rw [he]; exact List.take_prefix _ _, by omega⟩
      simp only [SMem.append]
      rw [if_pos (by omega)]

theorem write_ok (grow : Nat → Nat) (m : SMem Nat) (w : MemWriter) (p : Slc) (hw : WOk m w) (hp : m.Ok p) :
    WOk (w.write grow m p).2.1 (w.write grow m p).2.2 := by
  rcases write_cases grow m w p hw hp with h | ⟨vs, h, -, hc⟩
  · rw [h]; exact hw
  · rw [h]
    have h1 := hw.ok.len; have h2 := hw.ok.cap
    have := ok_write hw.ok w.out.arr (w.out.off + w.out.len) vs (by omega)
    exact ⟨⟨this.arr, hc, this.cap⟩, hw.cap⟩

/-- C137. NewErrorWriter starts with an empty output in an array of its own; nothing else changes. -/
theorem c137_new (m : SMem Nat) (count : Int) (err : Option Err) :
    WOk (newMemWriter m count err).1 (newMemWriter m count err).2 ∧ (newMemWriter m count err).1.elems (newMemWriter m count err).2.output = [] ∧
    ∀ t, m.Ok t → (newMemWriter m count err).1.Ok t ∧ (newMemWriter m count err).1.elems t = m.elems t ∧ t.arr ≠ (newMemWriter m count err).2.output.arr := by
  obtain ⟨h1, h2, h3, -, h5, -, h7⟩ := make_spec 0 m 0 (max 0 count).toNat (Nat.zero_le _)
  refine ⟨⟨h1, ?_⟩, h2, fun t ht => ⟨(h7 t ht).1, (h7 t ht).2, ?_⟩⟩
  · intro hc
    simp only [newMemWriter, SMem.make] at hc ⊢
    omega
  · have := ok_ne_next ht
    exact this

/-- C137. Write records and returns what C56 says, whatever slice the bytes come from (even one of the output itself); no slice outside the writer's
array changes, and no output that was handed out. -/
theorem c137_write (grow : Nat → Nat) (m : SMem Nat) (w : MemWriter) (p : Slc) (hw : WOk m w) (hp : m.Ok p) :
    let r := w.write grow m p
    ErrorWriter.write ⟨w.count, m.elems w.output, w.err⟩ (m.elems p) = (r.1.1, r.1.2, ⟨w.count, r.2.1.elems r.2.2.output, w.err⟩) ∧
    r.2.1.elems w.output = m.elems w.output ∧
    ∀ t, m.Ok t → r.2.1.Ok t ∧ (t.arr ≠ w.output.arr ∨ t.off + t.len ≤ w.output.off + w.output.len → r.2.1.elems t = m.elems t) := by
  have hlo := elems_length hw.ok
  have hlp := elems_length hp
  have hl := hw.ok.len; have hcp := hw.ok.cap
  intro r
  constructor
  · simp only [r, ErrorWriter.write, MemWriter.write, MemWriter.output, hlo, hlp]
    by_cases h1 : (w.out.len : Int) = w.count
    · simp [h1]
    · by_cases h2 : w.count < 0
      · simp [h1, h2]
      · have hc := hw.cap (by omega)
        simp only [h1, h2, if_false]
        obtain ⟨n, hn⟩ : ∃ n, n = (min (p.len : Int) (w.count - w.out.len)).toNat := ⟨_, rfl⟩
        rw [← hn]
        rw [(append_spec grow 0 m w.out hw.ok (m.elems (p.sub 0 n))).2.1, elems_sub m p n (by omega)]
  · have hcase : ∀ t, m.Ok t → r.2.1.Ok t ∧ (t.arr ≠ w.output.arr ∨ t.off + t.len ≤ w.output.off + w.output.len → r.2.1.elems t = m.elems t) := by
      intro t ht
      rcases write_cases grow m w p hw hp with h | ⟨vs, h, -, hc⟩
      · simp only [r, h]; exact ⟨ht, fun _ => trivial⟩
      · simp only [r, h]
        refine ⟨ok_write ht _ _ _ (by omega), fun hd => elems_write_disjoint _ _ _ _ _ (by omega) ?_⟩
        rcases hd with hd | hd
        · exact Or.inl hd
        · exact Or.inr (Or.inl hd)
    exact ⟨(hcase w.output hw.ok).2 (Or.inr (Nat.le_refl _)), hcase⟩

/-- What can happen as time goes on, as long as nobody writes through the slices that Output returned: Write with any bytes, and anything in
the rest of memory. -/
inductive WStep (grow : Nat → Nat) : SMem Nat × MemWriter → SMem Nat × MemWriter → Prop
  | write (m w p) : m.Ok p → WStep grow (m, w) (w.write grow m p).2
  | other (m w m') : m'.arrs w.out.arr = m.arrs w.out.arr → m.next ≤ m'.next → WStep grow (m, w) (m', w)

/-- Any number of steps. -/
inductive WSteps (grow : Nat → Nat) : SMem Nat × MemWriter → SMem Nat × MemWriter → Prop
  | refl (x) : WSteps grow x x
  | step (x y z) : WStep grow x y → WSteps grow y z → WSteps grow x z

/-- C137. A slice that Output returned keeps its bytes for ever, and the output at any later time begins with them. -/
theorem c137_output (grow : Nat → Nat) (m m' : SMem Nat) (w w' : MemWriter) (hw : WOk m w) (h : WSteps grow (m, w) (m', w')) :
    m'.elems w.output = m.elems w.output ∧ m.elems w.output <+: m'.elems w'.output ∧ w'.output.arr = w.output.arr := by
  have key : ∀ x y, WSteps grow x y → ∀ t : Slc, WOk x.1 x.2 → x.1.Ok t → t.arr = x.2.out.arr → t.off = x.2.out.off → t.len ≤ x.2.out.len →
      y.1.elems t = x.1.elems t ∧ t.len ≤ y.2.out.len ∧ y.2.out.arr = x.2.out.arr ∧ y.2.out.off = x.2.out.off ∧ WOk y.1 y.2 := by
    intro x y hxy
    induction hxy with
    | refl x => intro t hw _ _ _ hl; exact ⟨rfl, hl, rfl, rfl, hw⟩
    | step x y z hxy _ ih =>
      intro t hw ht ha ho hl
      cases hxy with
      | write m w p hp =>
        have hw' := write_ok grow m w p hw hp
        obtain ⟨-, -, h3⟩ := c137_write grow m w p hw hp
        obtain ⟨h4, h5⟩ := h3 t ht
        have h6 := h5 (Or.inr (by simp only [MemWriter.output]; simp only at ho hl; omega))
        have hcs := write_cases grow m w p hw hp
        have hout : (w.write grow m p).2.2.out.arr = w.out.arr ∧ (w.write grow m p).2.2.out.off = w.out.off ∧ w.out.len ≤ (w.write grow m p).2.2.out.len := by
          rcases hcs with h | ⟨vs, h, -, -⟩
          · rw [h]; exact ⟨rfl, rfl, Nat.le_refl _⟩
          · rw [h]; exact ⟨rfl, rfl, by simp⟩
        obtain ⟨i1, i2, i3, i4, i5⟩ := ih t hw' h4 (by rw [ha]; exact hout.1.symm) (by rw [ho]; exact hout.2.1.symm) (Nat.le_trans hl hout.2.2)
        exact ⟨by rw [i1, h6], i2, by rw [i3]; exact hout.1, by rw [i4]; exact hout.2.1, i5⟩
      | other m w m' he hn =>
        have hok : ∀ s : Slc, s.arr = w.out.arr → m.Ok s → m'.Ok s := by
          intro s hs hsok
          refine ⟨Nat.lt_of_lt_of_le hsok.arr hn, hsok.len, ?_⟩
          have := hsok.cap
          rw [hs, he, ← hs]; exact this
        have hw' : WOk m' w := ⟨hok _ rfl hw.ok, hw.cap⟩
        obtain ⟨i1, i2, i3, i4, i5⟩ := ih t hw' (hok t ha ht) ha ho hl
        refine ⟨?_, i2, i3, i4, i5⟩
        rw [i1]
        simp only [SMem.elems] at *
        rw [ha, he]
  obtain ⟨h1, h2, h3, h4, -⟩ := key (m, w) (m', w') h w.out hw hw.ok rfl rfl (Nat.le_refl _)
  refine ⟨h1, ?_, h3⟩
  have h1' : m'.elems w.output = m.elems w.output := h1
  rw [← h1']
  simp only [MemWriter.output, SMem.elems]
  simp only at h2 h3 h4
  rw [h3, h4]
  exact List.take_prefix_take_left h2

/-- Non-vacuity: an output is taken after two bytes; two more bytes are written. -/
example : (let m0 : SMem Nat := ⟨fun _ => [1, 2, 3, 4], 1⟩
    let (m1, w1) := newMemWriter m0 3 none
    let (_, m2, w2) := w1.write (fun _ => 0) m1 ⟨0, 0, 2, 4⟩
    let (r, m3, w3) := w2.write (fun _ => 0) m2 ⟨0, 2, 2, 2⟩
    (r, m3.elems w2.output, m3.elems w3.output)) = ((1, none), [1, 2], [1, 2, 3]) := by decide

/-- C137 refuted for callers that append to the slice they got: append(w.Output(), 9) has room in the writer's own array, and the next Write
overwrites the 9. -/
theorem c137_append_refuted :
    (let m0 : SMem Nat := ⟨fun _ => [1, 2, 3, 4], 1⟩
    let (m1, w1) := newMemWriter m0 3 none
    let (_, m2, w2) := w1.write (fun _ => 0) m1 ⟨0, 0, 2, 4⟩
    let (m3, mine) := m2.append (fun _ => 0) 0 w2.output [9]
    let (_, m4, _) := w2.write (fun _ => 0) m3 ⟨0, 2, 2, 2⟩
    (m3.elems mine, m4.elems mine)) = ([1, 2, 9], [1, 2, 3]) := by decide

/-! ### Nil -/

/-- C137. A writer for a nil map panics as soon as a value is written, and never before; a writer for another map never does, and writes all values. -/
theorem c137_nil_map {K V : Type} [DecidableEq K] (m : GoMap K V) (vs : List (K × V)) :
    (writeAllP nilMapWriter m vs = none ↔ m = none ∧ vs ≠ []) ∧
    (∀ f, m = some f → ∃ f', writeAllP nilMapWriter m vs = some (none, some f') ∧
      ∀ k, f' k = ((vs.reverse.find? (fun kv => kv.1 = k)).map (·.2)).or (f k)) := by
  have hsome : ∀ (f : K → Option V), ∃ f', writeAllP nilMapWriter (some f) vs = some (none, some f') ∧ writeAll mapWriter f vs = (none, f') := by
    induction vs with
    | nil => intro f; exact ⟨f, rfl, rfl⟩
    | cons v vs ih =>
      intro f
      obtain ⟨f', h1, h2⟩ := ih (fun k => if k = v.1 then some v.2 else f k)
      refine ⟨f', ?_, ?_⟩
      · have hu : Function.update f v.1 (some v.2) = fun k => if k = v.1 then some v.2 else f k := by
          funext k; simp [Function.update_apply]
        simpa [writeAllP, nilMapWriter, GoMap.write, hu] using h1
      · simpa [writeAll, mapWriter] using h2
  constructor
  · cases m with
    | none => cases vs <;> simp [writeAllP, nilMapWriter, GoMap.write]
    | some f => obtain ⟨f', h, -⟩ := hsome f; simp [h]
  · rintro f rfl
    obtain ⟨f', h1, h2⟩ := hsome f
    obtain ⟨f'', h3, h4⟩ := c57_map f vs
    rw [h2] at h3
    cases h3
    exact ⟨f', h1, h4⟩

/-- C137. Write panics exactly if the function does for a value whose predecessors were all written without an error; otherwise it writes as C57 says. -/
theorem c137_write_panic {σ T : Type} (fn : PFn σ T) (s : σ) (vs : List T) :
    (writeAllP fn s vs = none ↔ ∃ pre v post s', vs = pre ++ v :: post ∧ writeAllP fn s pre = some (none, s') ∧ fn s' v = none) ∧
    (∀ e s'', writeAllP fn s vs = some (some e, s'') ↔ ∃ pre v post s', vs = pre ++ v :: post ∧ writeAllP fn s pre = some (none, s') ∧ fn s' v = some (some e, s'')) ∧
    (∀ g : σ → T → Option WErr × σ, (∀ s v, fn s v = some (g s v)) → writeAllP fn s vs = some (writeAll g s vs)) := by
  have key : ∀ (P : Option (Option WErr × σ)), (∀ x, P ≠ some (none, x)) → ∀ vs s,
      (writeAllP fn s vs = P ↔ ∃ pre v post s', vs = pre ++ v :: post ∧ writeAllP fn s pre = some (none, s') ∧ fn s' v = P) := by
    intro P hP vs
    induction vs with
    | nil =>
      intro s
      constructor
      · intro h; exact absurd h.symm (hP s)
      · rintro ⟨pre, v, post, s', h, -⟩; simp at h
    | cons v vs ih =>
      intro s
      rcases hf : fn s v with _ | ⟨_ | e, s1⟩
      · constructor
        · intro h; exact ⟨[], v, vs, s, rfl, rfl, by rw [hf, ← h, writeAllP, hf]⟩
        · rintro ⟨pre, w, post, s', h, h1, h2⟩
          cases pre with
          | nil => cases h; cases h1; rw [writeAllP, hf]; rw [← h2, hf]
          | cons x pre => cases h; rw [writeAllP, hf] at h1; cases h1
      · have hstep : writeAllP fn s (v :: vs) = writeAllP fn s1 vs := by rw [writeAllP, hf]
        rw [hstep, ih s1]
        constructor
        · rintro ⟨pre, w, post, s', rfl, h1, h2⟩
          exact ⟨v :: pre, w, post, s', rfl, by rw [writeAllP, hf]; exact h1, h2⟩
        · rintro ⟨pre, w, post, s', h, h1, h2⟩
          cases pre with
          | nil => cases h; cases h1; rw [hf] at h2; exact absurd h2.symm (hP s1)
          | cons x pre => cases h; rw [writeAllP, hf] at h1; exact ⟨pre, w, post, s', rfl, h1, h2⟩
      · constructor
        · intro h; exact ⟨[], v, vs, s, rfl, rfl, by rw [hf, ← h, writeAllP, hf]⟩
        · rintro ⟨pre, w, post, s', h, h1, h2⟩
          cases pre with
          | nil => cases h; cases h1; rw [writeAllP, hf]; rw [← h2, hf]
          | cons x pre => cases h; rw [writeAllP, hf] at h1; cases h1
  refine ⟨key none (by simp) vs s, fun e s'' => key _ (by simp) vs s, fun g hg => ?_⟩
  clear key
  induction vs generalizing s with
  | nil => rfl
  | cons v vs ih =>
    rw [writeAllP, writeAll, hg]
    rcases hf : g s v with ⟨_ | e, s1⟩
    · exact ih s1
    · rfl

/-- The first value is written, the second panics; and a function that fails at the second value. -/
example : writeAllP (σ := List Nat) (T := Nat) (fun s v => if v = 2 then none else some (none, s ++ [v])) [] [1, 2, 3] = none ∧
    writeAllP (σ := List Nat) (T := Nat) (fun s v => if v = 2 then some (some (.byteNotWritten 7), s) else some (none, s ++ [v])) [] [1, 2, 3] = some (some (.byteNotWritten 7), [1]) := by
  decide

/-- C137 refuted: the writers to an io.Writer are documented to panic if a write fails; they return the error. -/
theorem c137_panic_refuted (e : Err) :
    (byteWriter ErrorWriter.write (newErrorWriter 0 (some e)) 65).1 = some (.dst e) ∧
    (runeWriter ErrorWriter.write (newErrorWriter 0 (some e)) 65).1 = some (.dst e) ∧
    (stringWriter ErrorWriter.write (newErrorWriter 0 (some e)) [65]).1 = some (.dst e) ∧
    (lineWriter [10] ErrorWriter.write (newErrorWriter 0 (some e)) [65]).1 = some (.dst e) :=
  ⟨rfl, rfl, rfl, rfl⟩

end Micro.IO
