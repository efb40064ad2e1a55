import Verif.Funcs.TryModel
set_option linter.unusedSimpArgs false
/-
C141: TryTo with functions that have effects, recover, exit the goroutine, or are nil.
-/
namespace Micro.Funcs.Try

variable {W P R : Type}

/-! ### Specification -/

/-- After these calls a panic with value v is in progress: some call panicked with v, and all later ones returned without calling recover. -/
def InProgress (l : List (Ran W P)) (v : Option P) : Prop :=
  ∃ pre t post, l = pre ++ t :: post ∧ t.fin = .panicked v ∧ ∀ u ∈ post, u.fin = .returned ∧ u.recovered = false

/-- What recover returns after these calls: the value of the panic in progress, or nil. -/
def Recovers (l : List (Ran W P)) (v : Option P) : Prop := InProgress l v ∨ ((∀ x, ¬ InProgress l x) ∧ v = none)

/-- The record of a call says what the closer does (a nil one panics). -/
def Does (nilCall : P) (before : List (Ran W P)) (r : Ran W P) : Option (Closer W P) → Prop
  | none => r.fin = .panicked (some nilCall) ∧ r.after = r.before ∧ r.recovered = false
  | some c => (c r.before = .done r.fin r.after ∧ r.recovered = false) ∨
      (∃ k v, c r.before = .recover k ∧ Recovers before v ∧ k v = (r.fin, r.after) ∧ r.recovered = true)

/-! ### Lemmas -/

/-- The state of the goroutine agrees with the calls made. -/
private def Agrees (l : List (Ran W P)) (s : St P) : Prop :=
  (∀ v, s.pending = some v ↔ InProgress l v) ∧ (s.exiting = true ↔ ∃ r ∈ l, r.fin = .exited)

private theorem inProgress_append (l : List (Ran W P)) (r : Ran W P) (v : Option P) :
    InProgress (l ++ [r]) v ↔ r.fin = .panicked v ∨ (r.fin = .returned ∧ r.recovered = false ∧ InProgress l v) := by
  constructor
  · rintro ⟨pre, t, post, e, ht, hp⟩
    rcases List.eq_nil_or_concat post with rfl | ⟨post', x, rfl⟩
    · left
      have := congrArg List.getLast? e
      simp at this
      rw [this]; exact ht
    · right
      have e' : l ++ [r] = (pre ++ t :: post') ++ [x] := by simpa [List.concat_eq_append] using e
      have h := List.append_inj' e' rfl
      have hx : r = x := by simpa using h.2
      subst hx
      have := hp r (by simp [List.concat_eq_append])
      exact ⟨this.1, this.2, pre, t, post', h.1, ht, fun u hu => hp u (by simp [List.concat_eq_append, hu])⟩
  · rintro (h | ⟨h1, h2, pre, t, post, rfl, ht, hp⟩)
    · exact ⟨l, r, [], rfl, h, by simp⟩
    · refine ⟨pre, t, post ++ [r], by simp, ht, ?_⟩
      intro u hu
      rcases List.mem_append.mp hu with hu | hu
      · exact hp u hu
      · obtain rfl : u = r := by simpa using hu
        exact ⟨h1, h2⟩

private theorem agrees_step {l : List (Ran W P)} {s : St P} (h : Agrees l s) (r : Ran W P) :
    Agrees (l ++ [r]) ((if r.recovered then { s with pending := none } else s : St P).after r.fin) := by
  constructor
  · intro v
    rw [inProgress_append]
    cases hf : r.fin with
    | returned =>
      cases hr : r.recovered <;> simp [St.after, h.1]
    | panicked x => cases hr : r.recovered <;> simp [St.after]
    | exited => simp [St.after]
  · simp only [List.mem_append, List.mem_singleton]
    cases hf : r.fin with
    | returned =>
      have : (∃ x, (x ∈ l ∨ x = r) ∧ x.fin = .exited) ↔ ∃ x ∈ l, x.fin = .exited := by
        constructor
        · rintro ⟨x, hx | rfl, he⟩
          · exact ⟨x, hx, he⟩
          · rw [hf] at he; cases he
        · rintro ⟨x, hx, he⟩; exact ⟨x, .inl hx, he⟩
      rw [this, ← h.2]
      cases hr : r.recovered <;> simp [St.after]
    | panicked v =>
      have : (∃ x, (x ∈ l ∨ x = r) ∧ x.fin = .exited) ↔ ∃ x ∈ l, x.fin = .exited := by
        constructor
        · rintro ⟨x, hx | rfl, he⟩
          · exact ⟨x, hx, he⟩
          · rw [hf] at he; cases he
        · rintro ⟨x, hx, he⟩; exact ⟨x, .inl hx, he⟩
      rw [this, ← h.2]
      cases hr : r.recovered <;> simp [St.after]
    | exited =>
      simp only [St.after, true_iff]
      exact ⟨r, .inr rfl, hf⟩

private theorem agrees_recovers {l : List (Ran W P)} {s : St P} (h : Agrees l s) : Recovers l s.pending.join := by
  cases hp : s.pending with
  | none =>
    right
    refine ⟨fun x hx => ?_, rfl⟩
    have := (h.1 x).mpr hx
    rw [hp] at this; cases this
  | some v => left; exact (h.1 v).mp hp

private theorem runCloser_spec (nilCall : P) (i : Nat) (c : Option (Closer W P)) (s : St P) (w : W) (l : List (Ran W P)) (h : Agrees l s) :
    (runCloser nilCall i c s w).1.who = some i ∧ (runCloser nilCall i c s w).1.before = w ∧
    Does nilCall l (runCloser nilCall i c s w).1 c ∧ Agrees (l ++ [(runCloser nilCall i c s w).1]) (runCloser nilCall i c s w).2 := by
  have hs := agrees_step h (runCloser nilCall i c s w).1
  cases c with
  | none => exact ⟨rfl, rfl, ⟨rfl, rfl, rfl⟩, hs⟩
  | some c =>
    cases hc : c w with
    | done f w' =>
      simp only [runCloser, hc] at hs ⊢
      exact ⟨trivial, trivial, .inl ⟨hc, rfl⟩, hs⟩
    | recover k =>
      simp only [runCloser, hc] at hs ⊢
      exact ⟨trivial, trivial, .inr ⟨k, _, hc, agrees_recovers h, rfl, rfl⟩, hs⟩

/-- The worlds are threaded: each call starts where the one before it ended. -/
def Threaded : W → List (Ran W P) → W → Prop
  | w, [], w' => w = w'
  | w, r :: rs, w' => r.before = w ∧ Threaded r.after rs w'

private theorem runClosers_spec (nilCall : P) : ∀ (st : List (Nat × Option (Closer W P))) (s : St P) (w : W) (l : List (Ran W P)), Agrees l s →
    (runClosers nilCall st s w).1.map Ran.who = st.map (fun p => some p.1) ∧
    Threaded w (runClosers nilCall st s w).1 (runClosers nilCall st s w).2.2 ∧
    (∀ pre i c post, st = pre ++ (i, c) :: post → ∃ rs r rs', (runClosers nilCall st s w).1 = rs ++ r :: rs' ∧ rs.length = pre.length ∧
      Does nilCall (l ++ rs) r c) ∧
    Agrees (l ++ (runClosers nilCall st s w).1) (runClosers nilCall st s w).2.1 := by
  intro st
  induction st with
  | nil => intro s w l h; simpa [runClosers, Threaded] using h
  | cons x st ih =>
    obtain ⟨i, c⟩ := x
    intro s w l h
    obtain ⟨h1, h2, h3, h4⟩ := runCloser_spec nilCall i c s w l h
    simp only [runClosers]
    generalize runCloser nilCall i c s w = rc at h1 h2 h3 h4 ⊢
    obtain ⟨k1, k2, k3, k4⟩ := ih rc.2 rc.1.after (l ++ [rc.1]) h4
    refine ⟨by simp [h1, k1], ⟨h2, k2⟩, ?_, by simpa using k4⟩
    intro pre j c' post e
    cases pre with
    | nil =>
      simp only [List.nil_append, List.cons.injEq, Prod.mk.injEq] at e
      obtain ⟨⟨rfl, rfl⟩, rfl⟩ := e
      exact ⟨[], rc.1, _, rfl, rfl, by simpa using h3⟩
    | cons y pre =>
      simp only [List.cons_append, List.cons.injEq] at e
      obtain ⟨rs, r, rs', e1, e2, e3⟩ := k3 pre j c' post e.2
      exact ⟨rc.1 :: rs, r, rs', by simp [e1], by simp [e2], by simpa using e3⟩

private theorem deferAll_eq (cs : List (Option (Closer W P))) : ∀ (st : List (Nat × Option (Closer W P))) (i : Nat),
    deferAll st i cs = ((List.range' i cs.length).zip cs).reverse ++ st := by
  induction cs with
  | nil => intro st i; simp [deferAll]
  | cons c cs ih => intro st i; simp [deferAll, ih, List.range'_succ]

private theorem start_agrees (r : Ran W P) (hr : r.recovered = false) : Agrees [r] ((⟨none, false⟩ : St P).after r.fin) := by
  have h0 : Agrees ([] : List (Ran W P)) (⟨none, false⟩ : St P) := by
    refine ⟨fun v => ?_, by simp⟩
    simp only [reduceCtorEq, false_iff]
    rintro ⟨pre, t, post, e, _⟩
    simp at e
  simpa [hr] using agrees_step h0 r

private theorem runTry_who (nilCall : P) (f : Option (Fun W P)) (w : W) :
    (runTry nilCall f w).who = none ∧ (runTry nilCall f w).before = w ∧ (runTry nilCall f w).recovered = false := by
  cases f <;> exact ⟨rfl, rfl, rfl⟩

/-- Everything about a call of TryTo. -/
private theorem tryTo_all (nilCall : P) (tryFn : Option (Fun W P)) (panicFn : Option (P → Fun W P)) (closers : List (Option (Closer W P))) (w : W) :
    ∃ s w', let t := runTry nilCall tryFn w
      let c := runClosers nilCall (deferAll [] 0 closers) ((⟨none, false⟩ : St P).after t.fin) t.after
      Agrees (tryTo nilCall tryFn panicFn closers w).runs s ∧ Threaded w (tryTo nilCall tryFn panicFn closers w).runs w' ∧
      (tryTo nilCall tryFn panicFn closers w).runs = t :: c.1 ∧ c.2.1 = s ∧ c.2.2 = w' ∧
      ((∃ v, s.pending = some (some v) ∧ (tryTo nilCall tryFn panicFn closers w).handled = some (v, w') ∧
          (tryTo nilCall tryFn panicFn closers w).fin = (runHandler nilCall panicFn v w').1.resume s.exiting ∧
          (tryTo nilCall tryFn panicFn closers w).world = (runHandler nilCall panicFn v w').2) ∨
        (s.pending.join = none ∧ (tryTo nilCall tryFn panicFn closers w).handled = none ∧
          (tryTo nilCall tryFn panicFn closers w).fin = (Fin.returned : Fin P).resume s.exiting ∧
          (tryTo nilCall tryFn panicFn closers w).world = w')) := by
  obtain ⟨_, h2, h3⟩ := runTry_who nilCall tryFn w
  have hc := runClosers_spec nilCall (deferAll [] 0 closers) _ (runTry nilCall tryFn w).after _ (start_agrees _ h3)
  refine ⟨(runClosers nilCall (deferAll [] 0 closers) ((⟨none, false⟩ : St P).after (runTry nilCall tryFn w).fin) (runTry nilCall tryFn w).after).2.1,
    (runClosers nilCall (deferAll [] 0 closers) ((⟨none, false⟩ : St P).after (runTry nilCall tryFn w).fin) (runTry nilCall tryFn w).after).2.2, ?_⟩
  simp only
  unfold tryTo
  simp only
  generalize runClosers nilCall (deferAll [] 0 closers) ((⟨none, false⟩ : St P).after (runTry nilCall tryFn w).fin) (runTry nilCall tryFn w).after = c at hc ⊢
  obtain ⟨rs, ⟨p, ex⟩, w'⟩ := c
  rcases p with _ | _ | v
  · exact ⟨by simpa using hc.2.2.2, ⟨h2, hc.2.1⟩, rfl, trivial, trivial, .inr ⟨rfl, rfl, rfl, rfl⟩⟩
  · exact ⟨by simpa using hc.2.2.2, ⟨h2, hc.2.1⟩, rfl, trivial, trivial, .inr ⟨rfl, rfl, rfl, rfl⟩⟩
  · exact ⟨by simpa using hc.2.2.2, ⟨h2, hc.2.1⟩, rfl, trivial, trivial, .inl ⟨v, rfl, rfl, rfl, rfl⟩⟩

/-! ### Examples used below: a world of natural numbers -/

/-- Adds 1 and panics with what it found. -/
private def boom : Fun Nat Nat := fun n => (.panicked (some n), n + 1)
/-- Adds 10. -/
private def tidy : Closer Nat Nat := fun n => .done .returned (n + 10)
/-- Recovers and stores the value. -/
private def swallow : Closer Nat Nat := fun _ => .recover fun v => (.returned, v.getD 0)
/-- Stores the value. -/
private def store : Nat → Fun Nat Nat := fun v n => (.returned, 1000 * v + n)

/-! ### C141 -/

/-- C141: whatever the functions do, tryFn is called first and then every closer exactly once, in reverse order of the arguments; each starts in
the world that the one before it left, and the last one leaves the world that panicFn (or the caller) finds. -/
theorem c141_order (nilCall : P) (tryFn : Option (Fun W P)) (panicFn : Option (P → Fun W P)) (closers : List (Option (Closer W P))) (w : W) :
    (tryTo nilCall tryFn panicFn closers w).runs.map Ran.who = none :: (List.range closers.length).reverse.map some ∧
    ∃ w', Threaded w (tryTo nilCall tryFn panicFn closers w).runs w' ∧
      (∀ v x, (tryTo nilCall tryFn panicFn closers w).handled = some (v, x) → x = w') ∧
      ((tryTo nilCall tryFn panicFn closers w).handled = none → (tryTo nilCall tryFn panicFn closers w).world = w') := by
  obtain ⟨s, w', h⟩ := tryTo_all nilCall tryFn panicFn closers w
  simp only at h
  obtain ⟨_, ht, hr, _, _, hh⟩ := h
  refine ⟨?_, w', ht, ?_, ?_⟩
  · obtain ⟨h1, _, h3⟩ := runTry_who nilCall tryFn w
    have hc := (runClosers_spec nilCall (deferAll [] 0 closers) _ (runTry nilCall tryFn w).after _ (start_agrees _ h3)).1
    rw [hr, List.map_cons, h1, hc, deferAll_eq, List.append_nil, List.map_reverse, List.map_reverse]
    have hz : ((List.range' 0 closers.length).zip closers).map Prod.fst = List.range' 0 closers.length := List.map_fst_zip (by simp)
    have hz' : ((List.range' 0 closers.length).zip closers).map (fun p => some p.1) = (List.range closers.length).map some := by
      rw [List.range_eq_range', show (fun p : Nat × Option (Closer W P) => some p.1) = some ∘ Prod.fst from rfl, ← List.map_map, hz]
    rw [hz']
  · intro v x hx
    rcases hh with ⟨v', _, h, _⟩ | ⟨_, h, _⟩
    · rw [h] at hx; cases hx; rfl
    · rw [h] at hx; cases hx
  · intro hx
    rcases hh with ⟨v', _, h, _⟩ | ⟨_, _, _, h⟩
    · rw [h] at hx; cases hx
    · exact h

/-- C141: each call is a call of the function that was given: tryFn on the world at the start, and closer i on the world it finds, with recover
returning the value of the panic in progress at that time (nil if none). -/
theorem c141_calls (nilCall : P) (tryFn : Option (Fun W P)) (panicFn : Option (P → Fun W P)) (closers : List (Option (Closer W P))) (w : W) :
    (∀ f, tryFn = some f → ∃ r rs, (tryTo nilCall tryFn panicFn closers w).runs = r :: rs ∧ f w = (r.fin, r.after)) ∧
    ∀ i (hi : i < closers.length), ∃ before r rest, (tryTo nilCall tryFn panicFn closers w).runs = before ++ r :: rest ∧
      r.who = some i ∧ Does nilCall before r closers[i] := by
  obtain ⟨s, w', h⟩ := tryTo_all nilCall tryFn panicFn closers w
  simp only at h
  obtain ⟨_, _, hr, _⟩ := h
  obtain ⟨h1, _, h3⟩ := runTry_who nilCall tryFn w
  have hc := runClosers_spec nilCall (deferAll [] 0 closers) _ (runTry nilCall tryFn w).after _ (start_agrees _ h3)
  constructor
  · rintro f rfl
    exact ⟨_, _, hr, rfl⟩
  · intro i hi
    have e : deferAll [] 0 closers = (((List.range' 0 closers.length).zip closers).drop (i + 1)).reverse ++
        (i, closers[i]) :: (((List.range' 0 closers.length).zip closers).take i).reverse := by
      rw [deferAll_eq, List.append_nil]
      have hz : i < ((List.range' 0 closers.length).zip closers).length := by simp [hi]
      have hg : ((List.range' 0 closers.length).zip closers)[i] = (i, closers[i]) := by simp
      conv => lhs; rw [← List.take_append_drop i ((List.range' 0 closers.length).zip closers), List.drop_eq_getElem_cons hz, hg]
      simp
    obtain ⟨rs, r, rs', e1, e2, e3⟩ := hc.2.2.1 _ _ _ _ e
    refine ⟨runTry nilCall tryFn w :: rs, r, rs', by rw [hr, e1]; rfl, ?_, by simpa using e3⟩
    have hw := hc.1
    rw [e1, e, List.map_append, List.map_append, List.map_cons, List.map_cons] at hw
    have := (List.append_inj hw (by simpa using e2)).2
    simpa using (List.cons.inj this).1

/-- C141: panicFn is called exactly when a panic with a value other than nil is in progress after the closers, with that value. -/
theorem c141_handler (nilCall : P) (tryFn : Option (Fun W P)) (panicFn : Option (P → Fun W P)) (closers : List (Option (Closer W P))) (w : W) (v : P) :
    (∃ x, (tryTo nilCall tryFn panicFn closers w).handled = some (v, x)) ↔ InProgress (tryTo nilCall tryFn panicFn closers w).runs (some v) := by
  obtain ⟨s, w', h⟩ := tryTo_all nilCall tryFn panicFn closers w
  simp only at h
  obtain ⟨ha, _, _, _, _, hh⟩ := h
  rw [← ha.1]
  rcases hh with ⟨v', hp, h, _⟩ | ⟨hp, h, _⟩
  · rw [h, hp]
    simp
  · rw [h]
    simp only [reduceCtorEq, exists_false, false_iff]
    intro hx; rw [hx] at hp; cases hp

/-- C141: no panic of tryFn or of a closer leaves TryTo: it panics exactly if panicFn was called and panicked (or is nil), with that value; the
goroutine ends if one of the functions ended it; otherwise TryTo returns. -/
theorem c141_ends (nilCall : P) (tryFn : Option (Fun W P)) (panicFn : Option (P → Fun W P)) (closers : List (Option (Closer W P))) (w : W) :
    (∀ p, (tryTo nilCall tryFn panicFn closers w).fin = .panicked p ↔
      ∃ v x, (tryTo nilCall tryFn panicFn closers w).handled = some (v, x) ∧
        ((panicFn = none ∧ p = some nilCall) ∨ ∃ h, panicFn = some h ∧ (h v x).1 = .panicked p)) ∧
    ((tryTo nilCall tryFn panicFn closers w).fin = .returned ↔
      (∀ r ∈ (tryTo nilCall tryFn panicFn closers w).runs, r.fin ≠ .exited) ∧
      ∀ v x, (tryTo nilCall tryFn panicFn closers w).handled = some (v, x) → ∃ h, panicFn = some h ∧ (h v x).1 = .returned) := by
  obtain ⟨s, w', h⟩ := tryTo_all nilCall tryFn panicFn closers w
  simp only at h
  obtain ⟨ha, _, _, _, _, hh⟩ := h
  have hex : s.exiting = false ↔ ∀ r ∈ (tryTo nilCall tryFn panicFn closers w).runs, r.fin ≠ .exited := by
    rw [← Bool.not_eq_true, ha.2]
    simp
  rw [← hex]
  rcases hh with ⟨v, hp, hh, hf, _⟩ | ⟨hp, hh, hf, _⟩
  · rw [hh, hf]
    cases panicFn with
    | none =>
      constructor
      · intro p
        constructor
        · intro e
          exact ⟨v, w', rfl, .inl ⟨rfl, by cases e; rfl⟩⟩
        · rintro ⟨_, _, _, ⟨_, rfl⟩ | ⟨_, h, _⟩⟩
          · rfl
          · cases h
      · constructor
        · intro e; cases e
        · rintro ⟨_, h⟩
          obtain ⟨_, h, _⟩ := h v w' rfl
          cases h
    | some g =>
      simp only [runHandler, reduceCtorEq, false_and, false_or, Option.some.injEq]
      constructor
      · intro p
        rcases hg : g v w' with ⟨f, x⟩
        constructor
        · intro e
          refine ⟨v, w', rfl, g, rfl, ?_⟩
          rw [hg]
          cases f
          · simp only [Fin.resume] at e; split at e <;> cases e
          · exact e
          · exact e
        · rintro ⟨v', x', e1, h', rfl, e2⟩
          cases e1
          rw [hg] at e2
          simp only at e2 ⊢
          rw [e2]; rfl
      · constructor
        · intro e
          have hr : (g v w').1 = .returned := by
            rcases hg : (g v w').1 with _ | _ | _
            · rfl
            · rw [hg] at e; cases e
            · rw [hg] at e; cases e
          rw [hr] at e
          refine ⟨?_, ?_⟩
          · cases hs : s.exiting
            · rfl
            · simp [Fin.resume, hs] at e
          · rintro v' x' e'
            cases e'
            exact ⟨g, rfl, hr⟩
        · rintro ⟨hs, e⟩
          obtain ⟨h', rfl, e'⟩ := e v w' rfl
          rw [e', hs]; rfl
  · rw [hh, hf]
    constructor
    · intro p
      simp only [reduceCtorEq, false_and, exists_false, iff_false]
      simp only [Fin.resume]; split <;> simp
    · cases hs : s.exiting <;> simp [Fin.resume, hs]

/-- Non-vacuity: tryFn finds 5 and panics with it; the closers run, the last one panics too (it is nil), the handler gets that panic. -/
example : let r := tryTo 77 (some boom) (some store) [none, some tidy, some tidy] 5
    r.runs.map Ran.who = [none, some 2, some 1, some 0] ∧ r.handled = some (77, 26) ∧ r.fin = .returned ∧ r.world = 77026 := by decide

/-- C141 is not what the documentation says: "if a panic occurs, it executes panicFn". A closer that recovers (they are deferred directly, so recover
works in them) hides the panic of tryFn, and so does a closer that ends the goroutine. -/
theorem c141_recover_refuted :
    ¬ ∀ (tryFn : Fun Nat Nat) (closers : List (Option (Closer Nat Nat))) (w : Nat), (∃ v, (tryFn w).1 = .panicked (some v)) →
      ∃ v x, (tryTo 0 (some tryFn) (some store) closers w).handled = some (v, x) := by
  intro h
  obtain ⟨v, x, h⟩ := h boom [some swallow] 5 ⟨5, rfl⟩
  have : (tryTo 0 (some boom) (some store) [some swallow] 5).handled = none := by decide
  rw [this] at h
  cases h

/-- C141: with closers that do not recover and do not end the goroutine, a panic of tryFn with a value always reaches panicFn (if a closer panics
with nil that is lost: C48), or is replaced by a later panic of a closer. -/
theorem c141_caught_partial (nilCall : P) (f : Fun W P) (panicFn : Option (P → Fun W P)) (closers : List (Option (Closer W P))) (w : W) (v : P)
    (hf : (f w).1 = .panicked (some v))
    (hc : ∀ r ∈ (tryTo nilCall (some f) panicFn closers w).runs, r.recovered = false ∧ r.fin ≠ .exited ∧ r.fin ≠ .panicked none) :
    ∃ v' x, (tryTo nilCall (some f) panicFn closers w).handled = some (v', x) ∧
      ((∀ r ∈ (tryTo nilCall (some f) panicFn closers w).runs.tail, r.fin = .returned) → v' = v) := by
  obtain ⟨r, rs, e, hr⟩ := (c141_calls nilCall (some f) panicFn closers w).1 f rfl
  have hfin : r.fin = .panicked (some v) := by rw [hr] at hf; exact hf
  have key : ∀ (rs : List (Ran W P)) (pre : List (Ran W P)) (v : P), InProgress pre (some v) →
      (∀ r ∈ rs, r.recovered = false ∧ r.fin ≠ .exited ∧ r.fin ≠ .panicked none) →
      ∃ v', InProgress (pre ++ rs) (some v') ∧ ((∀ r ∈ rs, r.fin = .returned) → v' = v) := by
    intro rs
    induction rs with
    | nil => intro pre v hp _; exact ⟨v, by simpa using hp, fun _ => rfl⟩
    | cons r rs ih =>
      intro pre v hp hc
      obtain ⟨h1, h2, h3⟩ := hc r (by simp)
      have hc' : ∀ r ∈ rs, r.recovered = false ∧ r.fin ≠ .exited ∧ r.fin ≠ .panicked none := fun u hu => hc u (by simp [hu])
      cases hfr : r.fin with
      | returned =>
        obtain ⟨v', k1, k2⟩ := ih (pre ++ [r]) v ((inProgress_append pre r _).mpr (.inr ⟨hfr, h1, hp⟩)) hc'
        exact ⟨v', by simpa using k1, fun h => k2 fun u hu => h u (by simp [hu])⟩
      | panicked x =>
        cases x with
        | none => exact absurd hfr h3
        | some x =>
          obtain ⟨v', k1, k2⟩ := ih (pre ++ [r]) x ((inProgress_append pre r _).mpr (.inl hfr)) hc'
          refine ⟨v', by simpa using k1, fun h => ?_⟩
          have := h r (by simp)
          rw [hfr] at this; cases this
      | exited => exact absurd hfr h2
  rw [e] at hc
  obtain ⟨v', k1, k2⟩ := key rs [r] v ⟨[], r, [], rfl, hfin, by simp⟩ (fun u hu => hc u (by simp [hu]))
  obtain ⟨x, hx⟩ := (c141_handler nilCall (some f) panicFn closers w v').mpr (by rw [e]; exact k1)
  exact ⟨v', x, hx, fun h => k2 (by rw [e] at h; exact h)⟩

example : ∃ x, (tryTo 77 (some boom) (some store) [some tidy, some tidy] 5).handled = some (5, x) := by
  obtain ⟨v, x, h, h'⟩ := c141_caught_partial 77 boom (some store) [some tidy, some tidy] 5 5 rfl (by decide)
  rw [h' (by decide)] at h
  exact ⟨x, h⟩

/-- C141: a closer made with IgnoreResult calls the function once, on the world it finds; its result is dropped, a panic or the end of the goroutine
is not; and it never takes a panic away from panicFn, even if the function itself calls recover. -/
theorem c141_ignoreResult (nilCall : P) (tryFn : Option (Fun W P)) (panicFn : Option (P → Fun W P)) (closers : List (Option (Closer W P))) (w : W)
    (i : Nat) (hi : i < closers.length) (fn : W → (R ⊕ Fin P) × W) (hc : closers[i] = some (ignoreResult fn)) :
    ∃ before r rest, (tryTo nilCall tryFn panicFn closers w).runs = before ++ r :: rest ∧ r.who = some i ∧ r.recovered = false ∧
      r.after = (fn r.before).2 ∧ (∀ res, (fn r.before).1 = .inl res → r.fin = .returned) ∧ (∀ f, (fn r.before).1 = .inr f → r.fin = f) := by
  obtain ⟨b, r, rest, e1, e2, e3⟩ := (c141_calls nilCall tryFn panicFn closers w).2 i hi
  refine ⟨b, r, rest, e1, e2, ?_⟩
  rw [hc] at e3
  rcases hf : fn r.before with ⟨res | f, w'⟩
  · rcases e3 with ⟨h1, h2⟩ | ⟨k, v, h1, _⟩
    · simp only [ignoreResult, hf, Body.done.injEq] at h1
      refine ⟨h2, h1.2.symm, fun _ _ => h1.1.symm, ?_⟩
      rintro _ ⟨⟩
    · simp [ignoreResult, hf] at h1
  · rcases e3 with ⟨h1, h2⟩ | ⟨k, v, h1, _⟩
    · simp only [ignoreResult, hf, Body.done.injEq] at h1
      refine ⟨h2, h1.2.symm, ?_, ?_⟩
      · rintro _ ⟨⟩
      · rintro _ ⟨⟩; exact h1.1.symm
    · simp [ignoreResult, hf] at h1

example := c141_ignoreResult 77 (some boom) (some store) [some tidy, some (ignoreResult fun n : Nat => (Sum.inl (n * 2), n + 3))] 5 1 (by decide) _ rfl

end Micro.Funcs.Try
