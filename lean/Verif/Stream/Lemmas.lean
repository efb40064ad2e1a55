import Verif.Iter.Lemmas
import Verif.Iter.Props
import Verif.Stream.Spec
set_option linter.unusedSimpArgs false
namespace Micro.Stream
open Micro Micro.Iter

variable {σ α β : Type}

theorem map_yields (f : α → β) {next : Call σ α} {s : σ} {xs : List α} {e : Err} (h : Yields next s xs e) :
    Yields (mapCall f next) s (xs.map f) e := by
  induction h with
  | @stop s s' e h => exact .stop (s' := s') (by simp [mapCall, h])
  | @value s s' x xs e h _ ih => exact .value (s' := s') (by simp [mapCall, h]) ih

theorem mapError_yields (f : α → Except Err β) {next : Call σ α} {s : σ} {xs : List α} {e : Err}
    (h : Yields next s xs e) :
    Yields (mapErrorCall f next) s (mapUntil f e xs).1 (mapUntil f e xs).2 := by
  induction h with
  | @stop s s' e h => exact .stop (s' := s') (by simp [mapErrorCall, h, mapUntil])
  | @value s s' x xs e h _ ih =>
    cases hf : f x with
    | ok y =>
      simp only [mapUntil, hf]
      exact .value (s' := s') (by simp [mapErrorCall, h, hf]) ih
    | error e' =>
      simp only [mapUntil, hf]
      exact .stop (s' := s') (by simp [mapErrorCall, h, hf])

/-- Filter with a stateful predicate whose state always represents the elements read so far. -/
theorem filter_yields {φ : Type} (p : φ → α → Bool × φ) (rep : φ → List α → Prop) (test : List α → α → Bool)
    (hp : ∀ c before v, rep c before → (p c v).1 = test before v ∧ rep (p c v).2 (before ++ [v]))
    {next : Call σ α} {s : σ} {xs : List α} {e : Err} (h : Yields next s xs e) (c : φ) (before : List α)
    (hc : rep c before) :
    Yields (filterCall p next) (s, c) (keepBy test before xs) e := by
  induction h generalizing c before with
  | @stop s s' e h => exact .stop (s' := (s', c)) (by rw [filterCall]; simp only [h])
  | @value s s' x xs e h _ ih =>
    obtain ⟨h1, h2⟩ := hp c before x hc
    have ih := ih (p c x).2 (before ++ [x]) h2
    simp only [keepBy]
    cases hb : test before x with
    | true =>
      rw [hb] at h1
      exact .value (s' := (s', (p c x).2)) (by rw [filterCall]; simp only [h, h1, if_true]) ih
    | false =>
      rw [hb] at h1
      exact Yields.congr (by rw [filterCall]; simp only [h, h1, Bool.false_eq_true, if_false]) ih

theorem foldLoop_eq (f : β → α → β) {next : Call σ α} {s : σ} {xs : List α} {e : Err} (h : Yields next s xs e)
    (acc : β) :
    ∃ s', foldLoop next f acc s = some (if e = .eoi then .ok (xs.foldl f acc) else .error e, s') := by
  induction h generalizing acc with
  | @stop s s' e h =>
    refine ⟨s', ?_⟩
    rw [foldLoop]; simp only [h]
    split <;> simp
  | @value s s' x xs e h _ ih =>
    obtain ⟨s'', h'⟩ := ih (f acc x)
    exact ⟨s'', by rw [foldLoop]; simp only [h]; exact h'⟩

/-- A function that does its work in the first call and returns EOI afterwards. -/
theorem once_yields {call : Call (Bool × σ) β} {s s' : σ} {r : Except Err β}
    (h : call (false, s) = some (r, (true, s'))) (hd : ∀ s, call (true, s) = some (.error .eoi, (true, s))) :
    (∀ v, r = .ok v → Yields call (false, s) [v] .eoi) ∧ (∀ e, r = .error e → Yields call (false, s) [] e) := by
  constructor
  · rintro v rfl; exact .value h (.stop (hd _))
  · rintro e rfl; exact .stop h

theorem boolLoop_eq (p : α → Bool) (stop result : Bool) {next : Call σ α} {s : σ} {xs : List α} {e : Err}
    (hr : result ≠ stop)
    (h : Yields next s xs e) :
    ∃ s', boolLoop next p stop result s =
      some (if (∃ x ∈ xs, p x = stop) then .ok stop else if e = .eoi then .ok result else .error e, s') := by
  induction h generalizing result with
  | @stop s s' e h =>
    refine ⟨s', ?_⟩
    rw [boolLoop]; simp only [h]
    split <;> simp
  | @value s s' x xs e h _ ih =>
    rw [boolLoop]; simp only [h]
    by_cases hx : p x = stop
    · refine ⟨s', ?_⟩
      rw [if_pos hx, if_pos ⟨x, by simp, hx⟩, hx]
    · rw [if_neg hx]
      have : p x = result := by cases h1 : p x <;> cases h2 : result <;> cases stop <;> simp_all
      rw [this]
      obtain ⟨s'', h'⟩ := ih result hr
      refine ⟨s'', ?_⟩
      rw [h']
      simp [hx]

theorem limit_yields {next : Call σ α} {n : Nat} {s s' : σ} {vs : List α} (h : takeN next n s = some (vs, s')) :
    Yields (limitCall next) (n, s) vs .eoi := by
  induction n generalizing s vs with
  | zero => simp [takeN] at h; obtain ⟨rfl, rfl⟩ := h; exact .stop (s' := (0, s)) rfl
  | succ n ih =>
    simp only [takeN] at h
    split at h
    · rename_i v s1 hs
      rcases ht : takeN next n s1 with _ | ⟨vs', s2⟩ <;> simp [ht] at h
      obtain ⟨rfl, rfl⟩ := h
      exact .value (s' := (n, s1)) (by simp only [limitCall, hs]) (ih ht)
    · simp at h

theorem limit_short {next : Call σ α} {n : Nat} {s : σ} {xs : List α} {e : Err} (h : Yields next s xs e)
    (hn : xs.length < n) : Yields (limitCall next) (n, s) xs e := by
  induction h generalizing n with
  | @stop s s' e h =>
    obtain ⟨m, rfl⟩ : ∃ m, n = m + 1 := ⟨n - 1, by simp at hn; omega⟩
    exact .stop (s' := (m + 1, s')) (by simp only [limitCall, h])
  | @value s s' x xs e h _ ih =>
    obtain ⟨m, rfl⟩ : ∃ m, n = m + 1 := ⟨n - 1, by simp at hn; omega⟩
    exact .value (s' := (m, s')) (by simp only [limitCall, h]) (ih (by simpa using hn))

theorem takeN_of_yields {next : Call σ α} {s : σ} {xs : List α} {e : Err} (h : Yields next s xs e) (n : Nat)
    (hn : n ≤ xs.length) : ∃ s', takeN next n s = some (xs.take n, s') ∧ Yields next s' (xs.drop n) e := by
  induction n generalizing s xs with
  | zero => exact ⟨s, by simp [takeN], by simpa using h⟩
  | succ n ih =>
    cases h with
    | stop h => simp at hn
    | @value _ s1 x xs _ h h' =>
      obtain ⟨s', h1, h2⟩ := ih h' (by simpa using hn)
      exact ⟨s', by simp [takeN, h, h1], by simpa using h2⟩

theorem skip_yields {next : Call σ α} {s : σ} {xs : List α} {e : Err} (h : Yields next s xs e) (n : Nat) :
    Yields (skipCall next) (n, s) (xs.drop n) e := by
  induction h generalizing n with
  | @stop s s' e h =>
    cases n with
    | zero => exact .stop (s' := (0, s')) (by simp [skipCall, skipLoop, h])
    | succ n => exact .stop (s' := (0, s')) (by simp [skipCall, skipLoop, h])
  | @value s s' x xs e h _ ih =>
    cases n with
    | zero => exact .value (s' := (0, s')) (by simp [skipCall, skipLoop, h]) (by simpa using ih 0)
    | succ n =>
      refine Yields.congr (s' := (n, s')) ?_ (by simpa using ih n)
      simp [skipCall, skipLoop, h]

theorem peek_yields {next : Call σ α} {s : σ} {xs : List α} {e : Err} (h : Yields next s xs e) (log : List α) :
    Yields (peekCall next) (log, s) xs e := by
  induction h generalizing log with
  | @stop s s' e h => exact .stop (s' := (log, s')) (by simp [peekCall, h])
  | @value s s' x xs e h _ ih => exact .value (s' := (log ++ [x], s')) (by simp [peekCall, h]) (ih _)

theorem peek_log {next : Call σ α} {s s' : σ} {n : Nat} {vs : List α} (h : takeN next n s = some (vs, s'))
    (log : List α) : takeN (peekCall next) n (log, s) = some (vs, (log ++ vs, s')) := by
  induction n generalizing s vs log with
  | zero => simp [takeN] at h ⊢; obtain ⟨rfl, rfl⟩ := h; simp
  | succ n ih =>
    simp only [takeN] at h ⊢
    split at h
    · rename_i v s1 hs
      rcases ht : takeN next n s1 with _ | ⟨vs', s2⟩ <;> simp [ht] at h
      obtain ⟨rfl, rfl⟩ := h
      simp only [peekCall, hs]
      rw [ih ht]; simp
    · simp at h

/-! ### Expanding -/

theorem nextSlice_eq {next : Call σ (Option (List α))} {s : σ} {ls : List (Option (List α))} {e : Err}
    (h : Yields next s ls e) :
    (∃ v vs s' ls', nextSlice next s = some (.ok (v :: vs), s') ∧ Yields next s' ls' e ∧
      (ls.map (·.getD [])).flatten = (v :: vs) ++ (ls'.map (·.getD [])).flatten ∧ ls'.length < ls.length) ∨
    (∃ s', nextSlice next s = some (.error e, s') ∧ (ls.map (·.getD [])).flatten = []) := by
  induction h with
  | @stop s s' e h => right; exact ⟨s', by rw [nextSlice]; simp only [h], rfl⟩
  | @value s s' x xs e h hy ih =>
    rw [nextSlice]; simp only [h]
    rcases x with _ | _ | ⟨v, vs⟩
    · rcases ih with ⟨v, vs, s1, ls', h1, h2, h3, h4⟩ | ⟨s1, h1, h2⟩
      · left; exact ⟨v, vs, s1, ls', h1, h2, by simpa using h3, by simp; omega⟩
      · right; exact ⟨s1, h1, by simpa using h2⟩
    · rcases ih with ⟨v, vs, s1, ls', h1, h2, h3, h4⟩ | ⟨s1, h1, h2⟩
      · left; exact ⟨v, vs, s1, ls', h1, h2, by simpa using h3, by simp; omega⟩
      · right; exact ⟨s1, h1, by simpa using h2⟩
    · left; exact ⟨v, vs, s', xs, rfl, hy, by simp, by simp⟩

theorem expand_within {next : Call σ (Option (List α))} (l : List α) (i : Nat) (hi : i ≤ l.length) {s : σ}
    {ys : List α} {e : Err} (h : Yields (expandSlicesCall next) (some l, l.length, s) ys e) :
    Yields (expandSlicesCall next) (some l, i, s) (l.drop i ++ ys) e := by
  generalize hn : l.length - i = n
  induction n generalizing i with
  | zero => have : i = l.length := by omega
            subst this; simpa using h
  | succ n ih =>
    have hlt : i < l.length := by omega
    rw [List.drop_eq_getElem_cons hlt]
    exact .value (s' := (some l, i + 1, s)) (by simp [expandSlicesCall, hlt]) (ih (i + 1) (by omega) (by omega))

theorem expand_yields {next : Call σ (Option (List α))} (n : Nat) : ∀ {s : σ} {ls : List (Option (List α))} {e : Err},
    ls.length ≤ n → Yields next s ls e → ∀ (slc : Option (List α)) (idx : Nat),
    (∀ l, slc = some l → ¬ idx < l.length) →
    Yields (expandSlicesCall next) (slc, idx, s) (ls.map (·.getD [])).flatten e := by
  induction n with
  | zero =>
    intro s ls e hl h slc idx hs
    have : ls = [] := List.length_eq_zero_iff.mp (by omega)
    subst this
    rcases nextSlice_eq h with ⟨_, _, _, _, _, _, _, h4⟩ | ⟨s1, h1, _⟩
    · simp at h4
    · refine .stop (s' := (none, idx, s1)) ?_
      cases slc with
      | none => simp [expandSlicesCall, h1]
      | some l => simp [expandSlicesCall, h1, hs l rfl]
  | succ n ih =>
    intro s ls e hl h slc idx hs
    rcases nextSlice_eq h with ⟨v, vs, s1, ls', h1, h2, h3, h4⟩ | ⟨s1, h1, h3⟩
    · rw [h3]
      refine .value (s' := (some (v :: vs), 1, s1)) ?_ ?_
      · cases slc with
        | none => simp [expandSlicesCall, h1]
        | some l => simp [expandSlicesCall, h1, hs l rfl]
      · have := ih (by omega) h2 (some (v :: vs)) (v :: vs).length (by simp)
        exact expand_within (v :: vs) 1 (by simp) this
    · rw [h3]
      refine .stop (s' := (none, idx, s1)) ?_
      cases slc with
      | none => simp [expandSlicesCall, h1]
      | some l => simp [expandSlicesCall, h1, hs l rfl]

/-! ### Reverse -/

theorem sliceReverseFrom_get (slc : List α) (i : Nat) (k : Nat) :
    (sliceReverseFrom slc i)[k]? =
      if i ≤ k ∧ k < slc.length - i then slc[slc.length - 1 - k]? else slc[k]? := by
  fun_induction sliceReverseFrom slc i with
  | case1 slc i h j tmp slc' ih =>
    rw [ih]
    have e1 : j = slc.length - 1 - i := rfl
    have e2 : slc[j]? = some (slc[j]'(by omega)) := List.getElem?_eq_getElem (by omega)
    have e3 : slc[i]? = some tmp := List.getElem?_eq_getElem (by omega)
    simp only [slc', List.length_set, List.getElem?_set]
    have hi : i < slc.length := by omega
    have hj : j < slc.length := by omega
    split
    · rename_i hk
      rw [if_neg (by omega), if_neg (by omega), if_pos (by omega)]
    · rename_i hk
      by_cases hkj : j = k
      · rw [if_pos hkj, if_pos (by omega), show slc.length - 1 - k = i by omega, e3]
      · rw [if_neg hkj]
        by_cases hki : i = k
        · rw [if_pos hki, if_pos (by omega), show slc.length - 1 - k = j by omega, e2]
        · rw [if_neg hki, if_neg (by omega)]
  | case2 slc i h =>
    split
    · rename_i hk; rw [show slc.length - 1 - k = k by omega]
    · rfl

theorem sliceReverse_eq (slc : List α) : sliceReverse slc = slc.reverse := by
  apply List.ext_getElem?
  intro k
  unfold sliceReverse
  rw [sliceReverseFrom_get]
  by_cases hk : k < slc.length
  · rw [if_pos (by omega), List.getElem?_reverse hk]
  · rw [if_neg (by omega), List.getElem?_eq_none (by omega), List.getElem?_eq_none (by simp; omega)]

theorem forever_cons {next : Call σ α} {s : σ} {x : α} {xs : List α} {e : Err}
    (h : YieldsForever next s (x :: xs) e) : ∃ s', next s = some (.ok x, s') ∧ YieldsForever next s' xs e := by
  obtain ⟨stt, rfl, h1, h2⟩ := h
  refine ⟨stt 1, h1 0 (by simp), fun i => stt (i + 1), rfl, ?_, ?_⟩
  · intro i hi; exact h1 (i + 1) (by simpa using hi)
  · intro i hi; exact h2 (i + 1) (by simpa using hi)

theorem forever_nil {next : Call σ α} {s : σ} {e : Err}
    (h : YieldsForever next s [] e) : ∃ s', next s = some (.error e, s') ∧ YieldsForever next s' [] e := by
  obtain ⟨stt, rfl, h1, h2⟩ := h
  refine ⟨stt 1, h2 0 (by simp), fun i => stt (i + 1), rfl, ?_, ?_⟩
  · intro i hi; simp at hi
  · intro i hi; exact h2 (i + 1) (by simp)

/-! ### Average -/

theorem avgLoop_eq (add : Kind → Int → Int → Int × Option MathInt.MErr) (k c64 : Kind)
    (hadd : ∀ v s, k.InRange v → k.InRange s →
      (k.maxV < s + v → ∃ r, add k v s = (r, some .overflow)) ∧
      (s + v < k.minV → ∃ r, add k v s = (r, some .underflow)) ∧
      (k.InRange (s + v) → add k v s = (s + v, none)))
    {next : Call σ Int} {s : σ} {xs : List Int} {e : Err} (h : YieldsForever next s xs e)
    (hx : ∀ x ∈ xs, k.InRange x) (sum count : Int) (hs : k.InRange sum) (h0 : 0 ≤ count)
    (hc : ∀ i : Nat, i ≤ xs.length → c64.InRange (count + i)) :
    ∃ s', YieldsForever next s' [] e ∧ ∀ res, res = (match sumsOk k sum xs with
        | some e' => Except.error e'
        | none => if e = Err.eoi then
            (if count + xs.length = 0 then .error .eoi else .ok (avgResult k c64 (sum + xs.sum) (count + xs.length)))
          else .error e) →
      (∀ v, res = .ok v → avgLoop add k c64 next sum count s = some (.ok v, s')) ∧
      (∀ e', res = .error e' → ∃ s'', avgLoop add k c64 next sum count s = some (.error e', s'')) := by
  induction xs generalizing s sum count with
  | nil =>
    obtain ⟨s', h1, h2⟩ := forever_nil h
    refine ⟨s', h2, ?_⟩
    rintro res rfl
    rw [avgLoop]; simp only [h1, sumsOk]
    by_cases he : e = .eoi
    · simp only [he, if_true]
      by_cases hz : count = 0
      · simp [hz]
      · simp [hz]
    · simp [he]
  | cons x xs ih =>
    obtain ⟨s1, h1, h2⟩ := forever_cons h
    have hxr : k.InRange x := hx x (by simp)
    obtain ⟨a1, a2, a3⟩ := hadd x sum hxr hs
    by_cases ho : k.maxV < sum + x
    · -- overflow
      obtain ⟨r, hr⟩ := a1 ho
      have hfin : ∃ s', YieldsForever next s' [] e := by
        clear ih a1 a2 a3 hx hc
        obtain ⟨stt, rfl, g1, g2⟩ := h2
        exact ⟨stt xs.length, fun i => stt (xs.length + i), rfl, by simp, fun i _ => by
          have := g2 (xs.length + i) (by omega); simpa [Nat.add_assoc] using this⟩
      obtain ⟨s', hs'⟩ := hfin
      refine ⟨s', hs', ?_⟩
      rintro res rfl
      rw [avgLoop]; simp only [h1, hr, sumsOk, ho, if_true, mErr]
      simp
    · by_cases hu : sum + x < k.minV
      · obtain ⟨r, hr⟩ := a2 hu
        have hfin : ∃ s', YieldsForever next s' [] e := by
          clear ih a1 a2 a3 hx hc
          obtain ⟨stt, rfl, g1, g2⟩ := h2
          exact ⟨stt xs.length, fun i => stt (xs.length + i), rfl, by simp, fun i _ => by
            have := g2 (xs.length + i) (by omega); simpa [Nat.add_assoc] using this⟩
        obtain ⟨s', hs'⟩ := hfin
        refine ⟨s', hs', ?_⟩
        rintro res rfl
        rw [avgLoop]; simp only [h1, hr, sumsOk, ho, hu, if_true, if_false, mErr]
        simp
      · have hin : k.InRange (sum + x) := ⟨by omega, by omega⟩
        have hr := a3 hin
        have hw : c64.wrap (count + 1) = count + 1 := Kind.wrap_of_inRange (by
          have := hc 1 (by simp); simpa using this)
        obtain ⟨s', hs', hres⟩ := ih h2 (fun y hy => hx y (by simp [hy])) (sum + x) (count + 1) hin (by omega) (by
          intro i hi
          have := hc (i + 1) (by simp; omega)
          rw [show count + 1 + (i : Int) = count + ((i + 1 : Nat) : Int) by push_cast; omega]
          exact this)
        refine ⟨s', hs', ?_⟩
        rintro res rfl
        rw [avgLoop]; simp only [h1, hr, hw, sumsOk, ho, hu, if_false]
        apply hres
        simp only [List.length_cons, List.sum_cons]
        rw [show count + 1 + (xs.length : Int) = count + ((xs.length + 1 : Nat) : Int) by push_cast; omega,
          show sum + x + xs.sum = sum + (x + xs.sum) by omega]

end Micro.Stream
