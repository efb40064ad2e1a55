import Verif.Iter.Spec
set_option linter.unusedSimpArgs false
namespace Micro.Iter
open Micro

variable {σ α : Type}

/-! ### Iterators -/

theorem next_buffer (call : Call σ α) (it : It σ α) (b : List α) (v : α) (h : it.buffer = b ++ [v]) :
    it.next call = some (.ok v, { it with buffer := b }) := by
  unfold It.next; rw [h]; simp

theorem next_source (call : Call σ α) (it : It σ α) (s : σ) (hb : it.buffer = []) (hf : it.fn = some s) :
    it.next call = match call s with
      | none => none
      | some (.ok v, s') => some (.ok v, { it with fn := some s' })
      | some (.error e, _) => some (.error e, { it with fn := none, lastErr := some e }) := by
  unfold It.next; rw [hb]; simp only [List.getLast?_nil, hf]
  rcases call s with _ | ⟨_ | _, _⟩ <;> rfl

theorem next_stopped (call : Call σ α) (it : It σ α) (e : Err) (hb : it.buffer = []) (hf : it.fn = none)
    (he : it.lastErr = some e) : it.next call = some (.error e, it) := by
  unfold It.next It.stopped; rw [hb]; simp [hf, he]

/-- Wrapping an iterating function with OfIter makes its error permanent. -/
theorem ofIter_forever {call : Call σ α} {s : σ} {xs : List α} {e : Err} (h : Yields call s xs e) :
    YieldsForever (It.next call) (ofIter s) xs e := by
  unfold ofIter
  induction h with
  | @stop s s' e h =>
    refine ⟨fun i => if i = 0 then ⟨some s, [], none⟩ else ⟨none, [], some e⟩, rfl, ?_, ?_⟩
    · intro i hi; simp at hi
    · intro i _
      by_cases hi : i = 0
      · subst hi
        simp only [if_true]
        rw [next_source _ _ s rfl rfl, h]; rfl
      · simp only [hi, if_false]
        rw [next_stopped _ _ e rfl rfl rfl]; rfl
  | @value s s' x xs e h _ ih =>
    obtain ⟨stt, h0, h1, h2⟩ := ih
    refine ⟨fun i => match i with | 0 => ⟨some s, [], none⟩ | i + 1 => stt i, rfl, ?_, ?_⟩
    · intro i hi
      cases i with
      | zero =>
        show It.next call ⟨some s, [], none⟩ = some (.ok x, stt 0)
        rw [next_source _ _ s rfl rfl, h, h0]
      | succ i => simpa using h1 i (by simpa using hi)
    · intro i hi
      cases i with
      | zero => simp at hi
      | succ i => exact h2 i (by simpa using hi)

theorem yields_of_forever {call : Call σ α} {s : σ} {xs : List α} {e : Err}
    (h : YieldsForever call s xs e) : Yields call s xs e := by
  induction xs generalizing s with
  | nil =>
    obtain ⟨stt, rfl, _, h2⟩ := h
    exact .stop (h2 0 (by simp))
  | cons x xs ih =>
    obtain ⟨stt, rfl, h1, h2⟩ := h
    refine .value (s' := stt 1) (h1 0 (by simp)) (ih ?_)
    refine ⟨fun i => stt (i + 1), rfl, ?_, ?_⟩
    · intro i hi; exact h1 (i + 1) (by simpa using hi)
    · intro i hi; exact h2 (i + 1) (by simpa using hi)

theorem ofIter_yields {call : Call σ α} {s : σ} {xs : List α} {e : Err} (h : Yields call s xs e) :
    Yields (It.next call) (ofIter s) xs e := yields_of_forever (ofIter_forever h)

/-- What an iterating function yields is unique. -/
theorem Yields.unique {call : Call σ α} {s : σ} {xs ys : List α} {e e' : Err}
    (h : Yields call s xs e) (h' : Yields call s ys e') : xs = ys ∧ e = e' := by
  induction h generalizing ys with
  | stop h =>
    cases h' with
    | stop h' => rw [h] at h'; simp at h'; exact ⟨rfl, h'.1⟩
    | value h' _ => rw [h] at h'; simp at h'
  | value h _ ih =>
    cases h' with
    | stop h' => rw [h] at h'; simp at h'
    | value h' h'' =>
      rw [h] at h'; simp at h'
      obtain ⟨rfl, rfl⟩ := h'
      have := ih h''
      exact ⟨by rw [this.1], this.2⟩

theorem Yields.congr {call : Call σ α} {s s' : σ} {xs : List α} {e : Err}
    (hc : call s = call s') (h : Yields call s' xs e) : Yields call s xs e := by
  cases h with
  | stop h => exact .stop (by rw [hc]; exact h)
  | value h h' => exact .value (by rw [hc]; exact h) h'

/-! ### Futures -/

theorem sticky_ok {f : Fut α} {v : α} (h : f 0 = .ok v) :
    (fun n => sticky f (n + 1)) = sticky (fun i => f (i + 1)) := by
  funext n; simp [sticky, h]

theorem sticky_err {f : Fut α} {e : Err} (h : f 0 = .error e) : sticky f = fun _ => .error e := by
  funext n; cases n <;> simp [sticky, h]

/-- The future represented by an iterator state. -/
def push : List α → Fut α → Fut α
  | [], F => F
  | v :: vs, F => push vs (fun n => match n with | 0 => .ok v | n + 1 => F n)

theorem push_snoc (b : List α) (v : α) (F : Fut α) :
    push (b ++ [v]) F = fun n => match n with | 0 => .ok v | n + 1 => push b F n := by
  induction b generalizing F with
  | nil => rfl
  | cons w b ih => simp only [List.cons_append, push]; rw [ih]

theorem runOps_stopped (call : Call σ α) (b : List α) (fn : Option σ) (e : Err) (hf : fn = none)
    (ops : List (Op α)) :
    runOps call ⟨fn, b, some e⟩ ops = some (Fut.run (push b (fun _ => .error e)) ops) := by
  subst hf
  induction ops generalizing b with
  | nil => rfl
  | cons op ops ih =>
    cases op with
    | unread v =>
      simp only [runOps, It.unread, ih, Fut.run, Fut.step, push_snoc]; rfl
    | next =>
      rcases List.eq_nil_or_concat b with rfl | ⟨b', v, rfl⟩
      · rw [runOps, next_stopped _ _ e rfl rfl rfl]
        simp only [ih, Fut.run, Fut.step, push]; rfl
      · rw [List.concat_eq_append, runOps, next_buffer _ _ b' v rfl]
        simp only [ih, Fut.run, Fut.step, push_snoc]; rfl

theorem runOps_live (call : Call σ α) (stt : Nat → σ) (f : Fut α) (k : Nat)
    (h : ∀ i, (∀ j, j < i → ∃ v, f j = .ok v) → call (stt (k + i)) = some (f i, stt (k + i + 1)))
    (b : List α) (le : Option Err) (ops : List (Op α)) :
    runOps call ⟨some (stt k), b, le⟩ ops = some (Fut.run (push b (sticky f)) ops) := by
  induction ops generalizing b f k with
  | nil => rfl
  | cons op ops ih =>
    cases op with
    | unread v =>
      simp only [runOps, It.unread, ih f k h, Fut.run, Fut.step, push_snoc]; rfl
    | next =>
      rcases List.eq_nil_or_concat b with rfl | ⟨b', v, rfl⟩
      · rw [runOps, next_source _ _ (stt k) rfl rfl]
        have h0 := h 0 (by simp)
        simp only [Nat.add_zero] at h0
        rw [h0]
        simp only [Fut.run, Fut.step, push]
        cases hf : f 0 with
        | ok v =>
          have hs : sticky f 0 = .ok v := by simp [sticky, hf]
          simp only [hs, sticky_ok hf]
          rw [ih (fun i => f (i + 1)) (k + 1) (by
            intro i hi
            have := h (i + 1) (by
              intro j hj
              cases j with
              | zero => exact ⟨v, hf⟩
              | succ j => exact hi j (by omega))
            rw [show k + 1 + i = k + (i + 1) by omega]
            exact this)]
          rfl
        | error e =>
          simp only [sticky_err hf]
          rw [runOps_stopped _ _ _ _ rfl]
          rfl
      · rw [List.concat_eq_append, runOps, next_buffer _ _ b' v rfl]
        simp only [ih f k h, Fut.run, Fut.step, push_snoc]; rfl

/-! ### Slices -/

theorem sliceCall_yields (slc : List α) (i : Nat) (hi : i ≤ slc.length) :
    Yields (sliceCall slc) i (slc.drop i) .eoi := by
  generalize hn : slc.length - i = n
  induction n generalizing i with
  | zero =>
    have : i = slc.length := by omega
    subst this
    rw [List.drop_length]
    exact .stop (s' := slc.length) (by simp [sliceCall])
  | succ n ih =>
    have hlt : i < slc.length := by omega
    rw [List.drop_eq_getElem_cons hlt]
    exact .value (s' := i + 1) (by simp [sliceCall, hlt]) (ih (i + 1) (by omega) (by omega))

/-! ### Concat -/

theorem concat_value {ι : Type} {next : Call ι α} {it : ι} {vs : List α} {e : Err}
    (h : Yields next it vs e) (rest : List (Option ι)) :
    (e = .eoi → ∀ ys e', Yields (concatCall next) ⟨rest, .eoi⟩ ys e' →
      Yields (concatCall next) ⟨some it :: rest, .eoi⟩ (vs ++ ys) e') ∧
    (e ≠ .eoi → Yields (concatCall next) ⟨some it :: rest, .eoi⟩ vs e) := by
  induction h with
  | @stop s s' e h =>
    constructor
    · rintro rfl ys e' hy
      have key : concatCall next ⟨some s :: rest, .eoi⟩ = concatCall next ⟨rest, .eoi⟩ := by
        simp [concatCall, concatGo, h]
      cases hy with
      | stop hy => exact .stop (by rw [key]; exact hy)
      | value hy hy' => exact .value (by rw [key]; exact hy) hy'
    · intro he
      exact .stop (s' := ⟨[], e⟩) (by simp [concatCall, concatGo, h, he])
  | @value s s' x xs e h _ ih =>
    have key : concatCall next ⟨some s :: rest, .eoi⟩ = some (.ok x, ⟨some s' :: rest, .eoi⟩) := by
      simp [concatCall, concatGo, h]
    constructor
    · intro he ys e' hy
      exact .value key (ih.1 he ys e' hy)
    · intro he
      exact .value key (ih.2 he)

/-! ### Lines -/

/-- The result of one call of the line reader begins the sequence `lines`, `e`. -/
def LoopYields {σ : Type} (it : Call σ Nat) (r : Option (Except Err (List Nat) × LineState σ))
    (lines : List (List Nat)) (e : Err) : Prop :=
  (∃ st, r = some (.error e, st) ∧ lines = []) ∨
  (∃ l st rest, r = some (.ok l, st) ∧ lines = l :: rest ∧ Yields (readLinesCall it) st rest e)

theorem yields_of_loop {σ : Type} {it : Call σ Nat} {cr : Bool} {s : σ} {lines : List (List Nat)} {e : Err}
    (h : LoopYields it (readLinesLoop it [] cr s) lines e) :
    Yields (readLinesCall it) ⟨none, cr, s⟩ lines e := by
  rcases h with ⟨st, h, rfl⟩ | ⟨l, st, rest, h, rfl, h'⟩
  · exact .stop h
  · exact .value h h'

theorem splitLines_lf (k : Bool) (t acc : List Nat) :
    splitLines k (10 :: t) acc = acc :: splitLines k t [] := by
  rw [splitLines] <;> simp

theorem splitLines_cr (k : Bool) (t acc : List Nat) (h : t.head? ≠ some 10) :
    splitLines k (13 :: t) acc = acc :: splitLines k t [] := by
  rw [splitLines] <;> simp
  intro t'; rintro rfl; simp at h

theorem splitLines_other (k : Bool) (c : Nat) (t acc : List Nat) (h : c ≠ 13) (h' : c ≠ 10) :
    splitLines k (c :: t) acc = splitLines k t (acc ++ [c]) := by
  rw [splitLines] <;> simp [h, h']

theorem noLF_cr (b : Bool) (t : List Nat) (h : t.head? ≠ some 10) :
    NoLFAfterLoneCR b (13 :: t) = NoLFAfterLoneCR true t := by
  rw [NoLFAfterLoneCR] <;> simp
  intro t'; rintro rfl; simp at h

theorem noLF_lf (b : Bool) (t : List Nat) :
    NoLFAfterLoneCR b (10 :: t) = (b = false ∧ NoLFAfterLoneCR b t) := by
  rw [NoLFAfterLoneCR] <;> simp

theorem noLF_other (b : Bool) (c : Nat) (t : List Nat) (h : c ≠ 13) (h' : c ≠ 10) :
    NoLFAfterLoneCR b (c :: t) = NoLFAfterLoneCR b t := by
  rw [NoLFAfterLoneCR] <;> simp [h, h']

theorem writeRune_13 {c : Nat} : writeRune c = 13 ↔ c = 13 := by
  unfold writeRune; split <;> omega

theorem writeRune_10 {c : Nat} : writeRune c = 10 ↔ c = 10 := by
  unfold writeRune; split <;> omega

theorem writeRune_char (c : Char) : writeRune c.toNat = c.toNat := by
  have h := c.valid
  unfold writeRune
  have h' : c.toNat < 0xD800 ∨ 0xDFFF < c.toNat ∧ c.toNat < 0x110000 := h
  rw [if_neg (by omega)]

theorem map_writeRune_chars (cs : List Char) : (cs.map Char.toNat).map writeRune = cs.map Char.toNat := by
  simp [writeRune_char]

theorem head_writeRune (xs : List Nat) : (xs.map writeRune).head? = some 10 ↔ xs.head? = some 10 := by
  cases xs <;> simp [writeRune_10]

theorem readLines_main {σ : Type} (it : Call σ Nat) (e : Err) (n : Nat) :
    ∀ (xs : List Nat), xs.length ≤ n → ∀ (acc : List Nat) (cr : Bool) (s : σ), Yields it s xs e →
      NoLFAfterLoneCR cr xs →
      LoopYields it (readLinesLoop it acc cr s)
        (splitLines (decide (e = .eoi ∨ e = .eof)) (xs.map writeRune) acc) (if e = .eof then .eoi else e) := by
  induction n with
  | zero =>
    intro xs hx acc cr s hy _
    have : xs = [] := List.length_eq_zero_iff.mp (by omega)
    subst this
    cases hy with
    | @stop _ s' _ h =>
      rw [readLinesLoop, h]
      simp only [List.map_nil, splitLines]
      by_cases he : e = .eoi ∨ e = .eof
      · have e1 : (if e = .eof then Err.eoi else e) = .eoi := by rcases he with rfl | rfl <;> simp
        simp only [e1, he, decide_true, true_and]
        cases acc with
        | nil => left; exact ⟨⟨some .eoi, cr, s'⟩, by simp, by simp⟩
        | cons a acc =>
          right
          exact ⟨a :: acc, ⟨some .eoi, cr, s'⟩, [], by simp, by simp,
            .stop (s' := ⟨some .eoi, cr, s'⟩) (by simp [readLinesCall])⟩
      · simp only [not_or] at he
        left
        simp only [he.1, he.2, if_false, ne_eq, not_false_eq_true, if_true, or_self, decide_false]
        exact ⟨_, rfl, by simp⟩
  | succ n ih =>
    intro xs hx acc cr s hy hg
    cases hy with
    | stop h => exact ih [] (by simp) acc cr s (.stop h) trivial
    | @value _ s' c xs _ h hy =>
      rw [readLinesLoop, h]
      simp only [List.length_cons] at hx
      by_cases h13 : c = 13
      · subst h13
        simp only [if_true, List.map_cons, show writeRune 13 = 13 from rfl]
        right
        by_cases hlf : xs.head? = some 10
        · obtain ⟨t, rfl⟩ : ∃ t, xs = 10 :: t := by
            cases xs with
            | nil => simp at hlf
            | cons a t => simp at hlf; exact ⟨t, by rw [hlf]⟩
          refine ⟨acc, _, _, rfl, by rw [List.map_cons, show writeRune 10 = 10 from rfl, splitLines], yields_of_loop ?_⟩
          cases hy with
          | @value _ s'' _ _ _ h2 hy2 =>
            rw [readLinesLoop, h2]
            simp only [List.length_cons] at hx
            simp only [NoLFAfterLoneCR] at hg
            exact ih t (by omega) [] false s'' hy2 hg
        · rw [splitLines_cr _ _ _ (by rwa [ne_eq, head_writeRune])]
          refine ⟨acc, _, _, rfl, rfl, yields_of_loop ?_⟩
          rw [noLF_cr _ _ hlf] at hg
          exact ih xs (by omega) [] true s' hy hg
      · by_cases h10 : c = 10
        · subst h10
          rw [noLF_lf] at hg
          obtain ⟨rfl, hg⟩ := hg
          rw [List.map_cons, show writeRune 10 = 10 from rfl, splitLines_lf]
          right
          exact ⟨acc, _, _, rfl, rfl, yields_of_loop (ih xs (by omega) [] false s' hy hg)⟩
        · rw [List.map_cons, splitLines_other _ _ _ _ (mt writeRune_13.mp h13) (mt writeRune_10.mp h10)]
          rw [noLF_other _ _ _ h13 h10] at hg
          simp only [h13, h10, if_false]
          exact ih xs (by omega) (acc ++ [writeRune c]) cr s' hy hg

/-! ### Byte readers -/

theorem bytes_reader_yields (bs : List Nat) (buf : Nat) (close : Option (Option Err))
    (hc : ∀ ce, close ≠ some (some ce)) :
    Yields (readerCall bytesReader close) ⟨false, buf, bs⟩ bs .eoi := by
  induction bs generalizing buf with
  | nil =>
    refine .stop (s' := ⟨true, buf, []⟩) ?_
    rcases close with _ | _ | ce
    · simp [readerCall, bytesReader]
    · simp [readerCall, bytesReader]
    · exact absurd rfl (hc ce)
  | cons b bs ih =>
    exact .value (s' := ⟨false, b, bs⟩) (by simp [readerCall, bytesReader]) (ih b)

/-! ### UTF-8 -/

theorem rune_step (seq rest : List Nat) (r : Nat) (e : Err) (h : GenUtf8 seq r) :
    ∃ e', runeCall bytesReader ⟨false, e, seq ++ rest⟩ = some (.ok r, ⟨false, e', rest⟩) := by
  refine ⟨.eoi, ?_⟩
  cases h with
  | @one b h => simp [runeCall, bytesReader, h]
  | @two a b ha hb =>
    have h1 : ¬ (192 + a < 128) := by omega
    have h2 : extraBytes (192 + a) = 1 := by unfold extraBytes; rw [if_pos (by omega)]
    have h3 : (192 + a) % 32 = a := by omega
    have h4 : (128 + b) % 64 = b := by omega
    have h6 : ¬ (192 ≤ 128 + b) := by omega
    simp [runeCall, bytesReader, h1, h2, h3, h4, h6]
  | @three a b c ha hb hc =>
    have h1 : ¬ (224 + a < 128) := by omega
    have h2 : extraBytes (224 + a) = 2 := by
      unfold extraBytes; rw [if_neg (by omega), if_pos (by omega)]
    have h3 : (224 + a) % 16 = a := by omega
    have h4 : (128 + b) % 64 = b := by omega
    have h6 : ¬ (192 ≤ 128 + b) := by omega
    have h7 : (128 + c) % 64 = c := by omega
    have h8 : ¬ (192 ≤ 128 + c) := by omega
    simp [runeCall, bytesReader, h1, h2, h3, h4, h6, h7, h8]
  | @four a b c d ha hb hc hd hm =>
    have h1 : ¬ (240 + a < 128) := by omega
    have h2 : extraBytes (240 + a) = 3 := by
      unfold extraBytes; rw [if_neg (by omega), if_neg (by omega), if_pos (by omega)]
    have h3 : (240 + a) % 8 = a := by omega
    have h4 : (128 + b) % 64 = b := by omega
    have h6 : ¬ (192 ≤ 128 + b) := by omega
    have h7 : (128 + c) % 64 = c := by omega
    have h8 : ¬ (192 ≤ 128 + c) := by omega
    have h9 : (128 + d) % 64 = d := by omega
    have h10 : ¬ (192 ≤ 128 + d) := by omega
    have h11 : ¬ (1114111 < a * 262144 + b * 4096 + c * 64 + d) := by omega
    simp [runeCall, bytesReader, h1, h2, h3, h4, h6, h7, h8, h9, h10, h11]

theorem utf8_gen (c : Char) : GenUtf8 (utf8 c) c.toNat := by
  have hv : c.toNat < 0x110000 := by
    have := c.valid
    simp only [UInt32.isValidChar, Nat.isValidChar] at this
    simp only [Char.toNat]
    omega
  unfold utf8
  generalize c.toNat = n at *
  simp only
  split
  · exact .one (by omega)
  · split
    · have := GenUtf8.two (a := n / 64) (b := n % 64) (by omega) (by omega)
      rwa [show n / 64 * 64 + n % 64 = n by omega] at this
    · split
      · have := GenUtf8.three (a := n / 4096) (b := n / 64 % 64) (c := n % 64) (by omega) (by omega) (by omega)
        rwa [show n / 4096 * 4096 + n / 64 % 64 * 64 + n % 64 = n by omega] at this
      · have := GenUtf8.four (a := n / 262144) (b := n / 4096 % 64) (c := n / 64 % 64) (d := n % 64)
          (by omega) (by omega) (by omega) (by omega) (by omega)
        rwa [show n / 262144 * 262144 + n / 4096 % 64 * 4096 + n / 64 % 64 * 64 + n % 64 = n by omega] at this

/-- One call of the rune reader on a non-empty byte slice: either a generalised UTF-8 sequence is
consumed, or the result is InvalidUTF8. -/
theorem rune_cases (bs : List Nat) (e : Err) (hne : bs ≠ []) (hb : ∀ b ∈ bs, b < 256) :
    (∃ seq rest r, bs = seq ++ rest ∧ seq ≠ [] ∧ GenUtf8 seq r ∧
      runeCall bytesReader ⟨false, e, bs⟩ = some (.ok r, ⟨false, .eoi, rest⟩)) ∨
    (∃ st, runeCall bytesReader ⟨false, e, bs⟩ = some (.error .invalidUTF8, st)) := by
  obtain ⟨b, t, rfl⟩ := List.exists_cons_of_ne_nil hne
  by_cases h1 : b < 128
  · left; exact ⟨[b], t, b, rfl, by simp, .one h1, by simp [runeCall, bytesReader, h1]⟩
  · have hb256 : b < 256 := hb b (by simp)
    by_cases h0 : extraBytes b = 0
    · right; exact ⟨_, by simp [runeCall, bytesReader, h1, h0]; rfl⟩
    · -- enough bytes?
      by_cases hl : t.length < extraBytes b
      · right
        cases t with
        | nil =>
          refine ⟨⟨false, .invalidUTF8, []⟩, ?_⟩; simp [runeCall, bytesReader, h1, h0]
        | cons t0 t =>
          have hl' : t.length + 1 < extraBytes b := by simpa using hl
          refine ⟨⟨false, .invalidUTF8, List.drop (extraBytes b) (t0 :: t)⟩, ?_⟩; simp [runeCall, bytesReader, h1, h0, hl']
          intro hm; omega
      · by_cases hc : (t.take (extraBytes b)).any (fun x => decide (x < 0x80) || decide (0xC0 ≤ x)) = true
        · right
          have htn : t ≠ [] := by rintro rfl; simp at hl; exact h0 hl
          refine ⟨⟨false, .invalidUTF8, t.drop (extraBytes b)⟩, ?_⟩
          have hc' : ∃ x, x ∈ t.take (extraBytes b) ∧ (x < 128 ∨ 192 ≤ x) := by simpa using hc
          simp [runeCall, bytesReader, h1, h0, htn, Nat.min_eq_left (Nat.le_of_not_lt hl), hc']
        · simp only [List.any_eq_true, not_exists, not_and, Bool.or_eq_true, decide_eq_true_eq,
            not_or, Nat.not_lt, Nat.not_le] at hc
          rcases (show extraBytes b = 1 ∨ extraBytes b = 2 ∨ extraBytes b = 3 by
            have : extraBytes b ≤ 3 := by unfold extraBytes; (repeat' split) <;> omega
            omega) with h | h | h
          · have hr : 192 ≤ b ∧ b < 224 := by
              unfold extraBytes at h; split at h <;> first | assumption | (split at h <;> first | omega | (split at h <;> omega))
            rw [h] at hl hc
            match t, hl, hc with
            | [], hl, _ => simp at hl
            | x :: t, _, hc =>
              have hx := hc x (by simp)
              left
              have g := GenUtf8.two (a := b - 192) (b := x - 128) (by omega) (by omega)
              rw [show 0xC0 + (b - 192) = b by omega, show 0x80 + (x - 128) = x by omega] at g
              refine ⟨[b, x], t, _, rfl, by simp, g, ?_⟩
              obtain ⟨e', he⟩ := rune_step _ t _ e g
              have e1 : ¬ (x < 128) := by omega
              have e2 : ¬ (192 ≤ x) := by omega
              simp [runeCall, bytesReader, h1, h, e1, e2]; omega
          · have hr : 224 ≤ b ∧ b < 240 := by
              unfold extraBytes at h; split at h <;> first | omega | (split at h <;> first | assumption | (split at h <;> omega))
            rw [h] at hl hc
            match t, hl, hc with
            | [], hl, _ => simp at hl
            | [_], hl, _ => simp at hl
            | x :: y :: t, _, hc =>
              have hx := hc x (by simp)
              have hy := hc y (by simp)
              left
              have g := GenUtf8.three (a := b - 224) (b := x - 128) (c := y - 128) (by omega) (by omega) (by omega)
              rw [show 0xE0 + (b - 224) = b by omega, show 0x80 + (x - 128) = x by omega,
                show 0x80 + (y - 128) = y by omega] at g
              refine ⟨[b, x, y], t, _, rfl, by simp, g, ?_⟩
              have e1 : ¬ (x < 128) := by omega
              have e2 : ¬ (192 ≤ x) := by omega
              have e3 : ¬ (y < 128) := by omega
              have e4 : ¬ (192 ≤ y) := by omega
              simp [runeCall, bytesReader, h1, h, e1, e2, e3, e4]; omega
          · have hr : 240 ≤ b ∧ b < 248 := by
              unfold extraBytes at h; split at h <;> first | omega | (split at h <;> first | omega | (split at h <;> first | assumption | omega))
            rw [h] at hl hc
            match t, hl, hc with
            | [], hl, _ => simp at hl
            | [_], hl, _ => simp at hl
            | [_, _], hl, _ => simp at hl
            | x :: y :: z :: t, _, hc =>
              have hx := hc x (by simp)
              have hy := hc y (by simp)
              have hz := hc z (by simp)
              have e1 : ¬ (x < 128) := by omega
              have e2 : ¬ (192 ≤ x) := by omega
              have e3 : ¬ (y < 128) := by omega
              have e4 : ¬ (192 ≤ y) := by omega
              have e5 : ¬ (z < 128) := by omega
              have e6 : ¬ (192 ≤ z) := by omega
              by_cases hm : (b - 240) * 262144 + (x - 128) * 4096 + (y - 128) * 64 + (z - 128) ≤ 0x10FFFF
              · left
                have g := GenUtf8.four (a := b - 240) (b := x - 128) (c := y - 128) (d := z - 128)
                  (by omega) (by omega) (by omega) (by omega) hm
                rw [show 0xF0 + (b - 240) = b by omega, show 0x80 + (x - 128) = x by omega,
                  show 0x80 + (y - 128) = y by omega, show 0x80 + (z - 128) = z by omega] at g
                refine ⟨[b, x, y, z], t, _, rfl, by simp, g, ?_⟩
                have e7 : ¬ (1114111 < b % 8 * 262144 + x % 64 * 4096 + y % 64 * 64 + z % 64) := by omega
                simp [runeCall, bytesReader, h1, h, e1, e2, e3, e4, e5, e6, e7]; omega
              · right
                have e7 : 1114111 < b % 8 * 262144 + x % 64 * 4096 + y % 64 * 64 + z % 64 := by omega
                exact ⟨_, by simp [runeCall, bytesReader, h1, h, e1, e2, e3, e4, e5, e6, e7]; rfl⟩

end Micro.Iter
