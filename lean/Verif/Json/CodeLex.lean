import Verif.Json.CodeModel
import Verif.Json.ParseSound
/-
The lexer on an iterator of runes (Verif/Json/CodeModel.lean) returns what the lexer on the text (Verif/Json/Model.lean) returns.
-/
set_option linter.unusedSimpArgs false
namespace Micro.Json
open Micro Micro.Iter

/-- `R i rs`: in state `i` the iterator of runes has still to deliver `rs`; Unread puts a rune in front. If `kn` (the end is known), it then
returns `fin` for ever. Otherwise nothing is known about what follows `rs`, not even that Next returns, and `fin` is no error of the iterator but
marks the results that depend on what follows. -/
structure RunesOf {ι : Type} (nx : Call ι Nat) (un : ι → Nat → ι) (kn : Prop) (fin : Err) (R : ι → List Nat → Prop) : Prop where
  cons : ∀ i r rs, R i (r :: rs) → ∃ i', nx i = some (.ok r, i') ∧ R i' rs
  nil : kn → ∀ i, R i [] → ∃ i', nx i = some (.error fin, i') ∧ R i' []
  ne : ¬ kn → fin ≠ .eoi
  un : ∀ i r rs, R i rs → R (un i r) (r :: rs)

/-! ### Runes as characters -/

theorem ch_toNat (r : Nat) : (ch r).toNat = writeRune r := by
  have hv : (writeRune r).isValidChar := by unfold writeRune Nat.isValidChar; split <;> omega
  unfold ch
  simp [Char.ofNat, dif_pos hv, Char.ofNatAux, Char.toNat]

theorem char_ext {a b : Char} : a = b ↔ a.toNat = b.toNat := by
  constructor
  · rintro rfl; rfl
  · intro h; exact Char.ext (UInt32.toNat_inj.mp h)

theorem char_le {a b : Char} : a ≤ b ↔ a.toNat ≤ b.toNat := by
  rw [Char.le_def, UInt32.le_iff_toNat_le]; rfl

theorem char_lt {a b : Char} : a < b ↔ a.toNat < b.toNat := by
  rw [Char.lt_def, UInt32.lt_iff_toNat_lt]; rfl

theorem ch_eq (r : Nat) (k : Char) (hk : k.toNat < 0xD800) : ch r = k ↔ r = k.toNat := by
  rw [char_ext, ch_toNat]; unfold writeRune; split <;> omega

theorem ch_lt (r : Nat) (k : Char) (hk : k.toNat < 0xD800) : ch r < k ↔ r < k.toNat := by
  rw [char_lt, ch_toNat]; unfold writeRune; split <;> omega

theorem ch_le (r : Nat) (k : Char) (hk : k.toNat < 0xD800) : ch r ≤ k ↔ r ≤ k.toNat := by
  rw [char_le, ch_toNat]; unfold writeRune; split <;> omega

theorem ch_ge (r : Nat) (k : Char) (hk : k.toNat < 0xD800) : k ≤ ch r ↔ k.toNat ≤ r := by
  rw [char_le, ch_toNat]; unfold writeRune; split <;> omega

theorem ch_digit (r : Nat) : isDigit (ch r) = true ↔ 0x30 ≤ r ∧ r ≤ 0x39 := by
  simp only [isDigit, ch_toNat, Bool.and_eq_true, decide_eq_true_eq]; unfold writeRune; split <;> omega

theorem ch_lower (r : Nat) : isLower (ch r) = true ↔ 0x61 ≤ r ∧ r ≤ 0x7A := by
  simp only [isLower, decide_eq_true_eq]
  rw [ch_ge r 'a' (by decide), ch_le r 'z' (by decide)]
  exact Iff.rfl

theorem ch_ws (r : Nat) : isWs (ch r) = true ↔ r = 0x20 ∨ r = 0x0A ∨ r = 0x0D ∨ r = 0x09 := by
  simp only [isWs, Bool.or_eq_true, beq_iff_eq]
  rw [ch_eq r ' ' (by decide), ch_eq r '\n' (by decide), ch_eq r '\r' (by decide), ch_eq r '\t' (by decide)]
  simp only [or_assoc]
  exact Iff.rfl

theorem ch_valid {r : Nat} (h1 : r ≤ 0x10FFFF) (h2 : isSurrogate r = false) : ch r = Char.ofNat r := by
  have : writeRune r = r := by
    unfold writeRune
    rw [if_neg]
    intro h
    simp [isSurrogate] at h2
    omega
  rw [ch, this]

theorem goStr_snoc (str : List Nat) (r : Nat) : goStr (str ++ [r]) = goStr str ++ [ch r] := by simp [goStr]

/-! ### The relation between the results -/

section
variable {ι : Type} {nx : Call ι Nat} {un : ι → Nat → ι} {kn : Prop} {fin : Err} {R : ι → List Nat → Prop}

/-- The result of a function on an iterator of runes is that of a function on the text; `f` translates the values. -/
def Ref {α β : Type} (kn : Prop) (fin : Err) (R : ι → List Nat → Prop) (f : α → β) (res : Option (Except Err α × ι))
    (spec : Except Err (β × List Char)) : Prop :=
  match spec with
  | .ok (b, t) => ∃ a i rs, res = some (.ok a, i) ∧ f a = b ∧ R i rs ∧ rs.map ch = t
  | .error e => kn ∨ e ≠ fin → ∃ i, res = some (.error e, i)

theorem ref_ok {α β : Type} {f : α → β} {a : α} {i : ι} {rs : List Nat} (h : R i rs) :
    Ref kn fin R f (some (.ok a, i)) (.ok (f a, rs.map ch)) := ⟨a, i, rs, rfl, rfl, h, rfl⟩

theorem ref_err {α β : Type} {f : α → β} {e : Err} {i : ι} : Ref kn fin R f (some (.error e, i)) (.error e) := fun _ => ⟨i, rfl⟩

theorem ref_of {α β : Type} {f : α → β} {e : Err} {res : Option (Except Err α × ι)} (h : kn ∨ e ≠ fin → ∃ i, res = some (.error e, i)) :
    Ref kn fin R f res (.error e) := h

/-- The end of the text, where the function on the text fails. -/
theorem ref_end {α β : Type} {f : α → β} {e : Err} {i : ι} {res : Option (Except Err α × ι)} (H : RunesOf nx un kn fin R) (h : R i [])
    (he : fin ≠ .eoi → e = fin) (hr : ∀ i', nx i = some (.error fin, i') → ∃ j, res = some (.error e, j)) :
    Ref kn fin R f res (.error e) := by
  intro hk
  by_cases hn : kn
  · obtain ⟨i', h1, -⟩ := H.nil hn i h
    exact hr i' h1
  · rcases hk with hk | hk
    · exact absurd hk hn
    · exact absurd (he (H.ne hn)) hk

theorem endErr_ne {fin m : Err} (h : fin ≠ .eoi) : endErr fin m = fin := if_neg h

theorem endErr_eq (e m : Err) : (if e = .eoi then m else e) = endErr e m := rfl

theorem hexVal_ch (r : Nat) : hexVal (ch r) = if 0x30 ≤ r ∧ r ≤ 0x39 then some (r - 0x30)
    else if 0x41 ≤ r ∧ r ≤ 0x46 then some (r - 0x41 + 10) else if 0x61 ≤ r ∧ r ≤ 0x66 then some (r - 0x61 + 10) else none := by
  unfold hexVal
  simp only [ch_ge r '0' (by decide), ch_le r '9' (by decide), ch_ge r 'A' (by decide), ch_le r 'F' (by decide), ch_ge r 'a' (by decide),
    ch_le r 'f' (by decide), ch_toNat, show '0'.toNat = 0x30 from rfl, show '9'.toNat = 0x39 from rfl, show 'A'.toNat = 0x41 from rfl, show 'F'.toNat = 0x46 from rfl,
    show 'a'.toNat = 0x61 from rfl, show 'f'.toNat = 0x66 from rfl]
  split
  · rename_i h; rw [show writeRune r = r by unfold writeRune; rw [if_neg]; omega]
  · split
    · rename_i h; rw [show writeRune r = r by unfold writeRune; rw [if_neg]; omega]
    · split
      · rename_i h; rw [show writeRune r = r by unfold writeRune; rw [if_neg]; omega]
      · rfl

theorem hexVal_lt {c : Char} {d : Nat} (h : hexVal c = some d) : d < 16 := by
  unfold hexVal at h
  simp only [char_le, show '0'.toNat = 0x30 from rfl, show '9'.toNat = 0x39 from rfl, show 'A'.toNat = 0x41 from rfl, show 'F'.toNat = 0x46 from rfl,
    show 'a'.toNat = 0x61 from rfl, show 'f'.toNat = 0x66 from rfl] at h
  split at h
  · cases h; omega
  · split at h
    · cases h; omega
    · split at h
      · cases h; omega
      · cases h

theorem readHex_lt {fin : Err} {n : Nat} : ∀ {v : Nat} {t : List Char} {h : Nat} {t' : List Char}, readHex fin n v t = .ok (h, t') →
    h < (v + 1) * 16 ^ n := by
  induction n with
  | zero => intro v t h t' e; simp [readHex] at e; omega
  | succ n ih =>
    intro v t h t' e
    cases t with
    | nil => simp [readHex] at e
    | cons c t =>
      unfold readHex at e
      cases hx : hexVal c with
      | none => rw [hx] at e; simp at e
      | some d =>
        rw [hx] at e
        have h1 := ih e
        have h2 := hexVal_lt hx
        have h3 : (v * 16 + d + 1) * 16 ^ n ≤ (v + 1) * 16 ^ (n + 1) := by
          rw [Nat.pow_succ, Nat.mul_comm (16 ^ n) 16, ← Nat.mul_assoc]
          exact Nat.mul_le_mul_right _ (by omega)
        omega

theorem gReadHex_ref (H : RunesOf nx un kn fin R) (n : Nat) : ∀ (v : Nat) (i : ι) (rs : List Nat), R i rs →
    Ref kn fin R id (gReadHex nx n v i) (readHex fin n v (rs.map ch)) := by
  induction n with
  | zero => intro v i rs h; exact ref_ok (f := id) h
  | succ n ih =>
    intro v i rs h
    cases rs with
    | nil =>
      exact ref_end H h endErr_ne fun i' h1 => ⟨i', by simp only [gReadHex, h1, endErr_eq]⟩
    | cons r rs =>
      obtain ⟨i', h1, h2⟩ := H.cons i r rs h
      simp only [gReadHex, h1, List.map_cons, readHex, hexVal_ch]
      split
      · have : v * 16 + r - 0x30 = v * 16 + (r - 0x30) := by omega
        rw [this]; exact ih _ _ _ h2
      · split
        · have : v * 16 + r - 0x41 + 10 = v * 16 + (r - 0x41 + 10) := by omega
          rw [this]; exact ih _ _ _ h2
        · split
          · have : v * 16 + r - 0x61 + 10 = v * 16 + (r - 0x61 + 10) := by omega
            rw [this]; exact ih _ _ _ h2
          · exact ref_err

theorem gSurrogate_ref (H : RunesOf nx un kn fin R) (hv : Nat) (i : ι) (rs : List Nat) (h : R i rs) :
    Ref kn fin R id (gSurrogate nx hv i) (lexSurrogate fin hv (rs.map ch)) := by
  unfold gSurrogate lexSurrogate
  by_cases hs : isSurrogate hv = true
  · rw [if_pos hs, if_pos hs]
    cases rs with
    | nil =>
      exact ref_end H h endErr_ne fun i' h1 => ⟨i', by simp only [h1, endErr_eq]⟩
    | cons r rs =>
      obtain ⟨i', h1, h2⟩ := H.cons i r rs h
      simp only [h1, List.map_cons, ne_eq, ch_eq r '\\' (by decide), show '\\'.toNat = 0x5C from rfl]
      by_cases hr : r = 0x5C
      · rw [if_neg (not_not.mpr hr), if_neg (not_not.mpr hr)]
        cases rs with
        | nil =>
          exact ref_end H h2 endErr_ne fun i' h1 => ⟨i', by simp only [h1, endErr_eq]⟩
        | cons q rs =>
          obtain ⟨i'', h3, h4⟩ := H.cons i' q rs h2
          simp only [h3, List.map_cons, ne_eq, ch_eq q 'u' (by decide), show 'u'.toNat = 0x75 from rfl]
          by_cases hq : q = 0x75
          · rw [if_neg (not_not.mpr hq), if_neg (not_not.mpr hq)]
            have h5 := gReadHex_ref H 4 0 i'' rs h4
            cases hx : readHex fin 4 0 (rs.map ch) with
            | error e =>
              rw [hx] at h5
              apply ref_of; intro hk
              obtain ⟨j, h6⟩ := h5 hk
              simp only [h6]; exact ⟨_, rfl⟩
            | ok p =>
              obtain ⟨h2v, t⟩ := p
              rw [hx] at h5
              obtain ⟨a, j, rs', h6, rfl, h7, rfl⟩ := h5
              simp only [h6, id]
              by_cases hb : isSurrogate a = false
              · rw [if_pos hb, if_pos hb]; exact ref_err
              · rw [if_neg hb, if_neg hb]
                unfold decodePair
                by_cases hc : decodeRune hv a = 0xFFFD
                · rw [if_pos hc, if_pos hc]
                  by_cases hd : decodeRune a hv = 0xFFFD
                  · rw [if_pos hd, if_pos hd]; exact ref_err
                  · rw [if_neg hd, if_neg hd]; exact ref_ok (f := id) h7
                · rw [if_neg hc, if_neg hc]; exact ref_ok (f := id) h7
          · rw [if_pos hq, if_pos hq]; exact ref_err
      · rw [if_pos hr, if_pos hr]; exact ref_err
  · rw [if_neg hs, if_neg hs]; exact ref_ok (f := id) h

theorem decodeRune_valid {a b : Nat} (h : decodeRune a b ≠ 0xFFFD) : decodeRune a b ≤ 0x10FFFF ∧ isSurrogate (decodeRune a b) = false := by
  have key : decodeRune a b = 0xFFFD ∨ (0x10000 ≤ decodeRune a b ∧ decodeRune a b ≤ 0x10FFFF) := by
    unfold decodeRune
    by_cases hc : 0xD800 ≤ a ∧ a < 0xDC00 ∧ 0xDC00 ≤ b ∧ b < 0xE000
    · rw [if_pos hc]; right; constructor <;> omega
    · rw [if_neg hc]; exact Or.inl rfl
  generalize decodeRune a b = d at h key
  rcases key with key | ⟨h1, h2⟩
  · exact absurd key h
  · refine ⟨h2, ?_⟩
    unfold isSurrogate
    rw [Bool.and_eq_false_iff]
    right
    rw [decide_eq_false_iff_not]
    omega

theorem lexSurrogate_valid {h r : Nat} {t t' : List Char} (hh : h ≤ 0x10FFFF) (e : lexSurrogate fin h t = .ok (r, t')) : ch r = Char.ofNat r := by
  suffices hs : r ≤ 0x10FFFF ∧ isSurrogate r = false from ch_valid hs.1 hs.2
  unfold lexSurrogate at e
  split at e
  · split at e
    · cases e
    · split at e
      · cases e
      · split at e
        · cases e
        · split at e
          · cases e
          · split at e
            · cases e
            · split at e
              · cases e
              · unfold decodePair at e
                split at e
                · cases e
                · rename_i _ hd
                  cases e
                  split at hd
                  · split at hd
                    · cases hd
                    · rename_i hn; cases hd; exact decodeRune_valid hn
                  · rename_i hn; cases hd; exact decodeRune_valid hn
  · rename_i hs
    cases e
    exact ⟨hh, by simpa using hs⟩

theorem gEscape_ref (H : RunesOf nx un kn fin R) (i : ι) (rs : List Nat) (h : R i rs) :
    Ref kn fin R (fun p => (p.1, ch p.2)) (gEscape nx i) (lexEscape fin (rs.map ch)) := by
  cases rs with
  | nil =>
    exact ref_end H h endErr_ne fun i' h1 => ⟨i', by simp only [gEscape, h1, endErr_eq]⟩
  | cons r rs =>
    obtain ⟨i', h1, h2⟩ := H.cons i r rs h
    have S : ∀ (b : Bool) (x : Nat) (c : Char), ch x = c →
        Ref kn fin R (fun p : Bool × Nat => (p.1, ch p.2)) (some (.ok (b, x), i')) (.ok ((b, c), rs.map ch)) := by
      intro b x c hx
      exact ⟨(b, x), i', rs, rfl, by simp only [hx], h2, rfl⟩
    simp only [gEscape, h1, List.map_cons, lexEscape, shortEscape, ch_eq r '"' (by decide), ch_eq r '\\' (by decide), ch_eq r '/' (by decide),
      ch_eq r 'b' (by decide), ch_eq r 'f' (by decide), ch_eq r 'n' (by decide), ch_eq r 'r' (by decide), ch_eq r 't' (by decide),
      ch_eq r 'u' (by decide), show '"'.toNat = 0x22 from rfl, show '\\'.toNat = 0x5C from rfl, show '/'.toNat = 0x2F from rfl,
      show 'b'.toNat = 0x62 from rfl, show 'f'.toNat = 0x66 from rfl, show 'n'.toNat = 0x6E from rfl, show 'r'.toNat = 0x72 from rfl,
      show 't'.toNat = 0x74 from rfl, show 'u'.toNat = 0x75 from rfl]
    by_cases c1 : r = 0x22
    · rw [if_pos c1, if_pos c1]; exact S _ _ _ (by decide)
    rw [if_neg c1, if_neg c1]
    by_cases c2 : r = 0x5C
    · simp only [if_pos c2]; exact S _ _ _ (by decide)
    simp only [if_neg c2]
    by_cases c3 : r = 0x2F
    · simp only [if_pos c3]; exact S _ _ _ (by decide)
    simp only [if_neg c3]
    by_cases c4 : r = 0x62
    · simp only [if_pos c4]; exact S _ _ _ (by decide)
    simp only [if_neg c4]
    by_cases c5 : r = 0x66
    · simp only [if_pos c5]; exact S _ _ _ (by decide)
    simp only [if_neg c5]
    by_cases c6 : r = 0x6E
    · simp only [if_pos c6]; exact S _ _ _ (by decide)
    simp only [if_neg c6]
    by_cases c7 : r = 0x72
    · simp only [if_pos c7]; exact S _ _ _ (by decide)
    simp only [if_neg c7]
    by_cases c8 : r = 0x74
    · simp only [if_pos c8]; exact S _ _ _ (by decide)
    simp only [if_neg c8]
    by_cases c9 : r = 0x75
    · simp only [if_pos c9]
      have h5 := gReadHex_ref H 4 0 i' rs h2
      cases hx : readHex fin 4 0 (rs.map ch) with
      | error e =>
        rw [hx] at h5
        apply ref_of; intro hk
        obtain ⟨j, h6⟩ := h5 hk
        simp only [h6]; exact ⟨_, rfl⟩
      | ok p =>
        obtain ⟨hv, t⟩ := p
        have hb := readHex_lt hx
        rw [hx] at h5
        obtain ⟨a, j, rs', h6, rfl, h7, rfl⟩ := h5
        simp only [h6, id]
        have h8 := gSurrogate_ref H a j rs' h7
        cases hy : lexSurrogate fin a (rs'.map ch) with
        | error e =>
          rw [hy] at h8
          apply ref_of; intro hk
          obtain ⟨j', h9⟩ := h8 hk
          simp only [h9]; exact ⟨_, rfl⟩
        | ok p =>
          obtain ⟨b, t⟩ := p
          have hw := lexSurrogate_valid (by simp at hb; omega) hy
          rw [hy] at h8
          obtain ⟨a', j', rs'', h9, rfl, h10, rfl⟩ := h8
          simp only [h9, id]
          exact ⟨(false, a'), j', rs'', rfl, by simp only [id] at hw ⊢; rw [hw], h10, rfl⟩
    · simp only [if_neg c9]; exact ref_err

/-- The result of lexString and lexNumber, as a token. -/
def asTok (f : List Char → Tok) : Except Err (List Char × List Char) → Except Err (Tok × List Char)
  | .error e => .error e
  | .ok (s, t) => .ok (f s, t)

theorem gStrLoop_ref (H : RunesOf nx un kn fin R) (n : Nat) : ∀ (str : List Nat) (i : ι) (rs : List Nat), rs.length ≤ n → R i rs →
    Ref kn fin R id (gStrLoop nx str i) (asTok .str (lexStrLoop fin (goStr str) (rs.map ch))) := by
  induction n with
  | zero =>
    intro str i rs hn h
    obtain rfl : rs = [] := List.eq_nil_of_length_eq_zero (by omega)
    rw [List.map_nil, lexStrLoop]
    exact ref_end H h endErr_ne fun i' h1 => ⟨i', by rw [gStrLoop, h1]; rfl⟩
  | succ n ih =>
    intro str i rs hn h
    cases rs with
    | nil =>
      rw [List.map_nil, lexStrLoop]
      exact ref_end H h endErr_ne fun i' h1 => ⟨i', by rw [gStrLoop, h1]; rfl⟩
    | cons r rs =>
      obtain ⟨i', h1, h2⟩ := H.cons i r rs h
      simp only [List.length_cons] at hn
      rw [gStrLoop, h1, List.map_cons, lexStrLoop]
      simp only [ch_lt r ' ' (by decide), ch_eq r '\\' (by decide), ch_eq r '"' (by decide), show ' '.toNat = 0x20 from rfl,
        show '"'.toNat = 0x22 from rfl, show '\\'.toNat = 0x5C from rfl]
      by_cases c1 : r < 0x20
      · rw [if_pos c1, if_pos c1]; exact ref_err
      rw [if_neg c1, if_neg c1]
      by_cases c2 : r = 0x5C
      · rw [if_pos c2, if_pos c2]
        have h3 := gEscape_ref H i' rs h2
        cases hx : lexEscape fin (rs.map ch) with
        | error e =>
          rw [hx] at h3
          apply ref_of; intro hk
          obtain ⟨j, h4⟩ := h3 hk
          simp only [h4]; exact ⟨_, rfl⟩
        | ok p =>
          obtain ⟨⟨cont, x⟩, t⟩ := p
          have hl := lexEscape_length hx
          rw [hx] at h3
          obtain ⟨⟨cont', x'⟩, j, rs', h4, h5, h6, rfl⟩ := h3
          simp only [Prod.mk.injEq] at h5
          obtain ⟨rfl, rfl⟩ := h5
          simp only [List.length_map] at hl
          simp only [h4]
          cases cont' with
          | true =>
            simp only [Bool.true_eq_false, false_and, if_false, ← goStr_snoc]
            exact ih _ _ _ (by omega) h6
          | false =>
            simp only [true_and, ch_eq x' '"' (by decide), show '"'.toNat = 0x22 from rfl]
            by_cases c3 : x' = 0x22
            · rw [if_pos c3, if_pos c3]; exact ref_ok (f := id) h6
            · rw [if_neg c3, if_neg c3, ← goStr_snoc]
              exact ih _ _ _ (by omega) h6
      rw [if_neg c2, if_neg c2]
      by_cases c3 : r = 0x22
      · rw [if_pos c3, if_pos c3]; exact ref_ok (f := id) h2
      · rw [if_neg c3, if_neg c3, ← goStr_snoc]
        exact ih _ _ _ (by omega) h2

/-! ### Numbers -/

theorem gTok_end (str : List Nat) (i : ι) (h : R i []) : Ref kn fin R id (gTok un str none i) (asTok .num (.ok (goStr str, []))) :=
  ref_ok (f := id) (rs := []) h

theorem gTok_ref (H : RunesOf nx un kn fin R) (str : List Nat) (r : Nat) (i : ι) (rs : List Nat) (h : R i rs) :
    Ref kn fin R id (gTok un str (some r) i) (asTok .num (.ok (goStr str, ch r :: rs.map ch))) :=
  ref_ok (f := id) (rs := r :: rs) (H.un _ _ _ h)

theorem gDie_none (i : ι) : Ref kn fin R id (gDie none i) (asTok .num (.error eInvalidNumber)) := ref_err

theorem gDie_some (e : Err) (i : ι) : Ref kn fin R id (gDie (some e) i) (asTok .num (.error (endErr e eInvalidNumber))) := ref_err

theorem gExpLoop_ref (H : RunesOf nx un kn fin R) (rs : List Nat) : ∀ (str : List Nat) (hd : Bool) (i : ι), R i rs →
    Ref kn fin R id (gExpLoop nx un str hd i) (asTok .num (numExpLoop fin (goStr str) hd (rs.map ch))) := by
  induction rs with
  | nil =>
    intro str hd i h
    rw [List.map_nil, numExpLoop]
    by_cases c : fin = .eoi ∧ hd = true
    · obtain ⟨i', h1, h2⟩ := H.nil (Classical.byContradiction fun hn => H.ne hn c.1) i h
      rw [if_pos c, gExpLoop, h1]
      simp only []
      rw [if_pos c]; exact gTok_end str i' h2
    · rw [if_neg c]
      exact ref_end H h endErr_ne fun i' h1 => ⟨i', by rw [gExpLoop, h1]; simp only []; rw [if_neg c]; rfl⟩
  | cons r rs ih =>
    intro str hd i h
    obtain ⟨i', h1, h2⟩ := H.cons i r rs h
    rw [gExpLoop, h1, List.map_cons, numExpLoop]
    simp only [ch_digit]
    by_cases c : 0x30 ≤ r ∧ r ≤ 0x39
    · rw [if_pos c, if_pos c, ← goStr_snoc]; exact ih _ _ _ h2
    rw [if_neg c, if_neg c]
    by_cases c : hd = true
    · rw [if_pos c, if_pos c]; exact gTok_ref H str r i' rs h2
    · rw [if_neg c, if_neg c]; exact gDie_none _

theorem gExp_ref (H : RunesOf nx un kn fin R) (rs : List Nat) (str : List Nat) (i : ι) (h : R i rs) :
    Ref kn fin R id (gExp nx un str i) (asTok .num (numExp fin (goStr str) (rs.map ch))) := by
  cases rs with
  | nil =>
    exact ref_end H h endErr_ne fun i' h1 => ⟨i', by rw [gExp, h1]; rfl⟩
  | cons r rs =>
    obtain ⟨i', h1, h2⟩ := H.cons i r rs h
    rw [gExp, h1, List.map_cons, numExp]
    simp only [ch_eq r '+' (by decide), ch_eq r '-' (by decide), show '+'.toNat = 0x2B from rfl, show '-'.toNat = 0x2D from rfl]
    by_cases c : r = 0x2B ∨ r = 0x2D
    · rw [if_pos c, if_pos c, ← goStr_snoc]; exact gExpLoop_ref H _ _ _ _ h2
    · rw [if_neg c, if_neg c]; exact gExpLoop_ref H (r :: rs) _ _ _ (H.un _ _ _ h2)

theorem gFrac_ref (H : RunesOf nx un kn fin R) (rs : List Nat) : ∀ (str : List Nat) (hd : Bool) (i : ι), R i rs →
    Ref kn fin R id (gFrac nx un str hd i) (asTok .num (numFrac fin (goStr str) hd (rs.map ch))) := by
  induction rs with
  | nil =>
    intro str hd i h
    rw [List.map_nil, numFrac]
    by_cases c : fin = .eoi
    · obtain ⟨i', h1, h2⟩ := H.nil (Classical.byContradiction fun hn => H.ne hn c) i h
      rw [if_pos c, gFrac, h1]
      simp only []
      rw [if_pos c]
      cases hd
      · subst c; exact gDie_some .eoi _
      · exact gTok_end (un := un) str i' h2
    · rw [if_neg c]
      exact ref_end H h (fun _ => rfl) fun i' h1 => ⟨i', by rw [gFrac, h1]; simp only []; rw [if_neg c]⟩
  | cons r rs ih =>
    intro str hd i h
    obtain ⟨i', h1, h2⟩ := H.cons i r rs h
    rw [gFrac, h1, List.map_cons, numFrac]
    simp only [ch_digit, ch_eq r 'e' (by decide), ch_eq r 'E' (by decide), show 'e'.toNat = 0x65 from rfl, show 'E'.toNat = 0x45 from rfl]
    by_cases c : 0x30 ≤ r ∧ r ≤ 0x39
    · rw [if_pos c, if_pos c, ← goStr_snoc]; exact ih _ _ _ h2
    rw [if_neg c, if_neg c]
    by_cases c : r = 0x65 ∨ r = 0x45
    · rw [if_pos c, if_pos c]
      by_cases c : hd = true
      · rw [if_pos c, if_pos c, ← goStr_snoc]; exact gExp_ref H _ _ _ h2
      · rw [if_neg c, if_neg c]; exact gDie_none _
    rw [if_neg c, if_neg c]
    by_cases c : hd = true
    · rw [if_pos c, if_pos c]; exact gTok_ref H str r i' rs h2
    · rw [if_neg c, if_neg c]; exact gDie_none _

theorem gInt_ref (H : RunesOf nx un kn fin R) (rs : List Nat) : ∀ (str : List Nat) (hd lz : Bool) (i : ι), R i rs →
    Ref kn fin R id (gInt nx un str hd lz i) (asTok .num (numInt fin (goStr str) hd lz (rs.map ch))) := by
  induction rs with
  | nil =>
    intro str hd lz i h
    rw [List.map_nil, numInt]
    by_cases c : fin = .eoi
    · obtain ⟨i', h1, h2⟩ := H.nil (Classical.byContradiction fun hn => H.ne hn c) i h
      rw [if_pos c, gInt, h1]
      simp only []
      rw [if_pos c]
      cases hd
      · subst c; exact gDie_some .eoi _
      · exact gTok_end (un := un) str i' h2
    · rw [if_neg c]
      exact ref_end H h (fun _ => rfl) fun i' h1 => ⟨i', by rw [gInt, h1]; simp only []; rw [if_neg c]⟩
  | cons r rs ih =>
    intro str hd lz i h
    obtain ⟨i', h1, h2⟩ := H.cons i r rs h
    rw [gInt, h1, List.map_cons, numInt]
    simp only [ch_digit, ch_eq r 'e' (by decide), ch_eq r 'E' (by decide), ch_eq r '.' (by decide), show 'e'.toNat = 0x65 from rfl,
      show 'E'.toNat = 0x45 from rfl, show '.'.toNat = 0x2E from rfl]
    by_cases c : 0x30 ≤ r ∧ r ≤ 0x39
    · rw [if_pos c, if_pos c]
      by_cases c : lz = true
      · rw [if_pos c, if_pos c]; exact gDie_none _
      · rw [if_neg c, if_neg c, ← goStr_snoc]; exact ih _ _ _ _ h2
    rw [if_neg c, if_neg c]
    by_cases c : r = 0x2E
    · rw [if_pos c, if_pos c]
      by_cases c : hd = true
      · rw [if_pos c, if_pos c, ← goStr_snoc]; exact gFrac_ref H _ _ _ _ h2
      · rw [if_neg c, if_neg c]; exact gDie_none _
    rw [if_neg c, if_neg c]
    by_cases c : r = 0x65 ∨ r = 0x45
    · rw [if_pos c, if_pos c]
      by_cases c : hd = true
      · rw [if_pos c, if_pos c, ← goStr_snoc]; exact gExp_ref H _ _ _ h2
      · rw [if_neg c, if_neg c]; exact gDie_none _
    rw [if_neg c, if_neg c]
    by_cases c : hd = true
    · rw [if_pos c, if_pos c]; exact gTok_ref H str r i' rs h2
    · rw [if_neg c, if_neg c]; exact gDie_none _

theorem gLexNumber_ref (H : RunesOf nx un kn fin R) (r : Nat) (rs : List Nat) (i : ι) (h : R i (r :: rs)) :
    Ref kn fin R id (gLexNumber nx un i) (lexNumber fin (ch r) (rs.map ch)) := by
  obtain ⟨i', h1, h2⟩ := H.cons i r rs h
  have h3 := gInt_ref H rs [r] (r != 0x2D) (r == 0x30) i' h2
  have e1 : decide (ch r ≠ '-') = (r != 0x2D) := by
    rw [Bool.eq_iff_iff]; simp only [decide_eq_true_eq, bne_iff_ne, ne_eq, ch_eq r '-' (by decide)]; exact Iff.rfl
  have e2 : decide (ch r = '0') = (r == 0x30) := by
    rw [Bool.eq_iff_iff]; simp only [decide_eq_true_eq, beq_iff_eq, ch_eq r '0' (by decide)]; exact Iff.rfl
  unfold gLexNumber lexNumber
  rw [h1, e1, e2]
  exact h3

/-! ### true, false, null; lex -/

theorem gWord_ref (str : List Nat) (i : ι) (rs : List Nat) (h : R i rs) : Ref kn fin R id (gWord str i)
    (if goStr str = ['t', 'r', 'u', 'e'] then .ok (.bool true, rs.map ch)
      else if goStr str = ['f', 'a', 'l', 's', 'e'] then .ok (.bool false, rs.map ch)
      else if goStr str = ['n', 'u', 'l', 'l'] then .ok (.null, rs.map ch) else .error eInvalidBooleanNull) := by
  unfold gWord
  rw [show "true".toList = ['t', 'r', 'u', 'e'] from rfl, show "false".toList = ['f', 'a', 'l', 's', 'e'] from rfl,
    show "null".toList = ['n', 'u', 'l', 'l'] from rfl]
  by_cases c : goStr str = ['t', 'r', 'u', 'e']
  · rw [if_pos c, if_pos c]; exact ref_ok (f := id) h
  rw [if_neg c, if_neg c]
  by_cases c : goStr str = ['f', 'a', 'l', 's', 'e']
  · rw [if_pos c, if_pos c]; exact ref_ok (f := id) h
  rw [if_neg c, if_neg c]
  by_cases c : goStr str = ['n', 'u', 'l', 'l']
  · rw [if_pos c, if_pos c]; exact ref_ok (f := id) h
  rw [if_neg c, if_neg c]; exact ref_err

theorem takeWhile_all {p : Char → Bool} {s : List Char} (h : ∀ c ∈ s, p c = true) : s.takeWhile p = s := by
  have := List.takeWhile_append_of_pos (l₂ := []) h
  simpa using this

theorem dropWhile_all {p : Char → Bool} {s : List Char} (h : ∀ c ∈ s, p c = true) : s.dropWhile p = [] := by
  have := List.dropWhile_append_of_pos (l₂ := []) h
  simpa using this

theorem gLexBooleanNull_ref (H : RunesOf nx un kn fin R) (rs : List Nat) : ∀ (str : List Nat) (i : ι), R i rs →
    (∀ c ∈ goStr str, isLower c = true) → Ref kn fin R id (gLexBooleanNull nx un str i) (lexBooleanNull fin (goStr str ++ rs.map ch)) := by
  induction rs with
  | nil =>
    intro str i h hl
    have e1 : (goStr str ++ List.map ch []).takeWhile isLower = goStr str := by
      rw [List.map_nil, List.append_nil]; exact takeWhile_all hl
    have e2 : (goStr str ++ List.map ch []).dropWhile isLower = [] := by
      rw [List.map_nil, List.append_nil]; exact dropWhile_all hl
    simp only [lexBooleanNull, e1, e2, true_and]
    by_cases c : fin = .eoi
    · obtain ⟨i', h1, h2⟩ := H.nil (Classical.byContradiction fun hn => H.ne hn c) i h
      rw [if_neg (not_not.mpr c), gLexBooleanNull, h1]
      simp only []
      rw [if_pos c]; exact gWord_ref str i' [] h2
    · rw [if_pos c]
      exact ref_end H h (fun _ => rfl) fun i' h1 => ⟨i', by rw [gLexBooleanNull, h1]; simp only []; rw [if_neg c]⟩
  | cons r rs ih =>
    intro str i h hl
    obtain ⟨i', h1, h2⟩ := H.cons i r rs h
    rw [gLexBooleanNull, h1]
    simp only []
    by_cases c : 0x61 ≤ r ∧ r ≤ 0x7A
    · rw [if_pos c]
      have := ih (str ++ [r]) i' h2 (by
        intro x hx
        rw [goStr_snoc, List.mem_append, List.mem_singleton] at hx
        rcases hx with hx | rfl
        · exact hl x hx
        · exact (ch_lower r).mpr c)
      rwa [goStr_snoc, List.append_assoc] at this
    · rw [if_neg c]
      have hf : isLower (ch r) = false := by rw [Bool.eq_false_iff, ne_eq, ch_lower]; exact c
      have e1 : (goStr str ++ List.map ch (r :: rs)).takeWhile isLower = goStr str := by
        rw [List.takeWhile_append_of_pos hl]; simp [hf]
      have e2 : (goStr str ++ List.map ch (r :: rs)).dropWhile isLower = List.map ch (r :: rs) := by
        rw [List.dropWhile_append_of_pos hl]; simp [hf]
      simp only [lexBooleanNull, e1, e2]
      rw [if_neg (by simp)]
      exact gWord_ref str _ (r :: rs) (H.un _ _ _ h2)

theorem gSkip_ref (H : RunesOf nx un kn fin R) (rs : List Nat) : ∀ (i : ι), R i rs → Ref kn fin R id (gSkip nx un i) (lex fin (rs.map ch)) := by
  induction rs with
  | nil =>
    intro i h
    exact ref_end H h (fun _ => rfl) fun i' h1 => ⟨i', by rw [gSkip, h1]⟩
  | cons r rs ih =>
    intro i h
    obtain ⟨i', h1, h2⟩ := H.cons i r rs h
    rw [gSkip, h1]
    simp only []
    by_cases c : r = 0x20 ∨ r = 0x0A ∨ r = 0x0D ∨ r = 0x09
    · rw [if_pos c]
      have : lex fin ((r :: rs).map ch) = lex fin (rs.map ch) := by
        unfold lex
        rw [List.map_cons, List.dropWhile_cons_of_pos ((ch_ws r).mpr c)]
      rw [this]; exact ih i' h2
    · rw [if_neg c]
      have hf : ¬ isWs (ch r) = true := mt (ch_ws r).mp c
      unfold gLexAt lex
      rw [List.map_cons, List.dropWhile_cons_of_neg hf]
      simp only [ch_eq r '[' (by decide), ch_eq r ']' (by decide), ch_eq r '{' (by decide), ch_eq r '}' (by decide), ch_eq r ',' (by decide),
        ch_eq r ':' (by decide), ch_eq r '"' (by decide), ch_eq r '-' (by decide), ch_eq r 't' (by decide), ch_eq r 'f' (by decide),
        ch_eq r 'n' (by decide), ch_digit, show '['.toNat = 0x5B from rfl, show ']'.toNat = 0x5D from rfl, show '{'.toNat = 0x7B from rfl,
        show '}'.toNat = 0x7D from rfl, show ','.toNat = 0x2C from rfl, show ':'.toNat = 0x3A from rfl, show '"'.toNat = 0x22 from rfl,
        show '-'.toNat = 0x2D from rfl, show 't'.toNat = 0x74 from rfl, show 'f'.toNat = 0x66 from rfl, show 'n'.toNat = 0x6E from rfl]
      by_cases c1 : r = 0x5B
      · rw [if_pos c1, if_pos c1]; exact ref_ok (f := id) h2
      rw [if_neg c1, if_neg c1]
      by_cases c2 : r = 0x5D
      · rw [if_pos c2, if_pos c2]; exact ref_ok (f := id) h2
      rw [if_neg c2, if_neg c2]
      by_cases c3 : r = 0x7B
      · rw [if_pos c3, if_pos c3]; exact ref_ok (f := id) h2
      rw [if_neg c3, if_neg c3]
      by_cases c4 : r = 0x7D
      · rw [if_pos c4, if_pos c4]; exact ref_ok (f := id) h2
      rw [if_neg c4, if_neg c4]
      by_cases c5 : r = 0x2C
      · rw [if_pos c5, if_pos c5]; exact ref_ok (f := id) h2
      rw [if_neg c5, if_neg c5]
      by_cases c6 : r = 0x3A
      · rw [if_pos c6, if_pos c6]; exact ref_ok (f := id) h2
      rw [if_neg c6, if_neg c6]
      have hu := H.un i' r rs h2
      by_cases c7 : r = 0x22
      · rw [if_pos c7, if_pos c7]
        obtain ⟨j, h3, h4⟩ := H.cons _ _ _ hu
        have h5 := gStrLoop_ref H _ [] j rs (Nat.le_refl _) h4
        unfold gLexString lexString
        rw [h3]
        simp only []
        exact h5
      rw [if_neg c7, if_neg c7]
      by_cases c8 : r = 0x2D ∨ 0x30 ≤ r ∧ r ≤ 0x39
      · rw [if_pos c8, if_pos c8]; exact gLexNumber_ref H r rs _ hu
      rw [if_neg c8, if_neg c8]
      by_cases c9 : r = 0x74 ∨ r = 0x66 ∨ r = 0x6E
      · rw [if_pos c9, if_pos c9]
        exact gLexBooleanNull_ref H (r :: rs) [] _ hu (by simp [goStr])
      rw [if_neg c9, if_neg c9]; exact ref_err

/-- The lexer on an iterator of runes returns what the lexer on the text returns. -/
theorem gLex_ref (H : RunesOf nx un kn fin R) (rs : List Nat) (i : ι) (h : R i rs) : Ref kn fin R id (gLex nx un i) (lex fin (rs.map ch)) := by
  unfold gLex
  cases rs with
  | nil =>
    exact ref_end H h (fun _ => rfl) fun i' h1 => ⟨i', by simp only [h1]⟩
  | cons r rs =>
    obtain ⟨i', h1, h2⟩ := H.cons i r rs h
    simp only [h1]
    exact gSkip_ref H (r :: rs) _ (H.un _ _ _ h2)

end
end Micro.Json
