import Verif.Funcs.Props
import Mathlib.Tactic.Tauto
set_option linter.unusedSimpArgs false
/-
C50: names that do not survive the conversions.
-/
namespace Micro.Funcs
open Micro

/-! ### Specification -/

/-- The UTF-8 encoding of one character (Unicode standard, table 3-7). -/
def IsChar : List Nat → Prop
  | [a] => a < 0x80
  | [a, b] => 0xC2 ≤ a ∧ a ≤ 0xDF ∧ 0x80 ≤ b ∧ b ≤ 0xBF
  | [a, b, c] => 0xE0 ≤ a ∧ a ≤ 0xEF ∧ (if a = 0xE0 then 0xA0 else 0x80) ≤ b ∧ b ≤ (if a = 0xED then 0x9F else 0xBF) ∧ 0x80 ≤ c ∧ c ≤ 0xBF
  | [a, b, c, d] => 0xF0 ≤ a ∧ a ≤ 0xF4 ∧ (if a = 0xF0 then 0x90 else 0x80) ≤ b ∧ b ≤ (if a = 0xF4 then 0x8F else 0xBF) ∧ 0x80 ≤ c ∧ c ≤ 0xBF ∧ 0x80 ≤ d ∧ d ≤ 0xBF
  | _ => False

/-- Well formed UTF-8. -/
def Utf8 (s : List Nat) : Prop := ∃ cs : List (List Nat), (∀ c ∈ cs, IsChar c) ∧ s = cs.flatten

/-! ### Lemmas -/

/-- The length of a character by its first byte. -/
def leadLen (a : Nat) : Nat := if a < 0x80 then 1 else if a ≤ 0xDF then 2 else if a ≤ 0xEF then 3 else 4

theorem isChar_len {c : List Nat} (h : IsChar c) : ∃ a t, c = a :: t ∧ t.length + 1 = leadLen a ∧ (a < 0x80 ∨ 0xC2 ≤ a) := by
  match c, h with
  | [a], h => exact ⟨a, [], rfl, by simp [IsChar] at h; simp [leadLen, h], Or.inl h⟩
  | [a, b], h =>
    obtain ⟨h1, h2, -⟩ := h
    refine ⟨a, [b], rfl, ?_, Or.inr h1⟩
    unfold leadLen; rw [if_neg (by omega), if_pos (by omega)]; rfl
  | [a, b, c], h =>
    obtain ⟨h1, h2, -⟩ := h
    refine ⟨a, [b, c], rfl, ?_, Or.inr (by omega)⟩
    unfold leadLen; rw [if_neg (by omega), if_neg (by omega), if_pos (by omega)]; rfl
  | [a, b, c, d], h =>
    obtain ⟨h1, h2, -⟩ := h
    refine ⟨a, [b, c, d], rfl, ?_, Or.inr (by omega)⟩
    unfold leadLen; rw [if_neg (by omega), if_neg (by omega), if_neg (by omega)]; rfl

theorem isChar_tail {c : List Nat} (h : IsChar c) : ∀ b ∈ c.tail, 0x80 ≤ b ∧ b ≤ 0xBF := by
  match c, h with
  | [a], _ => intro b hb; simp at hb
  | [a, b], h =>
    obtain ⟨-, -, h1, h2⟩ := h
    intro x hx; simp at hx; subst hx; exact ⟨h1, h2⟩
  | [a, b, c], h =>
    obtain ⟨-, -, h1, h2, h3, h4⟩ := h
    intro x hx; simp at hx
    rcases hx with rfl | rfl
    · exact ⟨by split at h1 <;> omega, by split at h2 <;> omega⟩
    · exact ⟨h3, h4⟩
  | [a, b, c, d], h =>
    obtain ⟨-, -, h1, h2, h3, h4, h5, h6⟩ := h
    intro x hx; simp at hx
    rcases hx with rfl | rfl | rfl
    · exact ⟨by split at h1 <;> omega, by split at h2 <;> omega⟩
    · exact ⟨h3, h4⟩
    · exact ⟨h5, h6⟩

theorem utf8_nil : Utf8 [] := ⟨[], by simp, rfl⟩

theorem utf8_char {c t : List Nat} (hc : IsChar c) : Utf8 (c ++ t) ↔ Utf8 t := by
  constructor
  · rintro ⟨cs, h1, h2⟩
    obtain ⟨a, u, rfl, hl, -⟩ := isChar_len hc
    cases cs with
    | nil => simp at h2
    | cons d cs =>
      have hd := h1 d (by simp)
      obtain ⟨a', u', rfl, hl', -⟩ := isChar_len hd
      rw [List.flatten_cons, List.cons_append, List.cons_append] at h2
      injection h2 with h3 h4
      subst h3
      have hlen : u.length = u'.length := by omega
      obtain ⟨-, h6⟩ := List.append_inj h4 hlen
      exact ⟨cs, fun x hx => h1 x (by simp [hx]), h6⟩
  · rintro ⟨cs, h1, rfl⟩
    exact ⟨c :: cs, by simpa using ⟨hc, h1⟩, by simp⟩

theorem utf8_append {a b : List Nat} (ha : Utf8 a) : Utf8 (a ++ b) ↔ Utf8 b := by
  obtain ⟨cs, h1, rfl⟩ := ha
  induction cs with
  | nil => simp
  | cons c cs ih =>
    rw [List.flatten_cons, List.append_assoc, utf8_char (h1 c (by simp)), ih fun x hx => h1 x (by simp [hx])]

theorem utf8_cont {c : Nat} {t : List Nat} (h1 : 0x80 ≤ c) (h2 : c < 0xC2) : ¬ Utf8 (c :: t) := by
  rintro ⟨cs, h3, h4⟩
  cases cs with
  | nil => simp at h4
  | cons d cs =>
    obtain ⟨a, u, rfl, -, h5⟩ := isChar_len (h3 d (by simp))
    rw [List.flatten_cons, List.cons_append] at h4
    injection h4 with h6 h7
    omega

/-- An ASCII byte is a character of its own. -/
theorem utf8_split {a b : List Nat} {x : Nat} (hx : x < 0x80) (h : Utf8 (a ++ x :: b)) : Utf8 a ∧ Utf8 b := by
  obtain ⟨cs, h1, h2⟩ := h
  induction cs generalizing a with
  | nil => simp at h2
  | cons c cs ih =>
    have hc := h1 c (by simp)
    rw [List.flatten_cons] at h2
    have hcs : ∀ y ∈ cs, IsChar y := fun y hy => h1 y (by simp [hy])
    rcases List.append_eq_append_iff.1 h2 with ⟨as, e1, e2⟩ | ⟨bs, e1, e2⟩
    · -- c = a ++ as
      cases as with
      | nil =>
        have e3 : x :: b = [] ++ cs.flatten → Utf8 b := fun h =>
          (utf8_char (c := [x]) (t := b) hx).1 ⟨cs, hcs, h⟩
        simp only [List.append_nil] at e1
        rw [← e1]
        exact ⟨⟨[c], by simpa using hc, by simp⟩, e3 (by simpa using e2)⟩
      | cons y as =>
        rw [List.cons_append] at e2
        injection e2 with e3 e4
        subst e3
        cases a with
        | nil =>
          obtain ⟨p, u, hp, hl, -⟩ := isChar_len hc
          rw [List.nil_append] at e1
          rw [e1] at hp
          injection hp with hp1 hp2
          subst hp1 hp2
          have : as.length = 0 := by simp [leadLen, hx] at hl; rw [hl]; rfl
          have : as = [] := List.length_eq_zero_iff.1 this
          subst this
          exact ⟨utf8_nil, ⟨cs, hcs, by simpa using e4⟩⟩
        | cons z a =>
          have := isChar_tail hc x (by rw [e1]; simp)
          omega
    · -- a = c ++ bs
      obtain ⟨g1, g2⟩ := ih hcs e2.symm
      exact ⟨by rw [e1, utf8_char hc]; exact g1, g2⟩

theorem upperByte_ascii {b : Nat} (h : b < 0x80) : IsChar (upperByte b) := by
  unfold upperByte enc2
  by_cases h1 : 97 ≤ b ∧ b ≤ 122
  · rw [if_pos h1]; show b - 32 < 0x80; omega
  · rw [if_neg h1, if_neg (by omega), if_neg (by omega), if_neg (by omega), if_pos h]; exact h

theorem upperByte_other {b : Nat} (h : 0x80 ≤ b) (h2 : b ≤ 0xFF) : IsChar (upperByte b) := by
  have enc : ∀ c, 0x80 ≤ c → c < 0x800 → IsChar (enc2 c) := by
    intro c h1 h2
    unfold enc2
    rw [if_neg (by omega)]
    show _ ∧ _ ∧ _ ∧ _
    omega
  unfold upperByte
  rw [if_neg (by omega)]
  split
  · exact enc _ (by omega) (by omega)
  · split
    · exact enc _ (by omega) (by omega)
    · split
      · exact enc _ (by omega) (by omega)
      · exact enc _ (by omega) (by omega)

theorem snakeLoop_acc (ws : List (List Nat)) : ∀ sb, snakeLoop sb ws = (snakeLoop [] ws).map (sb ++ ·) := by
  induction ws with
  | nil => intro sb; simp [snakeLoop]
  | cons w ws ih =>
    intro sb
    cases w with
    | nil => simp [snakeLoop]
    | cons b w =>
      simp only [snakeLoop]
      rw [ih, ih ([] ++ upperByte b ++ w)]
      cases snakeLoop [] ws <;> simp

theorem snakeLoop_utf8 (ws : List (List Nat)) : ∀ r, snakeLoop [] ws = some r → (∀ w ∈ ws, Utf8 w) →
    (Utf8 r ↔ ∀ w ∈ ws, ∀ b t, w = b :: t → b < 0x80) := by
  induction ws with
  | nil => intro r h _; simp [snakeLoop] at h; subst h; simp [utf8_nil]
  | cons w ws ih =>
    intro r h hw
    cases w with
    | nil => simp [snakeLoop] at h
    | cons b w =>
      simp only [snakeLoop, List.nil_append] at h
      rw [snakeLoop_acc] at h
      cases hs : snakeLoop [] ws with
      | none => rw [hs] at h; cases h
      | some r' =>
        rw [hs] at h
        simp only [Option.map_some, Option.some.injEq] at h
        subst h
        have ih' := ih r' hs (fun x hx => hw x (by simp [hx]))
        have hu := hw (b :: w) (by simp)
        rw [List.append_assoc]
        by_cases hb : b < 0x80
        · have hw' : Utf8 w := (utf8_char (c := [b]) (t := w) hb).1 hu
          rw [utf8_char (upperByte_ascii hb), utf8_append hw', ih']
          constructor
          · intro h x hx
            rcases List.mem_cons.1 hx with rfl | hx
            · intro b' t h; cases h; exact hb
            · exact h x hx
          · intro h x hx
            exact h x (by simp [hx])
        · -- the second byte of the character is left alone
          obtain ⟨cs, h1, h2⟩ := hu
          cases cs with
          | nil => simp at h2
          | cons c cs =>
            have hc := h1 c (by simp)
            obtain ⟨a, u, rfl, hl, ha⟩ := isChar_len hc
            rw [List.flatten_cons, List.cons_append] at h2
            injection h2 with e1 e2
            subst e1
            have hbyte : b ≤ 0xFF := by
              match u, hc with
              | [], hc => exact absurd hc hb
              | [_], hc => have := hc.2.1; omega
              | [_, _], hc => have := hc.2.1; omega
              | [_, _, _], hc => have := hc.2.1; omega
            rw [utf8_char (upperByte_other (by omega) hbyte)]
            cases u with
            | nil => exact absurd hc hb
            | cons y u =>
              have hy := isChar_tail hc y (by simp)
              constructor
              · intro h
                rw [e2, List.cons_append, List.cons_append] at h
                exact absurd h (utf8_cont hy.1 (by omega))
              · intro h
                exact absurd (h (b :: w) (by simp) b w rfl) hb

theorem joinWords_utf8 (ws : List (List Nat)) (h : Utf8 (joinWords ws)) : ∀ w ∈ ws, Utf8 w := by
  induction ws with
  | nil => simp
  | cons w ws ih =>
    cases ws with
    | nil => intro x hx; simp at hx; subst hx; exact h
    | cons w2 ws =>
      have := utf8_split (x := 95) (by omega) (show Utf8 (w ++ 95 :: joinWords (w2 :: ws)) from h)
      intro x hx
      rcases List.mem_cons.1 hx with rfl | hx
      · exact this.1
      · exact ih this.2 x hx

theorem joinWords_first (ws : List (List Nat)) (hne : ws ≠ []) (h : ∀ w ∈ ws, 95 ∉ w ∧ w ≠ []) :
    (∀ w ∈ ws, ∀ b t, w = b :: t → b < 0x80) ↔
      ((∀ b t, joinWords ws = b :: t → b < 0x80) ∧ ∀ t b u, joinWords ws = t ++ 95 :: b :: u → b < 0x80) := by
  induction ws with
  | nil => exact absurd rfl hne
  | cons w ws ih =>
    obtain ⟨hw, hwne⟩ := h w (by simp)
    cases w with
    | nil => exact absurd rfl hwne
    | cons c w =>
      cases ws with
      | nil =>
        constructor
        · intro hall
          refine ⟨fun b t h => ?_, fun t b u h => ?_⟩
          · exact hall (c :: w) (by simp) b t h
          · exfalso; apply hw
            rw [show c :: w = t ++ 95 :: b :: u from h]; simp
        · rintro ⟨h1, -⟩ x hx b t rfl
          simp at hx
          exact h1 b t (by rw [hx.1, hx.2]; rfl)
      | cons w2 ws =>
        have hrest : ∀ x ∈ w2 :: ws, 95 ∉ x ∧ x ≠ [] := fun x hx => h x (by simp [hx])
        have ih' := ih (by simp) hrest
        have hj : joinWords ((c :: w) :: w2 :: ws) = (c :: w) ++ 95 :: joinWords (w2 :: ws) := rfl
        obtain ⟨d, v, hd⟩ : ∃ d v, joinWords (w2 :: ws) = d :: v := by
          have := (hrest w2 (by simp)).2
          cases w2 with
          | nil => exact absurd rfl this
          | cons d v =>
            cases ws with
            | nil => exact ⟨d, v, rfl⟩
            | cons w3 ws => exact ⟨d, _, rfl⟩
        constructor
        · intro hall
          obtain ⟨g1, g2⟩ := ih'.1 (fun x hx => hall x (by simp [hx]))
          refine ⟨fun b t e => ?_, fun t b u e => ?_⟩
          · rw [hj, List.cons_append] at e
            injection e with e1 _
            subst e1
            exact hall (c :: w) (by simp) c w rfl
          · rw [hj] at e
            rcases List.append_eq_append_iff.1 e with ⟨as, e1, e2⟩ | ⟨bs, e1, e2⟩
            · -- t = (c :: w) ++ as
              cases as with
              | nil =>
                rw [List.nil_append] at e2
                injection e2 with _ e3
                exact g1 b u e3
              | cons x as =>
                rw [List.cons_append] at e2
                injection e2 with _ e3
                exact g2 as b u e3
            · cases bs with
              | nil =>
                rw [List.nil_append] at e2
                injection e2 with _ e3
                exact g1 b u e3.symm
              | cons x bs =>
                rw [List.cons_append] at e2
                injection e2 with e3 _
                exfalso; apply hw
                rw [e1, ← e3]; simp
        · rintro ⟨g1, g2⟩
          have hall := ih'.2 ⟨fun b t e => g2 (c :: w) b t (by rw [hj, e]), fun t b u e =>
            g2 ((c :: w) ++ 95 :: t) b u (by rw [hj, e]; simp)⟩
          intro x hx b t e
          rcases List.mem_cons.1 hx with rfl | hx
          · cases e
            exact g1 c (w ++ 95 :: joinWords (w2 :: ws)) (by rw [hj]; rfl)
          · exact hall x hx b t e

/-- C50. SnakeToCamelCase takes the first byte of every word for a character. Its result for well formed UTF-8 is well formed exactly if the first character of every
word is ASCII: "été" or "a_é" give garbage. -/
theorem c50_utf8_iff (s r : List Nat) (hs : Utf8 s) (h : snakeToCamel s = some r) :
    Utf8 r ↔ (∀ b t, s = b :: t → b < 0x80) ∧ ∀ t b u, s = t ++ 95 :: b :: u → b < 0x80 := by
  obtain ⟨hj, hne, hw⟩ := split_eq [] s (by simp)
  rw [List.nil_append] at hj
  unfold snakeToCamel at h
  have hno : ∀ w ∈ splitUnderscore [] s, 95 ∉ w ∧ w ≠ [] := by
    intro w hw'
    refine ⟨hw w hw', ?_⟩
    rintro rfl
    rw [(snakeLoop_none [] _).2 hw'] at h; cases h
  have hu : ∀ w ∈ splitUnderscore [] s, Utf8 w := joinWords_utf8 _ (by rw [hj]; exact hs)
  rw [snakeLoop_utf8 _ r h hu, joinWords_first _ hne hno, hj]

/-- "été" is well formed; the result begins with "Ã", followed by the second byte of the "é". -/
example : Utf8 [0xC3, 0xA9, 116, 0xC3, 0xA9] ∧ snakeToCamel [0xC3, 0xA9, 116, 0xC3, 0xA9] = some [0xC3, 0x83, 0xA9, 116, 0xC3, 0xA9] :=
  ⟨⟨[[0xC3, 0xA9], [116], [0xC3, 0xA9]], by simp [IsChar], rfl⟩, by decide⟩

/-- C50 fails for such names: the result is not even text. -/
theorem c50_utf8_refuted : ∃ s r, Utf8 s ∧ snakeToCamel s = some r ∧ ¬ Utf8 r :=
  ⟨[0xC3, 0xA9], [0xC3, 0x83, 0xA9], ⟨[[0xC3, 0xA9]], by simp [IsChar], rfl⟩, by decide, fun h => by
    have := (c50_utf8_iff [0xC3, 0xA9] _ ⟨[[0xC3, 0xA9]], by simp [IsChar], rfl⟩ (by decide)).1 h
    have := this.1 0xC3 [0xA9] rfl
    omega⟩

/-! ### Which names come back -/

theorem takeWhile_all (p : Nat → Bool) (l : List Nat) : ∀ x ∈ l.takeWhile p, p x = true := by
  induction l with
  | nil => simp
  | cons a l ih =>
    intro x hx
    rw [List.takeWhile_cons] at hx
    split at hx
    · rename_i ha
      rcases List.mem_cons.1 hx with rfl | hx
      · exact ha
      · exact ih x hx
    · simp at hx

theorem camelWords_shape (s : List Nat) : ∀ w ∈ camelWords s, ∃ b t, w = b :: t ∧ isUpper b = true ∧ ∀ x ∈ t, isLower x = true := by
  induction hn : s.length using Nat.strongRecOn generalizing s with
  | _ n ih =>
    cases s with
    | nil => simp [camelWords]
    | cons b bs =>
      rw [camelWords]
      split
      · rename_i hb
        intro w hw
        rcases List.mem_cons.1 hw with rfl | hw
        · refine ⟨b, _, rfl, hb, fun x hx => ?_⟩
          exact takeWhile_all isLower bs x hx
        · refine ih (bs.dropWhile isLower).length ?_ _ rfl w hw
          have := (List.dropWhile_suffix isLower (l := bs)).length_le
          simp at hn; omega
      · exact ih bs.length (by simp at hn; omega) bs rfl

theorem camelJoin_shape (ws : List (List Nat)) (h : ∀ w ∈ ws, ∃ b t, w = b :: t ∧ isUpper b = true ∧ ∀ x ∈ t, isLower x = true) :
    ∃ vs, (∀ v ∈ vs, LowerWord v) ∧ camelJoin ws = joinWords vs ∧ (vs = [] ↔ ws = []) := by
  induction ws with
  | nil => exact ⟨[], by simp, rfl, by simp⟩
  | cons w ws ih =>
    obtain ⟨vs, h1, h2, h3⟩ := ih (fun x hx => h x (by simp [hx]))
    obtain ⟨b, t, rfl, hb, ht⟩ := h w (by simp)
    have hlow : LowerWord (lowerByte b :: t) := by
      refine ⟨by simp, fun x hx => ?_⟩
      rcases List.mem_cons.1 hx with rfl | hx
      · simp only [isUpper, Bool.and_eq_true, decide_eq_true_eq] at hb
        simp only [lowerByte, hb, and_self, if_true, isLower, Bool.and_eq_true, decide_eq_true_eq]
        omega
      · exact ht x hx
    refine ⟨(lowerByte b :: t) :: vs, ?_, ?_, by simp⟩
    · intro v hv
      rcases List.mem_cons.1 hv with rfl | hv
      · exact hlow
      · exact h1 v hv
    · cases ws with
      | nil =>
        have : vs = [] := h3.2 rfl
        subst this
        rfl
      | cons w2 ws =>
        cases vs with
        | nil => exact absurd (h3.1 rfl) (by simp)
        | cons v vs =>
          show (lowerByte b :: t) ++ 95 :: camelJoin (w2 :: ws) = _
          rw [h2]; rfl

/-- C50. A name comes back from CamelCase exactly if it is made of lower case (ASCII) words joined by single underscores. -/
theorem c50_roundtrip_iff (s : List Nat) : (∃ c, snakeToCamel s = some c ∧ camelToSnake c = some s) ↔
    ∃ ws, ws ≠ [] ∧ (∀ w ∈ ws, LowerWord w) ∧ s = joinWords ws := by
  constructor
  · rintro ⟨c, h1, h2⟩
    cases c with
    | nil => cases h2
    | cons c0 cs =>
      simp only [camelToSnake, Option.some.injEq] at h2
      obtain ⟨vs, g1, g2, -⟩ := camelJoin_shape _ (camelWords_shape (upperByte c0 ++ cs))
      refine ⟨vs, ?_, g1, by rw [← h2, g2]⟩
      rintro rfl
      rw [g2] at h2
      rw [← h2] at h1
      cases h1
  · rintro ⟨ws, h1, h2, rfl⟩
    exact ⟨_, (c50_roundtrip_partial ws h1 h2).1, (c50_roundtrip_partial ws h1 h2).2⟩

/-- "foo_bar" comes back, "foo1" and "fooBar" do not. -/
example : (∃ c, snakeToCamel [102, 111, 111, 95, 98, 97, 114] = some c ∧ camelToSnake c = some [102, 111, 111, 95, 98, 97, 114]) :=
  (c50_roundtrip_iff _).2 ⟨[[102, 111, 111], [98, 97, 114]], by simp, by simp [LowerWord, isLower], rfl⟩

/-- C50. Whatever the camel case text, the snake case name is made of lower case words joined by single underscores, or empty. -/
theorem c50_snake_shape (c s : List Nat) (h : camelToSnake c = some s) : ∃ ws, (∀ w ∈ ws, LowerWord w) ∧ s = joinWords ws := by
  cases c with
  | nil => cases h
  | cons c0 cs =>
    simp only [camelToSnake, Option.some.injEq] at h
    obtain ⟨vs, g1, g2, -⟩ := camelJoin_shape _ (camelWords_shape (upperByte c0 ++ cs))
    exact ⟨vs, g1, by rw [← h, g2]⟩

/-- "Foo1Bar" becomes "foo_bar". -/
example := c50_snake_shape [70, 111, 111, 49, 66, 97, 114] [102, 111, 111, 95, 98, 97, 114]
  (by simp [camelToSnake, upperByte, enc2, camelWords, isUpper, isLower, List.takeWhile, List.dropWhile, camelJoin, lowerByte])

end Micro.Funcs
