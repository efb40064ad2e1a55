import Verif.Regex.Lemmas
import Verif.Json.ValueLemmas
import Verif.Decimal.Model
import Verif.Funcs.Model
/-
The regular expressions of the repository, and the scanners that the models use for them.
-/
namespace Micro.Regex
open Micro
set_option linter.unusedSimpArgs false
set_option linter.unusedSectionVars false
variable {α : Type} [Sym α]

/-! ### All matches -/

/-- The matches from left to right, with the text outside of them. -/
inductive Scan (step : List α → Option (Hit α)) : List α → List (Hit α) → List α → Prop
  | nil : Scan step [] [] []
  | hit (s r hs o) : step s = some r → Scan step r.rest hs o → Scan step s (r :: hs) o
  | miss (c u hs o) : step (c :: u) = none → Scan step u hs o → Scan step (c :: u) hs (c :: o)

section
variable {re : Re} {step : List α → Option (Hit α)}

theorem allLoop_miss (hne : ∀ (w : List α) p r, execAt re w p = some r → r.txt ≠ []) (w : List α) (p n : Nat) (prev : Option Nat) (hp : p < w.length)
    (h : execAt re w p = none) : allLoop re w (n + 1) p prev = allLoop re w (n + 1) (p + 1) prev := by
  unfold allLoop
  rw [if_neg (by omega), if_neg (by omega), search_later (by omega) h]
  cases hs : search re w (p + 1) with
  | none => rfl
  | some x =>
    obtain ⟨b, r⟩ := x
    obtain ⟨h1, -, h3, -⟩ := searchLoop_some _ _ _ _ hs
    have hl : 0 < r.txt.length := List.length_pos_iff.2 (hne _ _ _ h3)
    simp only []
    rw [if_neg (by omega), if_neg (by omega)]

theorem allLoop_scan (hst : ∀ (w : List α) p, execAt re w p = step (w.drop p)) (hne : ∀ (w : List α) p r, execAt re w p = some r → r.txt ≠ []) {u : List α} {hs : List (Hit α)}
    {o : List α} (h : Scan step u hs o) : ∀ (w : List α) (p n : Nat) prev, p ≤ w.length → u = w.drop p → w.length + 1 - p ≤ n →
    allLoop re w n p prev = hs := by
  induction h with
  | nil =>
    intro w p n prev hp hu hn
    have hpl : p = w.length := by
      have := congrArg List.length hu; simp at this; omega
    obtain ⟨m, rfl⟩ : ∃ m, n = m + 1 := ⟨n - 1, by omega⟩
    unfold allLoop
    rw [if_neg (by omega)]
    have : execAt re w p = none := by
      cases he : execAt re w p with
      | none => rfl
      | some r =>
        have h1 := execAt_some he
        rw [← hu] at h1
        have h2 := hne _ _ _ he
        simp at h1; exact absurd h1.1 h2
    rw [search_later hp this, search_beyond (by omega)]
  | hit s r hs o hsr _ ih =>
    intro w p n prev hp hu hn
    obtain ⟨m, rfl⟩ : ∃ m, n = m + 1 := ⟨n - 1, by omega⟩
    have he : execAt re w p = some r := by rw [hst, ← hu]; exact hsr
    have hsp := execAt_some he
    have hl : 0 < r.txt.length := List.length_pos_iff.2 (hne _ _ _ he)
    have hlen := congrArg List.length hsp
    simp at hlen
    unfold allLoop
    rw [if_neg (by omega), search_here hp he]
    simp only []
    rw [if_neg (by omega)]
    rw [ih w (p + r.txt.length) m _ (by omega) _ (by omega)]
    rw [← List.drop_drop, hsp, List.drop_left]
  | miss c u hs o hsn _ ih =>
    intro w p n prev hp hu hn
    have hlen := congrArg List.length hu
    simp at hlen
    obtain ⟨m, rfl⟩ : ∃ m, n = m + 1 := ⟨n - 1, by omega⟩
    rw [allLoop_miss hne w p m prev (by omega) (by rw [hst, ← hu]; exact hsn)]
    refine ih w (p + 1) (m + 1) prev (by omega) ?_ (by omega)
    rw [← List.drop_drop, ← hu]; rfl

theorem replLoop_miss (hne : ∀ (w : List α) p r, execAt re w p = some r → r.txt ≠ []) (w : List α) (p n last : Nat) (hp : p < w.length)
    (h : execAt re w p = none) : replLoop re [] w (n + 1) p last = replLoop re [] w (n + 1) (p + 1) last := by
  unfold replLoop
  rw [if_neg (by omega), if_neg (by omega), search_later (by omega) h]
  cases hs : search re w (p + 1) with
  | none => rfl
  | some x =>
    obtain ⟨b, r⟩ := x
    obtain ⟨h1, -, h3, -⟩ := searchLoop_some _ _ _ _ hs
    have hl : 0 < r.txt.length := List.length_pos_iff.2 (hne _ _ _ h3)
    simp only []
    rw [show max (p + 1) (b + r.txt.length) = max (p + 1 + 1) (b + r.txt.length) by omega]

theorem replLoop_scan (hst : ∀ (w : List α) p, execAt re w p = step (w.drop p)) (hne : ∀ (w : List α) p r, execAt re w p = some r → r.txt ≠ []) {u : List α} {hs : List (Hit α)}
    {o : List α} (h : Scan step u hs o) : ∀ (w : List α) (p n last : Nat), p ≤ w.length → u = w.drop p → w.length + 1 - p ≤ n → last ≤ p →
    replLoop re [] w n p last = (w.drop last).take (p - last) ++ o := by
  induction h with
  | nil =>
    intro w p n last hp hu hn hlp
    have hpl : p = w.length := by
      have := congrArg List.length hu; simp at this; omega
    obtain ⟨m, rfl⟩ : ∃ m, n = m + 1 := ⟨n - 1, by omega⟩
    unfold replLoop
    rw [if_neg (by omega)]
    have : execAt re w p = none := by
      cases he : execAt re w p with
      | none => rfl
      | some r =>
        have h1 := execAt_some he
        rw [← hu] at h1
        have h2 := hne _ _ _ he
        simp at h1; exact absurd h1.1 h2
    rw [search_later hp this, search_beyond (by omega)]
    simp only [List.append_nil]
    rw [List.take_of_length_le (by simp; omega)]
  | hit s r hs o hsr _ ih =>
    intro w p n last hp hu hn hlp
    obtain ⟨m, rfl⟩ : ∃ m, n = m + 1 := ⟨n - 1, by omega⟩
    have he : execAt re w p = some r := by rw [hst, ← hu]; exact hsr
    have hsp := execAt_some he
    have hl : 0 < r.txt.length := List.length_pos_iff.2 (hne _ _ _ he)
    have hlen := congrArg List.length hsp
    simp at hlen
    unfold replLoop
    rw [if_neg (by omega), search_here hp he]
    simp only []
    rw [show max (p + 1) (p + r.txt.length) = p + r.txt.length by omega]
    rw [ih w (p + r.txt.length) m (p + r.txt.length) (by omega) _ (by omega) (by omega)]
    · simp
    · rw [← List.drop_drop, hsp, List.drop_left]
  | miss c u hs o hsn _ ih =>
    intro w p n last hp hu hn hlp
    have hlen := congrArg List.length hu
    simp at hlen
    obtain ⟨m, rfl⟩ : ∃ m, n = m + 1 := ⟨n - 1, by omega⟩
    rw [replLoop_miss hne w p m last (by omega) (by rw [hst, ← hu]; exact hsn)]
    rw [ih w (p + 1) (m + 1) last (by omega) _ (by omega) (by omega)]
    · have hd : w.drop last = (w.drop last).take (p - last) ++ c :: u := by
        have : (w.drop last).drop (p - last) = c :: u := by rw [List.drop_drop, show last + (p - last) = p by omega]; exact hu.symm
        rw [← this, List.take_append_drop]
      have h2 : (w.drop last).take (p + 1 - last) = (w.drop last).take (p - last) ++ [c] := by
        rw [show p + 1 - last = (p - last) + 1 by omega, List.take_add_one]
        congr 1
        rw [List.getElem?_drop, show last + (p - last) = p by omega]
        have : w[p]? = some c := by
          have : (w.drop p)[0]? = some c := by rw [← hu]; rfl
          simpa using this
        rw [this]; rfl
      rw [h2]; simp
    · rw [← List.drop_drop, ← hu]; rfl
end

/-! ### Classes -/

theorem oneOf_digit : oneOf isDigit digitRe := by
  intro bg s
  cases s with
  | nil => rfl
  | cons c s =>
    have : inClass (α := Char) false [('0', '9')] c = isDigit c := by simp [inClass, isDigit, Sym.code]
    simp only [digitRe, outs, one_cons, this]

theorem oneOf_lit (d : Char) : oneOf (fun c : Char => decide (c = d)) (.lit d) := by
  intro bg s
  cases s with
  | nil => rfl
  | cons c s =>
    have : (c.toNat == d.toNat) = decide (c = d) := by
      by_cases h : c = d
      · simp [h]
      · have h2 : ¬ c.toNat = d.toNat := fun e => h (Char.ext (UInt32.toNat_inj.mp e))
        simp [h, h2]
    simp only [outs, one_cons, Sym.code, this]

theorem toNat_eq {c d : Char} : c.toNat = d.toNat ↔ c = d :=
  ⟨fun e => Char.ext (UInt32.toNat_inj.mp e), fun e => by rw [e]⟩

theorem oneOf_dot : oneOf (fun c : Char => decide (c = '.')) (.cls false [('.', '.')]) := by
  intro bg s
  cases s with
  | nil => rfl
  | cons c s =>
    have : inClass (α := Char) false [('.', '.')] c = decide (c = '.') := by
      simp only [inClass, List.any_cons, List.any_nil, Bool.or_false, Sym.code, Bool.bne_false, ← toNat_eq]
      rw [Bool.eq_iff_iff]
      simp only [Bool.and_eq_true, decide_eq_true_eq]
      omega
    simp only [outs, one_cons, this]

theorem oneOf_key : oneOf Json.isKeyChar (.cls true [('.', '.'), ('[', '['), (']', ']')]) := by
  intro bg s
  cases s with
  | nil => rfl
  | cons c s =>
    have : inClass (α := Char) true [('.', '.'), ('[', '['), (']', ']')] c = Json.isKeyChar c := by
      have e : ∀ d : Char, (decide (d.toNat ≤ c.toNat) && decide (c.toNat ≤ d.toNat)) = decide (c = d) := by
        intro d
        rw [Bool.eq_iff_iff]
        simp only [Bool.and_eq_true, decide_eq_true_eq, ← toNat_eq]
        omega
      simp only [inClass, List.any_cons, List.any_nil, Bool.or_false, Sym.code, e, Json.isKeyChar]
      by_cases h1 : c = '.' <;> by_cases h2 : c = '[' <;> by_cases h3 : c = ']' <;> simp [h1, h2, h3]
    simp only [outs, one_cons, this]

theorem oneOf_upper : oneOf Funcs.isUpper (.cls false [('A', 'Z')]) := by
  intro bg s
  cases s with
  | nil => rfl
  | cons c s =>
    have : inClass (α := Nat) false [('A', 'Z')] c = Funcs.isUpper c := by simp [inClass, Funcs.isUpper, Sym.code]
    simp only [outs, one_cons, this]

theorem oneOf_lower : oneOf Funcs.isLower (.cls false [('a', 'z')]) := by
  intro bg s
  cases s with
  | nil => rfl
  | cons c s =>
    have : inClass (α := Nat) false [('a', 'z')] c = Funcs.isLower c := by simp [inClass, Funcs.isLower, Sym.code]
    simp only [outs, one_cons, this]

/-- `[0-9A-Fa-f]` as a test. -/
def isHex (c : Char) : Bool :=
  (decide ('0' ≤ c) && decide (c ≤ '9')) || (decide ('A' ≤ c) && decide (c ≤ 'F')) || (decide ('a' ≤ c) && decide (c ≤ 'f'))

theorem isHex_iff (c : Char) : isHex c = true ↔ HexDigit c := by
  simp [isHex, HexDigit, or_assoc]

theorem toNat_le {a b : Char} : a.toNat ≤ b.toNat ↔ a ≤ b := by
  rw [Char.le_def, UInt32.le_iff_toNat_le]; rfl

theorem oneOf_hex : oneOf isHex hexRe := by
  intro bg s
  cases s with
  | nil => rfl
  | cons c s =>
    have : inClass (α := Char) false [('0', '9'), ('A', 'F'), ('a', 'f')] c = isHex c := by
      simp only [inClass, List.any_cons, List.any_nil, Bool.or_false, Sym.code, Bool.bne_false, toNat_le, isHex, Bool.or_assoc]
    simp only [hexRe, outs, one_cons, this]

/-! ### math/decimal.go -/

theorem opt_head {p : α → Bool} {re : Re} (h : oneOf p re) (bg : Bool) (s : List α) :
    ∃ l, outs (.rep re 0 (some 1)) bg s = ⟨s.take (if (s.head?.any p) = true then 1 else 0), s.drop (if (s.head?.any p) = true then 1 else 0), []⟩ :: l := by
  rw [opt_outs h]
  cases s with
  | nil => exact ⟨[], rfl⟩
  | cons c t =>
    by_cases hp : p c = true
    · simp [one_cons, hp]
    · simp only [Bool.not_eq_true] at hp
      simp [one_cons, hp]

theorem star_head {p : α → Bool} {re : Re} (h : oneOf p re) (bg : Bool) (s : List α) :
    ∃ l, outs (.rep re 0 none) bg s = ⟨s.takeWhile p, s.dropWhile p, []⟩ :: l := by
  rw [star_outs h]
  obtain ⟨l, hl, -⟩ := prefixes_head p s
  exact ⟨l, hl⟩

theorem cap_head {re : Re} {i : Nat} {bg : Bool} {s : List α} {r : Hit α} {l : List (Hit α)} (h : outs re bg s = r :: l) :
    ∃ l', outs (.cap i re) bg s = ⟨r.txt, r.rest, (i, r.txt) :: r.caps⟩ :: l' := by
  simp [outs, h]

theorem decimal_find (s : List Char) : findSub decimalRe s =
    some [(Dec.matchDecimal s).whole, (Dec.matchDecimal s).minus, (Dec.matchDecimal s).int, (Dec.matchDecimal s).frac] := by
  have key : ∃ l, outs decimalRe true s = ⟨(Dec.matchDecimal s).whole,
      (let s1 := s.drop (Dec.matchDecimal s).minus.length
       let s2 := s1.dropWhile isDigit
       (s2.drop (if s2.head? = some '.' then 1 else 0)).dropWhile isDigit),
      [(3, (Dec.matchDecimal s).frac), (2, (Dec.matchDecimal s).int), (1, (Dec.matchDecimal s).minus)]⟩ :: l := by
    have hmin : ∀ (u : List Char) (d : Char), (u.head?.any fun c => decide (c = d)) = decide (u.head? = some d) := by
      intro u d; cases u <;> simp
    obtain ⟨l1, h1⟩ := opt_head (oneOf_lit '-') true s
    obtain ⟨l1', h1'⟩ := cap_head (i := 1) h1
    obtain ⟨bg1, hbg1⟩ : ∃ b, b = (true && (s.take (if (s.head?.any fun c => decide (c = '-')) = true then 1 else 0)).isEmpty) := ⟨_, rfl⟩
    obtain ⟨l2, h2⟩ := star_head oneOf_digit bg1 (s.drop (if (s.head?.any fun c => decide (c = '-')) = true then 1 else 0))
    obtain ⟨l2', h2'⟩ := cap_head (i := 2) h2
    generalize hs1 : s.drop (if (s.head?.any fun c => decide (c = '-')) = true then 1 else 0) = s1 at *
    obtain ⟨l3, h3⟩ := opt_head oneOf_dot (bg1 && (s1.takeWhile isDigit).isEmpty) (s1.dropWhile isDigit)
    generalize hs2 : s1.dropWhile isDigit = s2 at *
    obtain ⟨l4, h4⟩ := star_head oneOf_digit (bg1 && (s1.takeWhile isDigit).isEmpty && (s2.take (if (s2.head?.any fun c => decide (c = '.')) = true then 1 else 0)).isEmpty)
      (s2.drop (if (s2.head?.any fun c => decide (c = '.')) = true then 1 else 0))
    obtain ⟨l4', h4'⟩ := cap_head (i := 3) h4
    obtain ⟨k3, hk3⟩ := andThen_cons h3 h4'
    obtain ⟨k2, hk2⟩ := andThen_cons h2' hk3
    rw [hbg1] at hk2
    obtain ⟨k1, hk1⟩ := andThen_cons h1' hk2
    have e : outs decimalRe true s = andThen (outs (.cap 1 (.rep (.lit '-') 0 (some 1)))) (andThen (outs (.cap 2 (.rep digitRe 0 none)))
      (andThen (outs (.rep (.cls false [('.', '.')]) 0 (some 1))) (outs (.cap 3 (.rep digitRe 0 none))))) true s := rfl
    refine ⟨k1, ?_⟩
    rw [e, hk1]
    have hm : (if s.head? = some '-' then ['-'] else []) = s.take (if (s.head?.any fun c => decide (c = '-')) = true then 1 else 0) := by
      rw [hmin]; cases s with
      | nil => simp
      | cons c s => by_cases h : c = '-' <;> simp [h]
    have hml : s.drop (if s.head? = some '-' then ['-'] else []).length = s1 := by
      rw [← hs1, hmin]; congr 1
      by_cases h : s.head? = some '-' <;> simp [h]
    have hd : (if s2.head? = some '.' then ['.'] else []) = s2.take (if (s2.head?.any fun c => decide (c = '.')) = true then 1 else 0) := by
      rw [hmin]; cases s2 with
      | nil => simp
      | cons c s => by_cases h : c = '.' <;> simp [h]
    have hdl : s2.drop (if s2.head? = some '.' then ['.'] else []).length = s2.drop (if (s2.head?.any fun c => decide (c = '.')) = true then 1 else 0) := by
      rw [hmin]; congr 1
      by_cases h : s2.head? = some '.' <;> simp [h]
    have hdl2 : s2.drop (if s2.head? = some '.' then 1 else 0) = s2.drop (if (s2.head?.any fun c => decide (c = '.')) = true then 1 else 0) := by
      rw [hmin]; congr 1
      by_cases h : s2.head? = some '.' <;> simp [h]
    have hfrac : (Dec.matchDecimal s).frac = (s2.drop (if (s2.head?.any fun c => decide (c = '.')) = true then 1 else 0)).takeWhile isDigit := by
      simp only [Dec.matchDecimal]
      rw [hml, hs2, hdl]
    have hint : (Dec.matchDecimal s).int = s1.takeWhile isDigit := by
      simp only [Dec.matchDecimal]; rw [hml]
    have hminus : (Dec.matchDecimal s).minus = s.take (if (s.head?.any fun c => decide (c = '-')) = true then 1 else 0) := by
      simp only [Dec.matchDecimal]; exact hm
    have hwhole : (Dec.matchDecimal s).whole = (Dec.matchDecimal s).minus ++ ((Dec.matchDecimal s).int ++ ((if s2.head? = some '.' then ['.'] else []) ++ (Dec.matchDecimal s).frac)) := by
      simp only [Dec.matchDecimal]; rw [hml, hs2]; simp
    have hrest : s.drop (Dec.matchDecimal s).minus.length = s1 := hml
    simp only [hwhole, hrest, hs2, hdl2]
    rw [hfrac, hint, hminus, hd]
    simp
  obtain ⟨l, hl⟩ := key
  have he := congrArg List.head? hl
  rw [List.head?_cons] at he
  replace he : execAt decimalRe s 0 = _ := he
  unfold findSub
  rw [search_here (Nat.zero_le _) he]
  rfl

/-! ### encoding/json/value.go -/

theorem times_cls (p : α → Bool) (re : Re) (hm : ∀ bg u t, Matches (α := α) re bg u t ↔ ∃ x, u = [x] ∧ p x = true) :
    ∀ n bg u t, Times (Matches re) n bg u t ↔ u.length = n ∧ ∀ c ∈ u, p c = true := by
  intro n
  induction n with
  | zero => intro bg u t; simp [Times]; intro h; simp [h]
  | succ n ih =>
    intro bg u t
    simp only [Times, hm, ih]
    constructor
    · rintro ⟨v, w, rfl, ⟨x, rfl, hx⟩, hl, hw⟩
      refine ⟨by simp; omega, ?_⟩
      intro c hc
      simp at hc
      rcases hc with rfl | hc
      · exact hx
      · exact hw c hc
    · rintro ⟨hl, hu⟩
      cases u with
      | nil => simp at hl
      | cons c u => exact ⟨[c], u, rfl, ⟨c, rfl, hu c (by simp)⟩, by simpa using hl, fun d hd => hu d (by simp [hd])⟩

theorem matches_digit (bg : Bool) (u t : List Char) : Matches digitRe bg u t ↔ ∃ x, u = [x] ∧ isDigit x = true := by
  simp [digitRe, Matches, isDigit, Sym.code]

theorem matches_plus (bg : Bool) (u t : List Char) : Matches (.rep digitRe 1 none) bg u t ↔ u ≠ [] ∧ Json.AllDigits u := by
  simp only [Matches]
  constructor
  · rintro ⟨n, h1, -, h2⟩
    obtain ⟨h3, h4⟩ := (times_cls isDigit digitRe matches_digit n bg u t).1 h2
    exact ⟨by rintro rfl; simp at h3; omega, h4⟩
  · rintro ⟨h1, h2⟩
    refine ⟨u.length, List.length_pos_iff.2 h1, by simp, (times_cls isDigit digitRe matches_digit _ bg u t).2 ⟨rfl, h2⟩⟩

theorem matches_opt (re : Re) (bg : Bool) (u t : List Char) (P : List Char → Prop) (hp : ∀ bg t u, Matches re bg u t ↔ P u) :
    Matches (.rep re 0 (some 1)) bg u t ↔ u = [] ∨ P u := by
  simp only [Matches]
  constructor
  · rintro ⟨n, -, h1, h2⟩
    have hn : n ≤ 1 := by have := h1 1 rfl; omega
    match n, hn with
    | 0, _ => exact Or.inl h2
    | 1, _ =>
      obtain ⟨v, w, rfl, hv, hw⟩ := h2
      have : w = [] := hw
      subst this
      right; simpa using (hp _ _ _).1 hv
  · rintro (rfl | h)
    · exact ⟨0, by omega, by simp, rfl⟩
    · exact ⟨1, by omega, by simp, u, [], by simp, (hp _ _ _).2 h, rfl⟩

/-- numberStringRegex stands for the texts of NumberRegex. -/
theorem matches_number (bg : Bool) (u t : List Char) : Matches numberRe bg u t ↔ Json.NumberRegex u := by
  have hminus : ∀ bg t u, Matches (.lit '-') bg u t ↔ u = ['-'] := by
    intro bg t u
    simp only [Matches, Sym.code, toNat_eq]
    constructor
    · rintro ⟨x, rfl, rfl⟩; rfl
    · rintro rfl; exact ⟨'-', rfl, rfl⟩
  have he : ∀ bg t u, Matches (.lit 'e') bg u t ↔ u = ['e'] := by
    intro bg t u
    simp only [Matches, Sym.code, toNat_eq]
    constructor
    · rintro ⟨x, rfl, rfl⟩; rfl
    · rintro rfl; exact ⟨'e', rfl, rfl⟩
  have hdot : ∀ bg t u, Matches (.cls false [('.', '.')]) bg u t ↔ u = ['.'] := by
    intro bg t u
    simp only [Matches, Sym.code, List.mem_singleton, exists_eq_left, iff_true]
    constructor
    · rintro ⟨x, rfl, h1, h2⟩; rw [toNat_eq.1 (Nat.le_antisymm h2 h1)]
    · rintro rfl; exact ⟨'.', rfl, Nat.le_refl _, Nat.le_refl _⟩
  have hfr : ∀ bg t u, Matches (.cap 1 (.seq (.cls false [('.', '.')]) (.rep digitRe 1 none))) bg u t ↔ ∃ ds, ds ≠ [] ∧ Json.AllDigits ds ∧ u = '.' :: ds := by
    intro bg t u
    rw [Matches, Matches]
    simp only [hdot, matches_plus]
    constructor
    · rintro ⟨v, w, rfl, rfl, h1, h2⟩; exact ⟨w, h1, h2, rfl⟩
    · rintro ⟨ds, h1, h2, rfl⟩; exact ⟨['.'], ds, rfl, rfl, h1, h2⟩
  have hex : ∀ bg t u, Matches (.cap 2 (.seq (.lit 'e') (.rep digitRe 1 none))) bg u t ↔ ∃ ds, ds ≠ [] ∧ Json.AllDigits ds ∧ u = 'e' :: ds := by
    intro bg t u
    rw [Matches, Matches]
    simp only [he, matches_plus]
    constructor
    · rintro ⟨v, w, rfl, rfl, h1, h2⟩; exact ⟨w, h1, h2, rfl⟩
    · rintro ⟨ds, h1, h2, rfl⟩; exact ⟨['e'], ds, rfl, rfl, h1, h2⟩
  unfold numberRe Re.all Re.all Re.all Re.all
  rw [Matches]
  simp only [matches_opt _ _ _ _ _ hminus]
  constructor
  · rintro ⟨sg, w, rfl, hsg, h⟩
    rw [Matches] at h
    obtain ⟨i, w2, rfl, hi, h⟩ := h
    rw [Matches] at h
    obtain ⟨f, x, rfl, hf, hx⟩ := h
    rw [matches_plus] at hi
    rw [matches_opt _ _ _ _ _ hfr] at hf
    rw [matches_opt _ _ _ _ _ hex] at hx
    exact ⟨sg, i, f, x, hsg, hi.1, hi.2, hf, hx, by simp⟩
  · rintro ⟨sg, i, f, x, hsg, hi1, hi2, hf, hx, rfl⟩
    refine ⟨sg, i ++ (f ++ x), by simp, hsg, ?_⟩
    rw [Matches]
    refine ⟨i, f ++ x, rfl, (matches_plus _ _ _).2 ⟨hi1, hi2⟩, ?_⟩
    rw [Matches]
    exact ⟨f, x, rfl, (matches_opt _ _ _ _ _ hfr).2 hf, (matches_opt _ _ _ _ _ hex).2 hx⟩

/-! ### encoding/json/search.go -/

/-- A part as a hit. -/
def partHit (x : Json.Part × List Char) : Hit Char :=
  if x.1.key ≠ [] then ⟨'.' :: x.1.key, x.2, [(1, x.1.key)]⟩ else ⟨'[' :: (x.1.index ++ [']']), x.2, [(2, x.1.index)]⟩

/-- regexPathParts tried at the start of a text. -/
theorem path_head (bg : Bool) (s : List Char) : (outs pathRe bg s).head? = (Json.matchPart s).map partHit := by
  have hlit : ∀ (d c : Char) (bg : Bool) (t : List Char), outs (.lit d) bg (c :: t) = if c = d then [⟨[c], t, []⟩] else [] := by
    intro d c bg t
    rw [oneOf_lit d bg (c :: t), one_cons]; simp
  cases s with
  | nil => rfl
  | cons c t =>
    have e : outs pathRe bg (c :: t) =
      andThen (outs (.lit '.')) (outs (.cap 1 (.rep (.cls true [('.', '.'), ('[', '['), (']', ']')]) 1 none))) bg (c :: t) ++
      andThen (outs (.lit '[')) (andThen (outs (.cap 2 (.rep digitRe 1 none))) (outs (.lit ']'))) bg (c :: t) := rfl
    rw [e]
    by_cases h1 : c = '.'
    · subst h1
      have hz : andThen (outs (.lit '[')) (andThen (outs (.cap 2 (.rep digitRe 1 none))) (outs (.lit ']'))) bg ('.' :: t) = [] := by
        unfold andThen; rw [hlit]; simp
      rw [hz, List.append_nil]
      unfold andThen
      rw [hlit]
      simp only [if_true, List.flatMap_cons, List.flatMap_nil, List.append_nil, Json.matchPart]
      have hc : ∀ b, outs (.cap 1 (.rep (.cls true [('.', '.'), ('[', '['), (']', ']')]) 1 none)) b t =
          (outs (.rep (.cls true [('.', '.'), ('[', '['), (']', ']')]) 1 none) b t).map fun r => ⟨r.txt, r.rest, (1, r.txt) :: r.caps⟩ := fun _ => rfl
      rw [hc, plus_outs oneOf_key]
      cases t with
      | nil => simp
      | cons d t =>
        by_cases hd : Json.isKeyChar d = true
        · obtain ⟨l, hl, -⟩ := prefixes_head Json.isKeyChar t
          simp [hd, hl, partHit]
        · simp only [Bool.not_eq_true] at hd
          simp [hd]
    · have hz : andThen (outs (.lit '.')) (outs (.cap 1 (.rep (.cls true [('.', '.'), ('[', '['), (']', ']')]) 1 none))) bg (c :: t) = [] := by
        unfold andThen; rw [hlit]; simp [h1]
      rw [hz, List.nil_append]
      by_cases h2 : c = '['
      · subst h2
        unfold andThen
        rw [hlit]
        simp only [if_true, List.flatMap_cons, List.flatMap_nil, List.append_nil, Json.matchPart, h1, if_false]
        have hc : ∀ b, outs (.cap 2 (.rep digitRe 1 none)) b t =
            (outs (.rep digitRe 1 none) b t).map fun r => ⟨r.txt, r.rest, (2, r.txt) :: r.caps⟩ := fun _ => rfl
        rw [hc, plus_outs oneOf_digit]
        cases t with
        | nil => simp
        | cons d t =>
          by_cases hd : isDigit d = true
          · obtain ⟨l, hl, hlq⟩ := prefixes_head isDigit t
            have hrest : ∀ q ∈ l, ∀ b, outs (.lit ']') b q.rest = [] := by
              intro q hq b
              obtain ⟨c, u, hcu, hcd⟩ := hlq q hq
              rw [hcu, hlit, if_neg]
              rintro rfl; exact absurd hcd (by decide)
            have hnil : ∀ l' : List (Hit Char), (∀ q ∈ l', ∀ b, outs (.lit ']') b q.rest = []) → ∀ bb,
                (l'.map (fun r : Hit Char => (⟨d :: r.txt, r.rest, (2, d :: r.txt) :: r.caps⟩ : Hit Char))).flatMap
                  (fun r => (outs (.lit ']') (bb && r.txt.isEmpty) r.rest).map fun q => (⟨r.txt ++ q.txt, q.rest, q.caps ++ r.caps⟩ : Hit Char)) = [] := by
              intro l' hl' bb
              induction l' with
              | nil => rfl
              | cons q l' ih =>
                simp only [List.map_cons, List.flatMap_cons]
                rw [hl' q (by simp), ih (fun q hq => hl' q (by simp [hq]))]
                rfl
            simp only [hd, if_true, hl, List.map_cons, List.map_map, Function.comp_def, List.flatMap_cons, List.map_append]
            rw [hnil l hrest]
            simp only [List.takeWhile_cons, List.dropWhile_cons, hd, if_true, List.map_nil, List.append_nil, reduceCtorEq, if_false]
            cases hdw : t.dropWhile isDigit with
            | nil => rfl
            | cons e r =>
              rw [hlit]
              by_cases he : e = ']'
              · simp [he, partHit]
              · simp [he]
          · simp only [Bool.not_eq_true] at hd
            simp [hd]
      · unfold andThen; rw [hlit]; simp [h1, h2, Json.matchPart]

theorem path_exec (w : List Char) (p : Nat) : execAt pathRe w p = (Json.matchPart (w.drop p)).map partHit := path_head _ _

theorem path_nonempty (w : List Char) (p : Nat) (r : Hit Char) (h : execAt pathRe w p = some r) : r.txt ≠ [] := by
  rw [path_exec] at h
  obtain ⟨x, -, rfl⟩ := Option.map_eq_some_iff.1 h
  unfold partHit; split <;> simp

theorem path_scan (s : List Char) : ∃ hs, Scan (fun u => (Json.matchPart u).map partHit) s hs (Json.findAll s).2 ∧
    hs.map (parts pathRe) = (Json.findAll s).1.map fun p => [if p.key ≠ [] then '.' :: p.key else '[' :: (p.index ++ [']']), p.key, if p.key ≠ [] then [] else p.index] := by
  induction hn : s.length using Nat.strongRecOn generalizing s with
  | ind n ih =>
    cases s with
    | nil => exact ⟨[], by rw [Json.findAll]; exact .nil, by rw [Json.findAll]; rfl⟩
    | cons c u =>
      cases hm : Json.matchPart (c :: u) with
      | none =>
        obtain ⟨hs, h1, h2⟩ := ih u.length (by rw [← hn]; simp) u rfl
        have e : Json.findAll (c :: u) = ((Json.findAll u).1, c :: (Json.findAll u).2) := by
          rw [Json.findAll]; split
          · rename_i h; rw [hm] at h; cases h
          · rfl
        rw [e]
        exact ⟨hs, .miss _ _ _ _ (by rw [hm]; rfl) h1, h2⟩
      | some x =>
        obtain ⟨p, r⟩ := x
        obtain ⟨hs, h1, h2⟩ := ih r.length (by rw [← hn]; exact Json.matchPart_length hm) r rfl
        have e : Json.findAll (c :: u) = (p :: (Json.findAll r).1, (Json.findAll r).2) := by
          rw [Json.findAll]; split
          · rename_i h; rw [hm] at h; cases h; rfl
          · rename_i h; rw [hm] at h; cases h
        rw [e]
        refine ⟨partHit (p, r) :: hs, .hit _ _ _ _ (by rw [hm]; rfl) ?_, ?_⟩
        · have : (partHit (p, r)).rest = r := by unfold partHit; split <;> rfl
          rw [this]; exact h1
        · simp only [List.map_cons, h2]
          congr 1
          unfold partHit
          split
          · simp [parts, pathRe, Re.all, Re.caps, List.range_succ, List.lookup, digitRe]
          · rename_i hk
            simp only [ne_eq, Classical.not_not] at hk
            simp [parts, pathRe, Re.all, Re.caps, List.range_succ, List.lookup, digitRe, hk]

/-! ### funcs/funcs.go -/

theorem camel_head (bg : Bool) (s : List Nat) : (outs camelRe bg s).head? =
    match s with
    | [] => none
    | b :: bs => if Funcs.isUpper b = true then some ⟨b :: bs.takeWhile Funcs.isLower, bs.dropWhile Funcs.isLower, []⟩ else none := by
  cases s with
  | nil => rfl
  | cons b bs =>
    have e : outs camelRe bg (b :: bs) = andThen (outs (.cls false [('A', 'Z')])) (outs (.rep (.cls false [('a', 'z')]) 0 none)) bg (b :: bs) := rfl
    rw [e]
    unfold andThen
    rw [oneOf_upper, one_cons]
    by_cases h : Funcs.isUpper b = true
    · obtain ⟨l, hl⟩ := star_head oneOf_lower (bg && [b].isEmpty) bs
      simp only [h, if_true, List.flatMap_cons, List.flatMap_nil, List.append_nil]
      rw [hl]; simp
    · simp [h]

theorem camel_scan (s : List Nat) : ∃ hs o, Scan (fun u => (outs camelRe true u).head?) s hs o ∧ hs.map Hit.txt = Funcs.camelWords s := by
  induction hn : s.length using Nat.strongRecOn generalizing s with
  | ind n ih =>
    cases s with
    | nil => exact ⟨[], [], .nil, by rw [Funcs.camelWords]; rfl⟩
    | cons b bs =>
      rw [Funcs.camelWords]
      by_cases h : Funcs.isUpper b = true
      · have hl := (List.dropWhile_suffix Funcs.isLower (l := bs)).length_le
        obtain ⟨hs, o, h1, h2⟩ := ih (bs.dropWhile Funcs.isLower).length (by rw [← hn]; simp; omega) _ rfl
        refine ⟨⟨b :: bs.takeWhile Funcs.isLower, bs.dropWhile Funcs.isLower, []⟩ :: hs, o, .hit _ _ _ _ ?_ h1, ?_⟩
        · rw [camel_head]; simp [h]
        · simp [h, h2]
      · obtain ⟨hs, o, h1, h2⟩ := ih bs.length (by rw [← hn]; simp) _ rfl
        refine ⟨hs, b :: o, .miss _ _ _ _ ?_ h1, ?_⟩
        · rw [camel_head]; simp [h]
        · simp [h, h2]

theorem camel_exec (w : List Nat) (p : Nat) : execAt camelRe w p = (outs camelRe true (w.drop p)).head? := by
  unfold execAt; rw [camel_head, camel_head]

theorem camel_nonempty (w : List Nat) (p : Nat) (r : Hit Nat) (h : execAt camelRe w p = some r) : r.txt ≠ [] := by
  unfold execAt at h
  rw [camel_head] at h
  cases hd : w.drop p with
  | nil => rw [hd] at h; cases h
  | cons b bs =>
    rw [hd] at h
    simp only [] at h
    split at h
    · cases h; simp
    · cases h

end Micro.Regex
