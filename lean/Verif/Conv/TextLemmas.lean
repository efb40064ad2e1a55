import Verif.Conv.TextModel
import Verif.Conv.TextSpec
import Verif.Conv.FloatProps
import Verif.Conv.Props
import Mathlib.Tactic.Tauto
/-
Lemmas about the scanners and about rounding, for C95 and C96.
-/
set_option linter.unusedSimpArgs false
namespace Micro.Conv
open Micro

/-! ### Scanners -/

theorem digit_not_sign {c : Char} (h : isDigit c = true) : c ≠ '-' ∧ c ≠ '+' ∧ c ≠ '.' ∧ c ≠ '/' := by
  refine ⟨?_, ?_, ?_, ?_⟩ <;> (rintro rfl; revert h; decide)

theorem scanSign_minus (r : List Char) : scanSign ('-' :: r) = (true, r) := rfl
theorem scanSign_plus (r : List Char) : scanSign ('+' :: r) = (false, r) := rfl
theorem scanSign_other {r : List Char} (h : ∀ c t, r = c :: t → c ≠ '-' ∧ c ≠ '+') : scanSign r = (false, r) := by
  unfold scanSign
  split
  · exact absurd rfl (h _ _ rfl).1
  · exact absurd rfl (h _ _ rfl).2
  · rfl

theorem scanSign_digits {r : List Char} (h : ∀ c ∈ r, isDigit c = true) : scanSign r = (false, r) :=
  scanSign_other (fun c t e => ⟨(digit_not_sign (h c (by simp [e]))).1, (digit_not_sign (h c (by simp [e]))).2.1⟩)

theorem scanInt_iff (s : List Char) (v : Int) : scanInt s = some v ↔ Spells true s v := by
  unfold Spells
  constructor
  · intro h
    unfold scanInt at h
    rcases hs : scanSign s with ⟨neg, r⟩
    rw [hs] at h
    simp only at h
    split at h
    · rename_i hc
      have hd : ∀ c ∈ r, isDigit c = true := by simpa [List.all_eq_true] using hc.2
      refine ⟨r, hc.1, hd, ?_⟩
      unfold scanSign at hs
      split at hs
      · cases hs; simp at h; right; right; exact ⟨rfl, rfl, h.symm⟩
      · cases hs; simp at h; right; left; exact ⟨rfl, rfl, h.symm⟩
      · cases hs; simp at h; left; exact ⟨rfl, h.symm⟩
    · cases h
  · rintro ⟨ds, hne, hd, ⟨rfl, rfl⟩ | ⟨_, rfl, rfl⟩ | ⟨_, rfl, rfl⟩⟩
    · unfold scanInt
      rw [scanSign_digits hd]
      simpa [hne, List.all_eq_true] using hd
    · unfold scanInt
      rw [scanSign_plus]
      simpa [hne, List.all_eq_true] using hd
    · unfold scanInt
      rw [scanSign_minus]
      simpa [hne, List.all_eq_true] using hd

theorem takeWhile_digits {a b : List Char} (h : ∀ c ∈ a, isDigit c = true) (hb : ∀ c t, b = c :: t → isDigit c = false) :
    (a ++ b).takeWhile isDigit = a ∧ (a ++ b).dropWhile isDigit = b := by
  induction a with
  | nil =>
    cases b with
    | nil => simp
    | cons c t => simp [List.takeWhile_cons, List.dropWhile_cons, hb c t rfl]
  | cons x a ih =>
    obtain ⟨h1, h2⟩ := ih (fun c hc => h c (by simp [hc]))
    simp [List.takeWhile_cons, List.dropWhile_cons, h x (by simp), h1, h2]

theorem scanExp_iff (s : List Char) (e : Int) : scanExp s = some e ↔ Exponent s e ∧ Kind.int64.InRange e := by
  unfold Exponent
  cases s with
  | nil =>
    simp only [scanExp, Option.some.injEq]
    constructor
    · rintro rfl; exact ⟨Or.inl ⟨trivial, rfl⟩, by decide⟩
    · rintro ⟨⟨-, rfl⟩ | ⟨c, r, -, h, -⟩, -⟩
      · rfl
      · cases h
  | cons c r =>
    simp only [scanExp]
    constructor
    · intro h
      split at h
      · rename_i hc
        cases hs : scanInt r with
        | none => rw [hs] at h; cases h
        | some v =>
          rw [hs] at h
          simp only at h
          split at h
          · rename_i hv
            cases h
            exact ⟨Or.inr ⟨c, r, hc, rfl, (scanInt_iff r _).mp hs⟩, hv⟩
          · cases h
      · cases h
    · rintro ⟨⟨h, -⟩ | ⟨c', r', hc, h, hsp⟩, hv⟩
      · cases h
      · cases h
        rw [if_pos hc, (scanInt_iff r e).mpr hsp]
        simp [hv]

theorem exponent_head {s : List Char} {e : Int} (h : Exponent s e) {c : Char} {t : List Char} (hs : s = c :: t) : c = 'e' ∨ c = 'E' := by
  rcases h with ⟨rfl, -⟩ | ⟨c', r, hc, rfl, -⟩
  · cases hs
  · cases hs; exact hc

theorem scanFrac_cases (r : List Char) : (∃ t, r = '.' :: t ∧ scanFrac r = (t.takeWhile isDigit, t.dropWhile isDigit)) ∨ scanFrac r = ([], r) := by
  unfold scanFrac
  split
  · exact Or.inl ⟨_, rfl, rfl⟩
  · exact Or.inr rfl

theorem scanSci_iff (s : List Char) (m k : Int) :
    scanSci s = some (m, k) ↔ ∃ e n, Scientific s m e n ∧ Kind.int64.InRange e ∧ k = e - n := by
  unfold Scientific
  constructor
  · intro h
    unfold scanSci at h
    rcases hs : scanSign s with ⟨neg, r⟩
    rw [hs] at h
    simp only at h
    have hsign : ∃ sign, s = sign ++ r ∧ (sign = [] ∨ sign = ['+'] ∨ sign = ['-']) ∧ (neg = true ↔ sign = ['-']) := by
      unfold scanSign at hs
      split at hs <;> cases hs
      · exact ⟨['-'], rfl, by simp, by simp⟩
      · exact ⟨['+'], rfl, by simp, by simp⟩
      · exact ⟨[], rfl, by simp, by simp⟩
    obtain ⟨sign, rfl, hsg, hneg⟩ := hsign
    have hall : ∀ l : List Char, ∀ c ∈ l.takeWhile isDigit, isDigit c = true := fun l c hc => List.all_eq_true.mp (List.all_takeWhile (p := isDigit)) c hc
    have hr : r = r.takeWhile isDigit ++ r.dropWhile isDigit := (List.takeWhile_append_dropWhile).symm
    have hm : ∀ d : ℕ, (if neg = true then -(d : Int) else d) = (if sign = ['-'] then -1 else 1) * (d : Int) := by
      intro d
      by_cases hn : neg = true
      · simp [hn, hneg.mp hn]
      · have : sign ≠ ['-'] := fun e => hn (hneg.mpr e)
        simp [hn, this]
    split at h
    · cases h
    · rename_i hne
      simp only [Option.map_eq_some_iff, Prod.mk.injEq] at h
      obtain ⟨e, he, h1, h2⟩ := h
      obtain ⟨he1, he2⟩ := (scanExp_iff _ e).mp he
      rw [hm] at h1
      rcases scanFrac_cases (r.dropWhile isDigit) with ⟨t, ht, hx⟩ | hx
      · rw [hx] at h1 h2 hne he1
        refine ⟨e, _, ⟨sign, r.takeWhile isDigit, t.takeWhile isDigit, t.dropWhile isDigit, ?_, hne, hsg, Or.inl ?_, he1, rfl, h1.symm⟩, he2, h2.symm⟩
        · intro c hc
          rcases List.mem_append.mp hc with h' | h'
          · exact hall _ c h'
          · exact hall _ c h'
        · rw [List.append_assoc, List.append_assoc, List.cons_append, List.takeWhile_append_dropWhile, ← ht, ← hr]
      · rw [hx] at h1 h2 hne he1
        refine ⟨e, _, ⟨sign, r.takeWhile isDigit, [], r.dropWhile isDigit, ?_, hne, hsg, Or.inr ⟨rfl, ?_⟩, he1, rfl, h1.symm⟩, he2, h2.symm⟩
        · simpa using hall r
        · rw [List.append_assoc, ← hr]
  · rintro ⟨e, n, ⟨sign, ip, fp, ex, hd, hne, hsg, hs, hex, rfl, hm⟩, hin, rfl⟩
    have hip : ∀ c ∈ ip, isDigit c = true := fun c hc => hd c (by simp [hc])
    have hfp : ∀ c ∈ fp, isDigit c = true := fun c hc => hd c (by simp [hc])
    have hexd : ∀ c t, ex = c :: t → isDigit c = false := by
      intro c t h
      rcases exponent_head hex h with rfl | rfl <;> decide
    obtain ⟨r, hr, hv⟩ : ∃ r, s = sign ++ r ∧ ((r = ip ++ '.' :: (fp ++ ex)) ∨ (fp = [] ∧ r = ip ++ ex)) := by
      rcases hs with rfl | ⟨rfl, rfl⟩
      · exact ⟨ip ++ '.' :: (fp ++ ex), by simp, Or.inl rfl⟩
      · exact ⟨ip ++ ex, by simp, Or.inr ⟨rfl, rfl⟩⟩
    have hrs : ∀ c t, r = c :: t → c ≠ '-' ∧ c ≠ '+' := by
      intro c t hct
      have : isDigit c = true ∨ c = '.' ∨ c = 'e' ∨ c = 'E' := by
        cases ip with
        | nil =>
          rcases hv with rfl | ⟨rfl, rfl⟩
          · cases hct; exact Or.inr (Or.inl rfl)
          · exact absurd rfl hne
        | cons d ip =>
          left
          rcases hv with rfl | ⟨rfl, rfl⟩ <;> (cases hct; exact hip c (by simp))
      rcases this with h | h | h | h
      · exact ⟨(digit_not_sign h).1, (digit_not_sign h).2.1⟩
      all_goals subst h; decide
    have hss : scanSign s = (decide (sign = ['-']), r) := by
      rw [hr]
      rcases hsg with rfl | rfl | rfl
      · simpa using scanSign_other hrs
      · rfl
      · rfl
    have hse := (scanExp_iff ex e).mpr ⟨hex, hin⟩
    have hmm : (if decide (sign = ['-']) = true then -(digitsVal (ip ++ fp) : Int) else digitsVal (ip ++ fp)) = m := by
      rw [hm]; by_cases hn : sign = ['-'] <;> simp [hn]
    unfold scanSci
    rw [hss]
    simp only
    rcases hv with rfl | ⟨rfl, rfl⟩
    · obtain ⟨h1, h2⟩ := takeWhile_digits (b := '.' :: (fp ++ ex)) hip (by intro c t e; cases e; decide)
      obtain ⟨h3, h4⟩ := takeWhile_digits (b := ex) hfp hexd
      rw [h1, h2]
      have hf : scanFrac ('.' :: (fp ++ ex)) = (fp, ex) := by unfold scanFrac; simp only [h3, h4]
      rw [hf]
      simp only
      rw [if_neg hne, hse, Option.map_some, hmm]
    · obtain ⟨h1, h2⟩ := takeWhile_digits (b := ex) hip hexd
      rw [h1, h2]
      have hf : scanFrac ex = ([], ex) := by
        rcases scanFrac_cases ex with ⟨t, ht, -⟩ | h
        · rcases exponent_head hex ht with h | h <;> cases h
        · exact h
      rw [hf]
      simp only
      rw [if_neg hne, hse, Option.map_some, hmm]

/-- A decimal number is one without exponent. -/
theorem scientific_of_decimal {s : List Char} {q : ℚ} (h : Decimal s q) :
    ∃ (m : Int) (n : Nat), Scientific s m 0 n ∧ q = (m : ℚ) * 10 ^ (0 - n : Int) ∧ n ≤ s.length := by
  obtain ⟨sign, ip, fp, hd, hne, hsg, hs, hq⟩ := h
  refine ⟨_, fp.length, ⟨sign, ip, fp, [], hd, hne, hsg, by simpa using hs, Or.inl ⟨rfl, rfl⟩, rfl, rfl⟩, ?_, ?_⟩
  · rw [hq, zero_sub, zpow_neg, zpow_natCast]
    push_cast
    by_cases hn : sign = ['-'] <;> simp [hn] <;> ring
  · rcases hs with rfl | ⟨rfl, rfl⟩ <;> simp <;> omega

/-- Whatever is no number with exponent 0 and more decimals than characters fits the extra bits. -/
theorem pow5_fits (s : List Char) (n : Nat) (h : n ≤ s.length) : 5 ^ n < 2 ^ (textPrec s + 64) := by
  have h1 : 5 ^ n ≤ 10 ^ s.length := le_trans (Nat.pow_le_pow_left (by omega) n) (Nat.pow_le_pow_right (by omega) h)
  have h2 : 10 ^ s.length ≤ 2 ^ bitsFor s.length := Nat.le_pow_clog (by omega) _
  have h3 : 2 ^ bitsFor s.length < 2 ^ (textPrec s + 64) := Nat.pow_lt_pow_right (by omega) (by unfold textPrec; omega)
  omega

/-- The characters of numbers. -/
theorem scientific_chars {s : List Char} {m e : Int} {n : Nat} (h : Scientific s m e n) :
    ∀ c ∈ s, isDigit c = true ∨ c = '+' ∨ c = '-' ∨ c = '.' ∨ c = 'e' ∨ c = 'E' := by
  obtain ⟨sign, ip, fp, ex, hd, _, hsg, hs, hex, _, _⟩ := h
  intro c hc
  have hm : c ∈ sign ∨ c ∈ ip ∨ c = '.' ∨ c ∈ fp ∨ c ∈ ex := by
    rcases hs with rfl | ⟨rfl, rfl⟩
    · simpa [or_assoc] using hc
    · simp only [List.mem_append] at hc; tauto
  rcases hm with h | h | h | h | h
  · rcases hsg with rfl | rfl | rfl
    · simp at h
    · simp at h; exact Or.inr (Or.inl h)
    · simp at h; exact Or.inr (Or.inr (Or.inl h))
  · exact Or.inl (hd c (by simp [h]))
  · exact Or.inr (Or.inr (Or.inr (Or.inl h)))
  · exact Or.inl (hd c (by simp [h]))
  · rcases hex with ⟨rfl, -⟩ | ⟨c', r, hc', rfl, ds, -, hds, hsp⟩
    · cases h
    · rcases List.mem_cons.mp h with rfl | h
      · rcases hc' with h | h <;> simp [h]
      · rcases hsp with ⟨rfl, -⟩ | ⟨-, rfl, -⟩ | ⟨-, rfl, -⟩
        · exact Or.inl (hds c h)
        · rcases List.mem_cons.mp h with rfl | h
          · simp
          · exact Or.inl (hds c h)
        · rcases List.mem_cons.mp h with rfl | h
          · simp
          · exact Or.inl (hds c h)

theorem scientific_not_mem {s : List Char} {m e : Int} {n : Nat} (h : Scientific s m e n) {c : Char}
    (hc : isDigit c = false ∧ c ≠ '+' ∧ c ≠ '-' ∧ c ≠ '.' ∧ c ≠ 'e' ∧ c ≠ 'E') : c ∉ s := by
  intro hm
  rcases scientific_chars h c hm with h' | h' | h' | h' | h' | h'
  · rw [hc.1] at h'; cases h'
  · exact hc.2.1 h'
  · exact hc.2.2.1 h'
  · exact hc.2.2.2.1 h'
  · exact hc.2.2.2.2.1 h'
  · exact hc.2.2.2.2.2 h'

theorem decimal_not_mem {s : List Char} {q : ℚ} (h : Decimal s q) {c : Char}
    (hc : isDigit c = false ∧ c ≠ '+' ∧ c ≠ '-' ∧ c ≠ '.' ∧ c ≠ 'e' ∧ c ≠ 'E') : c ∉ s := by
  obtain ⟨m, n, h, -⟩ := scientific_of_decimal h
  exact scientific_not_mem h hc

theorem parseFloatText_sci (lib : TextLib) {s : List Char} {m e : Int} {n : Nat} (h : Scientific s m e n) (he : Kind.int64.InRange e) :
    parseFloatText lib s =
      if m = 0 then some (.fin 0)
      else if 5 ^ (e - n).natAbs < 2 ^ (textPrec s + 64) then some (.fin ((m : ℚ) * 10 ^ (e - n : Int)))
      else if (e - n).natAbs ≤ 100000000 then some (.fin (lib.inexact s))
      else lib.floats s := by
  have hI : 'n' ∉ s := scientific_not_mem h (by decide)
  unfold parseFloatText
  rw [if_neg, if_neg, (scanSci_iff s m (e - n)).mpr ⟨e, n, h, he, rfl⟩]
  · rintro (rfl | rfl) <;> exact hI (by decide)
  · rintro (rfl | rfl | rfl | rfl) <;> exact hI (by decide)

theorem parseFloatText_decimal (lib : TextLib) {s : List Char} {q : ℚ} (h : Decimal s q) :
    parseFloatText lib s = some (.fin q) := by
  obtain ⟨m, n, h, hq, hn⟩ := scientific_of_decimal h
  rw [parseFloatText_sci lib h (by decide)]
  by_cases hm : m = 0
  · rw [if_pos hm, hq, hm]; simp
  · rw [if_neg hm, if_pos, hq]
    have : (0 - (n : Int)).natAbs = n := by omega
    rw [this]; exact pow5_fits s n hn

theorem parseFloatText_number (lib : TextLib) {s : List Char} {q : ℚ} (h : Number s q) : parseFloatText lib s = some (.fin q) := by
  rcases h with h | ⟨m, e, n, h, he, hk, rfl⟩
  · exact parseFloatText_decimal lib h
  · rw [parseFloatText_sci lib h he]
    by_cases hm : m = 0
    · rw [if_pos hm, hm]; simp
    · rw [if_neg hm, if_pos]
      have h1 : 5 ^ (e - n).natAbs ≤ 5 ^ 50 := Nat.pow_le_pow_right (by omega) hk
      have h2 : 2 ^ 117 ≤ 2 ^ (textPrec s + 64) := Nat.pow_le_pow_right (by omega) (by unfold textPrec; omega)
      have h3 : 5 ^ 50 < 2 ^ 117 := by norm_num
      omega

theorem number_not_mem {s : List Char} {q : ℚ} (h : Number s q) {c : Char}
    (hc : isDigit c = false ∧ c ≠ '+' ∧ c ≠ '-' ∧ c ≠ '.' ∧ c ≠ 'e' ∧ c ≠ 'E') : c ∉ s := by
  rcases h with h | ⟨m, e, n, h, -⟩
  · exact decimal_not_mem h hc
  · exact scientific_not_mem h hc

theorem takeWhile_no {s : List Char} {x : Char} (h : x ∉ s) : s.takeWhile (· ≠ x) = s ∧ s.dropWhile (· ≠ x) = [] := by
  induction s with
  | nil => simp
  | cons c s ih =>
    have hc : c ≠ x := fun e => h (by simp [e])
    obtain ⟨h1, h2⟩ := ih (fun hm => h (by simp [hm]))
    simp only [List.takeWhile_cons, List.dropWhile_cons]
    simp only [hc, ne_eq, not_false_eq_true, decide_true, if_true]
    exact ⟨by simpa using h1, by simpa using h2⟩

theorem takeWhile_sep {a b : List Char} {x : Char} (h : x ∉ a) :
    (a ++ x :: b).takeWhile (· ≠ x) = a ∧ (a ++ x :: b).dropWhile (· ≠ x) = x :: b := by
  induction a with
  | nil => simp [List.takeWhile_cons, List.dropWhile_cons]
  | cons c s ih =>
    have hc : c ≠ x := fun e => h (by simp [e])
    obtain ⟨h1, h2⟩ := ih (fun hm => h (by simp [hm]))
    simp only [List.cons_append, List.takeWhile_cons, List.dropWhile_cons]
    simp only [hc, ne_eq, not_false_eq_true, decide_true, if_true]
    exact ⟨by simpa using h1, by simpa using h2⟩

theorem parseRatText_sci (lib : TextLib) {s : List Char} {m e : Int} {n : Nat} (h : Scientific s m e n) (he : Kind.int64.InRange e) :
    parseRatText lib s = if m = 0 then some 0 else if (e - n).natAbs ≤ 1000000 then some ((m : ℚ) * 10 ^ (e - n : Int)) else none := by
  have hn : ∀ c, isDigit c = false ∧ c ≠ '+' ∧ c ≠ '-' ∧ c ≠ '.' ∧ c ≠ 'e' ∧ c ≠ 'E' → c ∉ s := fun c hc => scientific_not_mem h hc
  unfold parseRatText
  rw [(takeWhile_no (hn '/' (by decide))).2]
  simp only
  rw [if_neg, (scanSci_iff s m (e - n)).mpr ⟨e, n, h, he, rfl⟩]
  rintro (h' | h' | h' | h' | h' | h' | h' | h' | h') <;> revert h'
  · exact hn _ (by decide)
  · exact hn _ (by decide)
  · exact hn _ (by decide)
  · exact hn _ (by decide)
  · exact hn _ (by decide)
  · exact hn _ (by decide)
  · exact hn _ (by decide)
  · exact hn _ (by decide)
  · exact hn _ (by decide)

theorem natChars_canonical (n : Nat) : canonical (natChars n) = true := by
  unfold canonical
  rw [decide_eq_true_iff]
  refine ⟨natChars_ne_nil n, List.all_eq_true.mpr (natChars_digits n), ?_⟩
  intro h
  rcases Nat.lt_or_ge n 10 with hn | hn
  · rw [natChars]; simp [hn]
  · exfalso
    have hl := natChars_pow_le n (by omega)
    cases hc : natChars n with
    | nil => exact natChars_ne_nil n hc
    | cons c t =>
      rw [hc] at h
      simp at h
      subst h
      have h1 := digitsVal_natChars n
      rw [hc, digitsVal_cons] at h1
      have h2 := digitsVal_lt t (fun x hx => natChars_digits n x (by rw [hc]; simp [hx]))
      have h3 : digitVal '0' = 0 := by decide
      rw [h3] at h1
      rw [hc] at hl
      simp at hl h1
      omega

/-! ### Rounding -/

/-- An odd multiple of a power of two with too many bits is no number of the format. -/
theorem odd_not_has_gen (f : Fmt) (M k : ℤ) (hodd : M % 2 = 1) (hM : (2 : ℤ) ^ f.prec ≤ |M|) : ¬ f.Has ((M : ℚ) * 2 ^ k) := by
  rintro ⟨m, e, h, hm, _, _⟩
  rcases le_or_gt e k with he | he
  · obtain ⟨j, rfl⟩ : ∃ j : ℕ, k = e + j := ⟨(k - e).toNat, by omega⟩
    have hpos : (0 : ℚ) < 2 ^ e := by positivity
    rw [zpow_add₀ (by norm_num), zpow_natCast] at h
    have h1 : (M : ℚ) * 2 ^ j = m := by
      have : ((M : ℚ) * 2 ^ j) * 2 ^ e = m * 2 ^ e := by rw [← h]; ring
      exact mul_right_cancel₀ hpos.ne' this
    have h2 : M * 2 ^ j = m := by exact_mod_cast h1
    have h3 : |M| ≤ |m| := by
      rw [← h2, abs_mul]
      have : (1 : ℤ) ≤ |2 ^ j| := by rw [abs_of_pos (by positivity)]; exact one_le_pow₀ (by norm_num)
      nlinarith [abs_nonneg M]
    omega
  · obtain ⟨j, rfl⟩ : ∃ j : ℕ, e = k + (j + 1) := ⟨(e - k - 1).toNat, by omega⟩
    have hpos : (0 : ℚ) < 2 ^ k := by positivity
    have h1 : (M : ℚ) = m * 2 ^ (j + 1) := by
      have hz : (2 : ℚ) ^ (k + (j + 1 : ℤ)) = 2 ^ k * 2 ^ (j + 1) := by
        rw [zpow_add₀ (by norm_num)]
        congr 1
      rw [hz] at h
      have : (M : ℚ) * 2 ^ k = (m * 2 ^ (j + 1)) * 2 ^ k := by rw [h]; ring
      exact mul_right_cancel₀ hpos.ne' this
    have h2 : M = (m * 2 ^ j) * 2 := by
      have : M = m * 2 ^ (j + 1) := by exact_mod_cast h1
      rw [this, pow_succ]; ring
    omega

/-- Rounding to `p` bits: nothing of `p` bits is nearer. -/
theorem roundSig_near {p : ℕ} (hp : 1 ≤ p) (q : ℚ) (m e : ℤ) (hm : |m| < 2 ^ p) : |roundSig 2 p q - q| ≤ |(m : ℚ) * 2 ^ e - q| := by
  by_cases h0 : q = 0
  · simp [roundSig, h0]; positivity
  · set L := Int.log 2 |q| with hL
    let f : Fmt := ⟨p, min e (L - (p - 1)), max e (L + 1)⟩
    have hround : roundFloat f q = roundSig 2 p q := by
      unfold roundFloat roundSig
      rw [if_neg h0, if_neg h0]
      congr 1
      show max (Int.log 2 |q| - ((p : ℤ) - 1)) (min e (L - (p - 1))) = _
      omega
    have hmax : |q| ≤ f.max := by
      have h1 := Int.lt_zpow_succ_log_self (b := 2) (by omega) |q|
      have h2 : (2 : ℚ) ^ (L + 1) ≤ 2 ^ f.emax := zpow_le_zpow_right₀ (by norm_num) (le_max_right _ _)
      have h3 : (1 : ℚ) ≤ 2 ^ f.prec - 1 := by
        have : (2 : ℚ) ^ 1 ≤ 2 ^ p := pow_le_pow_right₀ (by norm_num) hp
        show (1 : ℚ) ≤ 2 ^ p - 1
        linarith
      have h4 : (0 : ℚ) < 2 ^ f.emax := by positivity
      unfold Fmt.max
      have h5 : |q| < (2 : ℚ) ^ (L + 1) := by exact_mod_cast h1
      nlinarith
    have hn := (roundFloat_nearest f hp (by show min _ _ ≤ max _ _; omega) hmax).2
      (m * 2 ^ e) ⟨m, e, rfl, hm, min_le_left _ _, le_max_left _ _⟩
    rwa [hround] at hn

end Micro.Conv
