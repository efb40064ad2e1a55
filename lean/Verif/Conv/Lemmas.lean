import Verif.Conv.Spec
namespace Micro.Conv
open Micro

theorem parseUintLoop_ok (cs : List Char) (n m : Nat) (hn : n ≤ 18446744073709551615) :
    parseUintLoop cs n = (m, .ok) ↔
      (∀ c ∈ cs, isDigit c = true) ∧ m = n * 10 ^ cs.length + digitsVal cs ∧
        m ≤ 18446744073709551615 := by
  induction cs generalizing n with
  | nil => simp [parseUintLoop]; omega
  | cons c cs ih =>
    have hp : 0 < 10 ^ cs.length := Nat.pow_pos (by omega)
    rw [parseUintLoop, digitsVal_cons, List.length_cons, Nat.pow_succ]
    have e : n * (10 ^ cs.length * 10) + (digitVal c * 10 ^ cs.length + digitsVal cs)
        = (n * 10 + digitVal c) * 10 ^ cs.length + digitsVal cs := by
      rw [Nat.add_mul, Nat.mul_assoc, Nat.mul_comm 10]; omega
    by_cases hc : isDigit c = true
    · simp only [hc, if_true]
      split
      · rename_i hgt
        simp only [Prod.mk.injEq, reduceCtorEq, and_false, false_iff]
        rintro ⟨-, hm, hle⟩
        rw [e] at hm
        have : (n * 10 + digitVal c) * 1 ≤ (n * 10 + digitVal c) * 10 ^ cs.length :=
          Nat.mul_le_mul_left _ hp
        omega
      · rw [ih _ (by omega), e]
        simp [hc]
    · simp [hc]

theorem parseUintLoop_syntax (cs : List Char) (n : Nat) (hc : ∀ c ∈ cs, isDigit c = true) :
    (parseUintLoop cs n).2 ≠ .syntaxErr := by
  induction cs generalizing n with
  | nil => simp [parseUintLoop]
  | cons c cs ih =>
    rw [parseUintLoop]
    simp only [hc c (by simp), if_true]
    split
    · simp
    · exact ih _ (fun c h => hc c (by simp [h]))

theorem parseUintLoop_range (cs : List Char) (n m : Nat) (h : parseUintLoop cs n = (m, .rangeErr)) :
    m = 18446744073709551615 := by
  induction cs generalizing n with
  | nil => simp [parseUintLoop] at h
  | cons c cs ih =>
    rw [parseUintLoop] at h
    split at h
    · split at h
      · simp at h; exact h.symm
      · exact ih _ h
    · simp at h

theorem parseUint64_ok (cs : List Char) (m : Nat) :
    parseUint64 cs = (m, .ok) ↔ cs ≠ [] ∧ (∀ c ∈ cs, isDigit c = true) ∧ m = digitsVal cs ∧
      m ≤ 18446744073709551615 := by
  unfold parseUint64
  split
  · simp [*]
  · rw [parseUintLoop_ok _ _ _ (by omega)]; simp [*]

theorem parseUint64_range (cs : List Char) (m : Nat) (h : parseUint64 cs = (m, .rangeErr)) :
    m = 18446744073709551615 := by
  unfold parseUint64 at h
  split at h
  · simp at h
  · exact parseUintLoop_range _ _ _ h

theorem spells_unsigned (cs : List Char) (v : Int) :
    Spells false cs v ↔ cs ≠ [] ∧ (∀ c ∈ cs, isDigit c = true) ∧ v = digitsVal cs := by
  constructor
  · rintro ⟨ds, h1, h2, (⟨rfl, h4⟩ | ⟨h3, -⟩ | ⟨h3, -⟩)⟩
    · exact ⟨h1, h2, h4⟩
    · simp at h3
    · simp at h3
  · rintro ⟨h1, h2, h3⟩
    exact ⟨cs, h1, h2, .inl ⟨rfl, h3⟩⟩

theorem stringToUint64_iff (cs : List Char) (v cur : Int) :
    stringToUint64 cs cur = ⟨v, false⟩ ↔ Spells false cs v ∧ Kind.uint64.InRange v := by
  unfold stringToUint64
  rw [spells_unsigned]
  simp only [Res.mk.injEq, ne_eq, decide_not, Bool.not_eq_eq_eq_not, Bool.not_false,
    decide_eq_true_eq]
  constructor
  · rintro ⟨h1, h2⟩
    have := (parseUint64_ok cs (parseUint64 cs).1).mp (by rw [← h2])
    obtain ⟨a, b, c, d⟩ := this
    refine ⟨⟨a, b, by rw [← h1, ← c]⟩, ?_⟩
    rw [← h1]; kind_norm; omega
  · rintro ⟨⟨a, b, c⟩, hr⟩
    have := (parseUint64_ok cs (digitsVal cs)).mpr ⟨a, b, rfl, by subst c; kind_norm; omega⟩
    rw [this]; simp [c]

theorem not_digit_sign : isDigit '-' = false ∧ isDigit '+' = false := by decide

theorem stringToInt64_iff (cs : List Char) (v cur : Int) :
    stringToInt64 cs cur = ⟨v, false⟩ ↔ Spells true cs v ∧ Kind.int64.InRange v := by
  have key : ∀ (neg : Bool) (body : List Char),
      ((let (un, st) := parseUint64 body
        (if st = .syntaxErr then ((0, .syntaxErr) : Int × PStatus)
         else if ¬ neg ∧ un ≥ 9223372036854775808 then (9223372036854775807, .rangeErr)
         else if neg ∧ un > 9223372036854775808 then (-9223372036854775808, .rangeErr)
         else (if neg then -(un : Int) else un, .ok))) = (v, .ok)) ↔
      (body ≠ [] ∧ (∀ c ∈ body, isDigit c = true) ∧
        v = (if neg then -(digitsVal body : Int) else digitsVal body) ∧ Kind.int64.InRange v) := by
    intro neg body
    rcases hb : parseUint64 body with ⟨un, st⟩
    cases st with
    | ok =>
      obtain ⟨h1, h2, h3, h4⟩ := (parseUint64_ok _ _).mp hb
      subst h3
      simp only [reduceCtorEq, if_false]
      cases neg <;> simp [h1, Kind.InRange, Kind.minV, Kind.maxV, Kind.signed, Kind.bits] <;>
        (split <;> simp <;> grind)
    | syntaxErr =>
      simp only [if_true, Prod.mk.injEq, reduceCtorEq, and_false, false_iff]
      rintro ⟨h1, h2, -⟩
      have := parseUintLoop_syntax body 0 h2
      unfold parseUint64 at hb
      rw [if_neg h1] at hb
      rw [hb] at this; simp at this
    | rangeErr =>
      have := parseUint64_range _ _ hb
      subst this
      simp only [reduceCtorEq, if_false]
      have : ¬ (body ≠ [] ∧ (∀ c ∈ body, isDigit c = true) ∧ digitsVal body ≤ 18446744073709551615) := by
        rintro ⟨a, b, c⟩
        have := (parseUint64_ok body _).mpr ⟨a, b, rfl, c⟩
        rw [hb] at this; simp at this
      cases neg <;> simp [Kind.InRange, Kind.minV, Kind.maxV, Kind.signed, Kind.bits] <;> grind
  have hh : stringToInt64 cs cur = ⟨v, false⟩ ↔ parseInt64 cs = (v, .ok) := by
    unfold stringToInt64
    simp [Prod.ext_iff]
  rw [hh]
  unfold parseInt64
  rw [key]
  have hd := not_digit_sign
  constructor
  · rintro ⟨h1, h2, h3, h4⟩
    refine ⟨?_, h4⟩
    cases cs with
    | nil => simp at h1
    | cons c cs =>
      by_cases hm : c = '-'
      · subst hm
        simp at h1 h2 h3
        exact ⟨cs, h1, h2, .inr (.inr ⟨rfl, rfl, h3⟩)⟩
      · by_cases hp : c = '+'
        · subst hp
          simp at h1 h2 h3
          exact ⟨cs, h1, h2, .inr (.inl ⟨rfl, rfl, h3⟩)⟩
        · simp [hm, hp] at h1 h2 h3
          exact ⟨c :: cs, by simp, by simpa using h2, .inl ⟨rfl, h3⟩⟩
  · rintro ⟨⟨ds, h1, h2, (⟨rfl, h4⟩ | ⟨-, rfl, h4⟩ | ⟨-, rfl, h4⟩)⟩, hr⟩
    · cases cs with
      | nil => simp at h1
      | cons c cs =>
        have hc := h2 c (by simp)
        have hm : c ≠ '-' := by rintro rfl; simp [hd] at hc
        have hp : c ≠ '+' := by rintro rfl; simp [hd] at hc
        simp [hm, hp]
        exact ⟨by simpa using h2, h4, hr⟩
    · simp; exact ⟨h1, h2, h4, hr⟩
    · simp; exact ⟨h1, h2, h4, hr⟩

end Micro.Conv
