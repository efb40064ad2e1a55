import Verif.Iter.WrapModel
import Verif.Iter.Lemmas
import Verif.Iter.Props
import Verif.Funcs.SliceLemmas
set_option linter.unusedSimpArgs false
/-
Lemmas for the remaining constructors of package iter.
-/
namespace Micro.Iter
open Micro

theorem char_of_valid (n : Nat) (h : n < 0xD800 ∨ (0xDFFF < n ∧ n < 0x110000)) : ∃ c : Char, c.toNat = n := by
  have hv : n.isValidChar := by rcases h with h | h; exact .inl h; exact .inr h
  refine ⟨Char.ofNat n, ?_⟩
  rw [Char.ofNat, dif_pos hv]
  rfl

theorem char_valid (c : Char) : c.toNat < 0xD800 ∨ (0xDFFF < c.toNat ∧ c.toNat < 0x110000) := by
  have := c.valid
  simp only [UInt32.isValidChar, Nat.isValidChar] at this
  exact this

/-- Decoding the encoding of a character gives it back. -/
theorem decode1_utf8 (c : Char) (rest : List Nat) : ∃ b tl, utf8 c = b :: tl ∧ decode1 b (tl ++ rest) = (c.toNat, tl.length) := by
  have hv := char_valid c
  unfold utf8
  generalize c.toNat = n at hv
  simp only
  by_cases h1 : n < 0x80
  · refine ⟨n, [], by simp [h1], ?_⟩
    simp [decode1, h1]
  by_cases h2 : n < 0x800
  · refine ⟨0xC0 + n / 64, [0x80 + n % 64], by simp [h1, h2], ?_⟩
    simp only [decode1, List.cons_append, List.nil_append]
    rw [if_neg (by omega), if_pos (by omega), if_pos (by omega)]
    simp only [List.length_singleton, Prod.mk.injEq, and_true]; omega
  by_cases h3 : n < 0x10000
  · refine ⟨0xE0 + n / 4096, [0x80 + n / 64 % 64, 0x80 + n % 64], by simp [h1, h2, h3], ?_⟩
    simp only [decode1, List.cons_append, List.nil_append]
    rw [if_neg (by omega), if_neg (by omega), if_pos (by omega), if_pos]
    · simp only [List.length_cons, List.length_nil, Prod.mk.injEq, and_true]; omega
    · refine ⟨?_, ?_, by omega, by omega⟩
      · split <;> omega
      · split <;> omega
  · refine ⟨0xF0 + n / 262144, [0x80 + n / 4096 % 64, 0x80 + n / 64 % 64, 0x80 + n % 64], by simp [h1, h2, h3], ?_⟩
    simp only [decode1, List.cons_append, List.nil_append]
    rw [if_neg (by omega), if_neg (by omega), if_neg (by omega), if_pos (by omega), if_pos]
    · simp only [List.length_cons, List.length_nil, Prod.mk.injEq, and_true]; omega
    · refine ⟨?_, ?_, by omega, by omega, by omega, by omega⟩
      · split <;> omega
      · split <;> omega

/-- What is decoded is U+FFFD for one byte, or a character whose encoding is there. -/
theorem decode1_cases (b : Nat) (rest : List Nat) :
    (decode1 b rest = (0xFFFD, 0) ∧ 0x80 ≤ b) ∨ ∃ (c : Char) (tl rest' : List Nat), rest = tl ++ rest' ∧ utf8 c = b :: tl ∧ decode1 b rest = (c.toNat, tl.length) := by
  have found : ∀ (n : Nat) (tl rest' : List Nat), (n < 0xD800 ∨ (0xDFFF < n ∧ n < 0x110000)) → rest = tl ++ rest' → 
      (∀ c : Char, c.toNat = n → utf8 c = b :: tl) → 
      ∃ (c : Char) (tl rest' : List Nat), rest = tl ++ rest' ∧ utf8 c = b :: tl ∧ decode1 b rest = (c.toNat, tl.length) := by
    intro n tl rest' hn hr hc
    obtain ⟨c, hcn⟩ := char_of_valid n hn
    have hu := hc c hcn
    refine ⟨c, tl, rest', hr, hu, ?_⟩
    obtain ⟨b', tl', h1, h2⟩ := decode1_utf8 c rest'
    rw [hu] at h1
    cases h1
    rw [hr]; exact h2
  by_cases h0 : b < 0x80
  · right
    refine found b [] rest (by omega) rfl ?_
    intro c hc; simp [utf8, hc, h0]
  by_cases h1 : 0xC2 ≤ b ∧ b ≤ 0xDF
  · cases rest with
    | nil => left; simp [decode1, h0, h1]; omega
    | cons x t =>
      by_cases hx : 0x80 ≤ x ∧ x ≤ 0xBF
      · right
        refine found ((b - 0xC0) * 64 + (x - 0x80)) [x] t (by omega) rfl ?_
        intro c hc
        simp only [utf8, hc]
        rw [if_neg (by omega), if_pos (by omega)]
        simp only [List.cons.injEq, and_true]
        exact ⟨by omega, by omega⟩
      · left; simp [decode1, h0, h1, hx]; omega
  by_cases h2 : 0xE0 ≤ b ∧ b ≤ 0xEF
  · match rest with
    | [] => left; simp [decode1, h0, h1, h2]; omega
    | [x] => left; simp [decode1, h0, h1, h2]; omega
    | x :: y :: t =>
      by_cases hx : (if b = 0xE0 then 0xA0 else 0x80) ≤ x ∧ x ≤ (if b = 0xED then 0x9F else 0xBF) ∧ 0x80 ≤ y ∧ y ≤ 0xBF
      · right
        obtain ⟨k1, k2, k3, k4⟩ := hx
        have k5 : 0x80 ≤ x ∧ x ≤ 0xBF ∧ (b = 0xE0 → 0xA0 ≤ x) ∧ (b = 0xED → x ≤ 0x9F) := by
          refine ⟨?_, ?_, fun h => by simpa [h] using k1, fun h => by simpa [h] using k2⟩
          · split at k1 <;> omega
          · split at k2 <;> omega
        clear k1 k2
        refine found ((b - 0xE0) * 4096 + (x - 0x80) * 64 + (y - 0x80)) [x, y] t (by omega) rfl ?_
        intro c hc
        simp only [utf8, hc]
        rw [if_neg (by omega), if_neg (by omega), if_pos (by omega)]
        simp only [List.cons.injEq, and_true]
        exact ⟨by omega, by omega, by omega⟩
      · left
        simp only [decode1]
        rw [if_neg h0, if_neg h1, if_pos h2, if_neg hx]
        exact ⟨rfl, by omega⟩
  by_cases h3 : 0xF0 ≤ b ∧ b ≤ 0xF4
  · match rest with
    | [] => left; simp [decode1, h0, h1, h2, h3]; omega
    | [x] => left; simp [decode1, h0, h1, h2, h3]; omega
    | [x, y] => left; simp [decode1, h0, h1, h2, h3]; omega
    | x :: y :: z :: t =>
      by_cases hx : (if b = 0xF0 then 0x90 else 0x80) ≤ x ∧ x ≤ (if b = 0xF4 then 0x8F else 0xBF) ∧ 0x80 ≤ y ∧ y ≤ 0xBF ∧ 0x80 ≤ z ∧ z ≤ 0xBF
      · right
        obtain ⟨k1, k2, k3, k4, k6, k7⟩ := hx
        have k5 : 0x80 ≤ x ∧ x ≤ 0xBF ∧ (b = 0xF0 → 0x90 ≤ x) ∧ (b = 0xF4 → x ≤ 0x8F) := by
          refine ⟨?_, ?_, fun h => by simpa [h] using k1, fun h => by simpa [h] using k2⟩
          · split at k1 <;> omega
          · split at k2 <;> omega
        clear k1 k2
        refine found ((b - 0xF0) * 262144 + (x - 0x80) * 4096 + (y - 0x80) * 64 + (z - 0x80)) [x, y, z] t (by omega) rfl ?_
        intro c hc
        simp only [utf8, hc]
        rw [if_neg (by omega), if_neg (by omega), if_neg (by omega)]
        simp only [List.cons.injEq, and_true]
        exact ⟨by omega, by omega, by omega, by omega⟩
      · left
        simp only [decode1]
        rw [if_neg h0, if_neg h1, if_neg h2, if_pos h3, if_neg hx]
        exact ⟨rfl, by omega⟩
  · left
    simp only [decode1]
    rw [if_neg h0, if_neg h1, if_neg h2, if_neg h3]
    exact ⟨rfl, by omega⟩

theorem goRunes_utf8 (c : Char) (rest : List Nat) : goRunes (utf8 c ++ rest) = c.toNat :: goRunes rest := by
  obtain ⟨b, tl, h1, h2⟩ := decode1_utf8 c rest
  rw [h1, List.cons_append, goRunes, h2]
  simp

theorem goRunes_valid (cs : List Char) : goRunes (cs.flatMap utf8) = cs.map Char.toNat := by
  induction cs with
  | nil => simp [goRunes]
  | cons c cs ih => simp [goRunes_utf8, ih]

theorem goRunes_bad (b : Nat) (rest : List Nat) (h : decode1 b rest = (0xFFFD, 0)) : goRunes (b :: rest) = 0xFFFD :: goRunes rest := by
  rw [goRunes, h]; simp

theorem utf8_pos (c : Char) : utf8 c ≠ [] := by
  obtain ⟨b, tl, h, -⟩ := decode1_utf8 c []
  simp [h]

/-- A continuation byte is not decoded to anything but U+FFFD. -/
theorem goRunes_cont (b : Nat) (rest : List Nat) (h1 : 0x80 ≤ b) (h2 : b < 0xC0) : goRunes (b :: rest) = 0xFFFD :: goRunes rest := by
  apply goRunes_bad
  simp only [decode1]
  rw [if_neg (by omega), if_neg (by omega), if_neg (by omega), if_neg (by omega)]

/-- The tail of a generalised sequence consists of continuation bytes. -/
theorem genUtf8_shape {seq : List Nat} {r : Nat} (h : GenUtf8 seq r) : ∃ b tl, seq = b :: tl ∧ (∀ x ∈ tl, 0x80 ≤ x ∧ x < 0xC0) ∧
    (b < 0x80 ∧ tl.length = 0 ∨ 0xC0 ≤ b ∧ b < 0xE0 ∧ tl.length = 1 ∨ 0xE0 ≤ b ∧ b < 0xF0 ∧ tl.length = 2 ∨ 0xF0 ≤ b ∧ b < 0xF8 ∧ tl.length = 3) := by
  cases h with
  | one => exact ⟨_, [], rfl, by simp, by simp; omega⟩
  | two => exact ⟨_, _, rfl, by simp; omega, by simp; omega⟩
  | three => exact ⟨_, _, rfl, by simp; omega, by simp; omega⟩
  | four => exact ⟨_, _, rfl, by simp; omega, by simp; omega⟩

theorem genUtf8_fun {seq : List Nat} {r r' : Nat} (h : GenUtf8 seq r) (h' : GenUtf8 seq r') : r = r' := by
  generalize hs : seq = seq' at h'
  cases h <;> cases h' <;> simp only [List.cons.injEq, reduceCtorEq, and_false, and_true] at hs <;> omega

theorem goRunes_conts (tl rest : List Nat) (h : ∀ x ∈ tl, 0x80 ≤ x ∧ x < 0xC0) : goRunes (tl ++ rest) = List.replicate tl.length 0xFFFD ++ goRunes rest := by
  induction tl with
  | nil => simp
  | cons x tl ih =>
    have hx := h x (by simp)
    rw [List.cons_append, goRunes_cont x _ hx.1 hx.2, ih (fun y hy => h y (by simp [hy]))]
    simp [List.replicate_succ]

/-- The lead byte of a sequence tells its length. -/
theorem utf8_len {c : Char} {b : Nat} {tl : List Nat} (h : utf8 c = b :: tl) :
    (b < 0x80 ∧ tl.length = 0 ∨ 0xC0 ≤ b ∧ b < 0xE0 ∧ tl.length = 1 ∨ 0xE0 ≤ b ∧ b < 0xF0 ∧ tl.length = 2 ∨ 0xF0 ≤ b ∧ b < 0xF8 ∧ tl.length = 3) := by
  obtain ⟨b', tl', h1, -, h3⟩ := genUtf8_shape (utf8_gen c)
  rw [h] at h1
  cases h1
  exact h3

/-- One generalised sequence: Go decodes it to one rune, the same, if it is the encoding of a character; and otherwise to U+FFFD for each byte. -/
theorem goRunes_gen {seq : List Nat} {r : Nat} (h : GenUtf8 seq r) (rest : List Nat) :
    (∃ c : Char, seq = utf8 c ∧ r = c.toNat ∧ goRunes (seq ++ rest) = r :: goRunes rest) ∨
    ((∀ c : Char, seq ≠ utf8 c) ∧ 2 ≤ seq.length ∧ goRunes (seq ++ rest) = List.replicate seq.length 0xFFFD ++ goRunes rest) := by
  obtain ⟨b, tl, rfl, h2, h3⟩ := genUtf8_shape h
  rcases decode1_cases b (tl ++ rest) with ⟨hd, hb⟩ | ⟨c, tl', rest', e1, e2, e3⟩
  · right
    have hl : 1 ≤ tl.length := by omega
    refine ⟨?_, by simp; omega, ?_⟩
    · intro c hc
      obtain ⟨b', tl', k1, k2⟩ := decode1_utf8 c rest
      rw [← hc] at k1
      cases k1
      rw [hd] at k2
      have : tl.length = 0 := (congrArg Prod.snd k2).symm
      omega
    · rw [List.cons_append, goRunes_bad b _ hd, goRunes_conts tl rest h2]
      simp [List.replicate_succ]
  · left
    have h4 := utf8_len e2
    have hlen : tl.length = tl'.length := by omega
    obtain ⟨rfl, rfl⟩ := List.append_inj e1 hlen
    refine ⟨c, e2.symm, genUtf8_fun h (e2 ▸ utf8_gen c), ?_⟩
    have hr : r = c.toNat := genUtf8_fun h (e2 ▸ utf8_gen c)
    rw [← e2, goRunes_utf8, hr]

/-! ### CSV -/

/-- The whole of a slice is overwritten. -/
theorem elems_write_whole (m : Funcs.SMem String) (s : Funcs.Slc) (hs : m.Ok s) (vs : List String) (h : vs.length = s.len) :
    (m.write s.arr s.off vs).elems s = vs := by
  have h1 := Funcs.elems_write_own m s hs 0 vs (by omega)
  rw [Nat.add_zero] at h1
  rw [h1]
  have h2 := Funcs.elems_length hs
  simp [Funcs.writeAt, List.drop_eq_nil_of_le (show (m.elems s).length ≤ vs.length by omega)]

theorem read_spec (fc : Err) (r : CsvReader) (hr : r.mem.Ok r.last) (fields : List String) (err : Option Err) (rows : List (List String × Option Err))
    (h : r.rows = (fields, err) :: rows) :
    ∃ s m, r.read fc = ((some s, if 0 < r.perRecord ∧ fields.length ≠ r.perRecord ∧ err = none then some fc else err),
        ⟨rows, if r.perRecord = 0 then fields.length else r.perRecord, m, s⟩) ∧
      m.Ok s ∧ m.elems s = fields ∧ s.len = fields.length ∧ s.len ≤ s.cap ∧ (fields.length ≤ r.last.cap → s = { r.last with len := fields.length }) := by
  unfold CsvReader.read
  rw [h]
  simp only
  by_cases hc : fields.length ≤ r.last.cap
  · rw [if_pos hc]
    have hok : r.mem.Ok { r.last with len := fields.length } := ⟨hr.arr, hc, hr.cap⟩
    refine ⟨{ r.last with len := fields.length }, r.mem.write r.last.arr r.last.off fields, rfl, ?_, ?_, rfl, hc, fun _ => rfl⟩
    · have := hr.cap
      exact Funcs.ok_write hok _ _ _ (by omega)
    · exact elems_write_whole r.mem _ hok fields rfl
  · rw [if_neg hc]
    obtain ⟨k1, k2, k3, k4, k5, k6, -⟩ := Funcs.make_spec "" r.mem fields.length fields.length (Nat.le_refl _)
    generalize r.mem.make "" fields.length fields.length = p at k1 k2 k3 k4 k5 k6
    obtain ⟨m, s⟩ := p
    simp only at k1 k2 k3 k4 k5 k6 ⊢
    have := k1.cap; have := k1.len
    refine ⟨s, m.write s.arr s.off fields, rfl, Funcs.ok_write k1 _ _ _ (by omega), elems_write_whole m s k1 fields k4.symm, k4, by omega, fun h => absurd h hc⟩

end Micro.Iter
