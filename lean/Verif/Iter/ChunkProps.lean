import Verif.Iter.ReaderProps
set_option linter.unusedSimpArgs false
/-
C29: readers that return fewer bytes than asked for.
-/
namespace Micro.Iter
open Micro

/-! ### Specification -/

/-- A reader over a byte slice that returns, in its i-th Read, at most `lim i` bytes, as io.Reader permits; EOF comes alone. -/
def chunkReader (lim : Nat → Nat) : Reader (List Nat × Nat) := fun s n =>
  if s.1 = [] then ([], some .eof, s.1, s.2 + 1) else (s.1.take (min n (lim s.2)), none, s.1.drop (min n (lim s.2)), s.2 + 1)

/-- For every character of more than one byte the Read after that of its first byte - the i-th is the next one - may return all its other bytes. -/
def InFull (lim : Nat → Nat) : Nat → List Char → Prop
  | _, [] => True
  | i, c :: cs => if (utf8 c).length = 1 then InFull lim (i + 1) cs else (utf8 c).length - 1 ≤ lim (i + 1) ∧ InFull lim (i + 2) cs

/-! ### Lemmas -/

theorem rune_one {ρ : Type} (rd : Reader ρ) (s s1 : ρ) (b r : Nat) (e : Err) (h : GenUtf8 [b] r) (h1 : rd s 1 = ([b], none, s1)) :
    runeCall rd ⟨false, e, s⟩ = some (.ok r, ⟨false, .eoi, s1⟩) := by
  cases h with
  | one h => simp [runeCall, h1, h]

theorem rune_more {ρ : Type} (rd : Reader ρ) (s s1 s2 : ρ) (b c : Nat) (t : List Nat) (r : Nat) (e : Err) (h : GenUtf8 (b :: c :: t) r)
    (h1 : rd s 1 = ([b], none, s1)) (h2 : rd s1 (c :: t).length = (c :: t, none, s2)) :
    runeCall rd ⟨false, e, s⟩ = some (.ok r, ⟨false, .eoi, s2⟩) := by
  cases h with
  | @two a b ha hb =>
    have k1 : ¬ (192 + a < 128) := by omega
    have k2 : extraBytes (192 + a) = 1 := by unfold extraBytes; rw [if_pos (by omega)]
    have k3 : (192 + a) % 32 = a := by omega
    have k4 : (128 + b) % 64 = b := by omega
    have k6 : ¬ (192 ≤ 128 + b) := by omega
    simp at h2
    simp [runeCall, h1, h2, k1, k2, k3, k4, k6]
  | @three a b c ha hb hc =>
    have k1 : ¬ (224 + a < 128) := by omega
    have k2 : extraBytes (224 + a) = 2 := by
      unfold extraBytes; rw [if_neg (by omega), if_pos (by omega)]
    have k3 : (224 + a) % 16 = a := by omega
    have k4 : (128 + b) % 64 = b := by omega
    have k6 : ¬ (192 ≤ 128 + b) := by omega
    have k7 : (128 + c) % 64 = c := by omega
    have k8 : ¬ (192 ≤ 128 + c) := by omega
    simp at h2
    simp [runeCall, h1, h2, k1, k2, k3, k4, k6, k7, k8]
  | @four a b c d ha hb hc hd hm =>
    have k1 : ¬ (240 + a < 128) := by omega
    have k2 : extraBytes (240 + a) = 3 := by
      unfold extraBytes; rw [if_neg (by omega), if_neg (by omega), if_pos (by omega)]
    have k3 : (240 + a) % 8 = a := by omega
    have k4 : (128 + b) % 64 = b := by omega
    have k6 : ¬ (192 ≤ 128 + b) := by omega
    have k7 : (128 + c) % 64 = c := by omega
    have k8 : ¬ (192 ≤ 128 + c) := by omega
    have k9 : (128 + d) % 64 = d := by omega
    have k10 : ¬ (192 ≤ 128 + d) := by omega
    have k11 : ¬ (1114111 < a * 262144 + b * 4096 + c * 64 + d) := by omega
    simp at h2
    simp [runeCall, h1, h2, k1, k2, k3, k4, k6, k7, k8, k9, k10, k11]

theorem rune_short {ρ : Type} (rd : Reader ρ) (s s1 s2 : ρ) (b c : Nat) (t u : List Nat) (r : Nat) (e : Err) (h : GenUtf8 (b :: c :: t) r)
    (h1 : rd s 1 = ([b], none, s1)) (h2 : rd s1 (c :: t).length = (u, none, s2)) (hu : u.length ≠ (c :: t).length) :
    runeCall rd ⟨false, e, s⟩ = some (.error .invalidUTF8, ⟨false, .invalidUTF8, s2⟩) := by
  cases h with
  | @two a b ha hb =>
    have k1 : ¬ (192 + a < 128) := by omega
    have k2 : extraBytes (192 + a) = 1 := by unfold extraBytes; rw [if_pos (by omega)]
    simp at h2 hu
    simp [runeCall, h1, h2, k1, k2, hu]
  | @three a b c ha hb hc =>
    have k1 : ¬ (224 + a < 128) := by omega
    have k2 : extraBytes (224 + a) = 2 := by
      unfold extraBytes; rw [if_neg (by omega), if_pos (by omega)]
    simp at h2 hu
    simp [runeCall, h1, h2, k1, k2, hu]
  | @four a b c d ha hb hc hd hm =>
    have k1 : ¬ (240 + a < 128) := by omega
    have k2 : extraBytes (240 + a) = 3 := by
      unfold extraBytes; rw [if_neg (by omega), if_neg (by omega), if_pos (by omega)]
    simp at h2 hu
    simp [runeCall, h1, h2, k1, k2, hu]

theorem chunk_first (lim : Nat → Nat) (hl : ∀ i, 1 ≤ lim i) (b : Nat) (t : List Nat) (i : Nat) :
    chunkReader lim (b :: t, i) 1 = ([b], none, t, i + 1) := by
  have : min 1 (lim i) = 1 := by have := hl i; omega
  simp [chunkReader, this]

theorem chunk_rest (lim : Nat → Nat) (c : Nat) (t rest : List Nat) (i : Nat) :
    chunkReader lim (c :: t ++ rest, i) (c :: t).length =
      ((c :: t).take (lim i), none, (c :: t ++ rest).drop (min (c :: t).length (lim i)), i + 1) := by
  have h : (c :: t ++ rest).take (min (c :: t).length (lim i)) = (c :: t).take (lim i) := by
    rw [List.take_append_of_le_length (Nat.min_le_left _ _)]
    rcases Nat.le_total (c :: t).length (lim i) with h | h
    · rw [Nat.min_eq_left h, List.take_length, List.take_of_length_le h]
    · rw [Nat.min_eq_right h]
  unfold chunkReader
  rw [if_neg (by simp)]
  simp only []
  rw [h]

theorem chunk_yields (lim : Nat → Nat) (hl : ∀ i, 1 ≤ lim i) (cs : List Char) : ∀ (i : Nat) (e : Err),
    (InFull lim i cs → Yields (runeCall (chunkReader lim)) ⟨false, e, cs.flatMap utf8, i⟩ (cs.map Char.toNat) .eoi) ∧
    (¬ InFull lim i cs → ∃ pre c post, cs = pre ++ c :: post ∧ 1 < (utf8 c).length ∧
      Yields (runeCall (chunkReader lim)) ⟨false, e, cs.flatMap utf8, i⟩ (pre.map Char.toNat) .invalidUTF8) := by
  induction cs with
  | nil =>
    intro i e
    refine ⟨fun _ => .stop (s' := ⟨true, .eoi, [], i + 1⟩) (by simp [runeCall, chunkReader]), fun h => absurd trivial h⟩
  | cons c cs ih =>
    intro i e
    have hg := utf8_gen c
    simp only [List.flatMap_cons, List.map_cons, InFull]
    generalize hseq : utf8 c = seq at *
    match seq, hseq, hg with
    | [b], hseq, hg =>
      have hstep := rune_one (chunkReader lim) (([b] ++ cs.flatMap utf8, i) : List Nat × Nat) (cs.flatMap utf8, i + 1) b c.toNat e hg
        (chunk_first lim hl b _ i)
      simp only [List.length_singleton, if_true]
      obtain ⟨h1, h2⟩ := ih (i + 1) .eoi
      refine ⟨fun h => .value hstep (h1 h), fun h => ?_⟩
      obtain ⟨pre, d, post, g1, g2, g3⟩ := h2 h
      exact ⟨c :: pre, d, post, by rw [g1]; rfl, g2, .value hstep g3⟩
    | b :: d :: t, hseq, hg =>
      have hlen : (b :: d :: t).length ≠ 1 := by simp
      simp only [hlen, if_false]
      have hf := chunk_first lim hl b (d :: t ++ cs.flatMap utf8) i
      have hr := chunk_rest lim d t (cs.flatMap utf8) (i + 1)
      by_cases hfull : (b :: d :: t).length - 1 ≤ lim (i + 1)
      · have hle : (d :: t).length ≤ lim (i + 1) := by simpa using hfull
        rw [List.take_of_length_le hle, Nat.min_eq_left hle, List.drop_left] at hr
        have hstep := rune_more (chunkReader lim) ((b :: d :: t ++ cs.flatMap utf8, i) : List Nat × Nat) _ _ b d t c.toNat e hg hf hr
        obtain ⟨h1, h2⟩ := ih (i + 1 + 1) .eoi
        refine ⟨fun h => .value hstep (h1 h.2), fun h => ?_⟩
        obtain ⟨pre, x, post, g1, g2, g3⟩ := h2 (fun h' => h ⟨hfull, h'⟩)
        exact ⟨c :: pre, x, post, by rw [g1]; rfl, g2, .value hstep g3⟩
      · have hlt : lim (i + 1) < (d :: t).length := by simp at hfull ⊢; omega
        have hstep := rune_short (chunkReader lim) ((b :: d :: t ++ cs.flatMap utf8, i) : List Nat × Nat) _ _ b d t _ c.toNat e hg hf hr
          (by rw [List.length_take]; omega)
        refine ⟨fun h => absurd h.1 hfull, fun _ => ⟨[], c, cs, rfl, by rw [hseq]; simp, .stop hstep⟩⟩

/-- C29, exactly, for readers that return fewer bytes than asked for: the text is decoded if and only if every character of more than one byte has all its bytes but the first
returned by a single Read. Otherwise the characters before the first for which this is not so are yielded, and then InvalidUTF8. -/
theorem c29_chunks_iff (lim : Nat → Nat) (hl : ∀ i, 1 ≤ lim i) (cs : List Char) :
    (InFull lim 0 cs ↔ YieldsForever (It.next (runeCall (chunkReader lim))) (ofIter ⟨false, .eoi, cs.flatMap utf8, 0⟩) (cs.map Char.toNat) .eoi) ∧
    (¬ InFull lim 0 cs → ∃ pre c post, cs = pre ++ c :: post ∧ 1 < (utf8 c).length ∧
      YieldsForever (It.next (runeCall (chunkReader lim))) (ofIter ⟨false, .eoi, cs.flatMap utf8, 0⟩) (pre.map Char.toNat) .invalidUTF8) := by
  obtain ⟨h1, h2⟩ := chunk_yields lim hl cs 0 .eoi
  refine ⟨⟨fun h => ofIter_forever (h1 h), fun h => ?_⟩, fun h => ?_⟩
  · by_contra hn
    obtain ⟨pre, c, post, g1, -, g3⟩ := h2 hn
    have g4 := ofIter_forever g3
    have := congrArg List.length (yieldsForever_unique h g4)
    rw [g1] at this
    simp at this
  · obtain ⟨pre, c, post, g1, g2, g3⟩ := h2 h
    exact ⟨pre, c, post, g1, g2, ofIter_forever g3⟩

/-- A reader of one byte at a time decodes ASCII and two byte characters, but no "€"; one that returns two bytes in every second Read does. -/
example : InFull (fun _ => 1) 0 ['a', 'é'] ∧ ¬ InFull (fun _ => 1) 0 ['€'] ∧ InFull (fun i => 1 + i % 2) 0 ['€', '€'] ∧ ∀ i : Nat, 1 ≤ 1 + i % 2 := by
  refine ⟨?_, ?_, ?_, fun i => by omega⟩ <;> simp [InFull, utf8]

end Micro.Iter
