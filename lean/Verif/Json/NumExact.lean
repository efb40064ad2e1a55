import Verif.Json.NumLemmas
set_option linter.unusedSimpArgs false
namespace Micro.Json
open Micro Micro.Iter

theorem expPart_of {s x rest : List Char} (hx : IsExp x) (hd : NoDigit rest)
    (he : x = [] → ∀ c, rest.head? = some c → c ≠ 'e' ∧ c ≠ 'E') : ExpPart x rest := by
  rcases hx with rfl | ⟨e, sign, ds, h1, h2, h3, h4, rfl⟩
  · exact .inl ⟨rfl, fun c hc => ⟨hd c hc, he rfl c hc⟩⟩
  · exact .inr ⟨e, sign ++ ds, h1, by simp, ⟨sign, ds, h2, h3, h4, rfl⟩, hd⟩

theorem fracPart_split {y rest : List Char} (h : FracPart y rest) :
    ∃ f x, IsFrac f ∧ IsExp x ∧ y = f ++ x ∧ NoDigit rest ∧
      (f = [] → x = [] → NoFracStart rest) ∧ (x = [] → NoExpStart rest) := by
  rcases h with ⟨rfl, h⟩ | ⟨e, x', he, rfl, ⟨sign, ds, h1, h2, h3, rfl⟩, h⟩ | ⟨ds, x, h1, h2, rfl, h⟩
  · exact ⟨[], [], .inl rfl, .inl rfl, rfl, fun c hc => (h c hc).1, fun _ _ => h,
      fun _ c hc => ⟨(h c hc).1, (h c hc).2.2⟩⟩
  · exact ⟨[], e :: (sign ++ ds), .inl rfl, .inr ⟨e, sign, ds, he, h1, h2, h3, by simp⟩, by simp, h, by simp, by simp⟩
  · have := expPart_isExp h
    refine ⟨'.' :: ds, x, .inr ⟨ds, h1, h2, rfl⟩, this.1, by simp, this.2, by simp, ?_⟩
    rintro rfl
    rcases h with ⟨_, h⟩ | ⟨e, x', _, h, _⟩
    · exact h
    · cases h

theorem isExp_mem {x : List Char} (h : IsExp x) (hx : x ≠ []) : 'e' ∈ x ∨ 'E' ∈ x := by
  rcases h with rfl | ⟨e, sign, ds, h1, _, _, _, rfl⟩
  · exact absurd rfl hx
  · rcases h1 with rfl | rfl <;> simp

theorem allDigits_not_mem {ds : List Char} (h : AllDigits ds) {c : Char} (hc : isDigit c = false) : c ∉ ds := by
  intro hm
  rw [h c hm] at hc; cases hc

/-- The number lexer accepts exactly NumLit code, up to where the number cannot be continued. -/
theorem lexNumber_iff (fin : Err) (c : Char) (hc : c = '-' ∨ isDigit c = true) (t : List Char) (tok : Tok) (rest : List Char) :
    lexNumber fin c t = .ok (tok, rest) ↔
      ∃ s, tok = .num s ∧ c :: t = s ++ rest ∧ NumLit code s ∧ NumStop s rest ∧ EndOk fin rest := by
  have key : lexNumber fin c t = .ok (tok, rest) ↔
      ∃ s, tok = .num s ∧ numInt fin [c] (decide (c ≠ '-')) (decide (c = '0')) t = .ok (s, rest) := by
    unfold lexNumber
    cases hn : numInt fin [c] (decide (c ≠ '-')) (decide (c = '0')) t with
    | error e => simp
    | ok r =>
      obtain ⟨s, r⟩ := r
      simp only [Except.ok.injEq, Prod.mk.injEq]
      constructor
      · rintro ⟨rfl, rfl⟩; exact ⟨s, rfl, rfl, rfl⟩
      · rintro ⟨_, rfl, rfl, rfl⟩; exact ⟨rfl, rfl⟩
  rw [key]
  have hlz : (decide (c = '0')) = true → (decide (c ≠ '-')) = true := by
    intro h; simp at h; subst h; decide
  constructor
  · rintro ⟨s, rfl, h⟩
    rw [numInt_iff _ _ _ _ _ _ _ hlz] at h
    obtain ⟨ds, y, h1, h2, h3, h4, h5, h6, h7⟩ := h
    obtain ⟨f, x, g1, g2, rfl, g3, g4, g5⟩ := fracPart_split h6
    refine ⟨s, rfl, by rw [h1, h2]; simp, ?_, ?_, h7⟩
    · by_cases hm : c = '-'
      · subst hm
        refine ⟨true, ds, f, x, ⟨by simpa using h4, h3, fun _ => .inr ⟨rfl, rfl⟩⟩, g1, g2, by rw [h1]; simp⟩
      · have hcd : isDigit c = true := by rcases hc with h | h; exact absurd h hm; exact h
        refine ⟨false, c :: ds, f, x, ⟨by simp, allDigits_cons.mpr ⟨hcd, h3⟩, ?_⟩, g1, g2, by rw [h1]; simp⟩
        intro h0
        simp at h0
        subst h0
        left
        rw [h5 (by simp)]
    · intro d hd
      have hmem : ∀ z, z ∈ f ++ x → z ∈ s := by intro z hz; rw [h1]; simp at hz ⊢; right; right; exact hz
      refine ⟨g3 d hd, ?_, ?_⟩
      · intro hdd
        by_cases hx : x = []
        · by_cases hf : f = []
          · exact absurd hdd (g4 hf hx d hd).2.1
          · left
            apply hmem
            rcases g1 with g | ⟨ds', _, _, rfl⟩
            · exact absurd g hf
            · simp
        · right
          rcases isExp_mem g2 hx with h | h
          · exact .inl (hmem _ (by simp [h]))
          · exact .inr (hmem _ (by simp [h]))
      · intro hdd
        by_cases hx : x = []
        · have := g5 hx d hd
          rcases hdd with h | h
          · exact absurd h this.2.1
          · exact absurd h this.2.2
        · rcases isExp_mem g2 hx with h | h
          · exact .inl (hmem _ (by simp [h]))
          · exact .inr (hmem _ (by simp [h]))
  · rintro ⟨s, rfl, h1, ⟨neg, int, f, x, ⟨i1, i2, i3⟩, hf, hx, h2⟩, h3, h4⟩
    refine ⟨s, rfl, ?_⟩
    rw [numInt_iff _ _ _ _ _ _ _ hlz]
    have hnd : NoDigit rest := fun d hd => (h3 d hd).1
    have hno : ∀ d, isDigit d = false → d ≠ '-' → d ∈ s → d ∈ f ++ x := by
      intro d hd hm hs
      rw [h2] at hs
      simp only [List.append_assoc, List.mem_append] at hs
      rcases hs with hs | hs | hs
      · cases neg
        · simp at hs
        · simp at hs; exact absurd hs hm
      · exact absurd hs (allDigits_not_mem i2 hd)
      · simpa using hs
    have hfe : ∀ d, isDigit d = false → d ≠ '.' → d ∉ f := by
      intro d hd hdot hm
      rcases hf with rfl | ⟨ds, _, hall, rfl⟩
      · cases hm
      · simp at hm
        rcases hm with h | h
        · exact hdot h
        · exact allDigits_not_mem hall hd h
    have hes : x = [] → ∀ d, rest.head? = some d → d ≠ 'e' ∧ d ≠ 'E' := by
      rintro rfl d hd
      have he : 'e' ∉ s := fun h => by
        have := hno 'e' (by decide) (by decide) h
        simp at this
        exact hfe 'e' (by decide) (by decide) this
      have hE : 'E' ∉ s := fun h => by
        have := hno 'E' (by decide) (by decide) h
        simp at this
        exact hfe 'E' (by decide) (by decide) this
      have := (h3 d hd).2.2
      constructor
      · intro h; rcases this (.inl h) with h | h
        · exact he h
        · exact hE h
      · intro h; rcases this (.inr h) with h | h
        · exact he h
        · exact hE h
    have hexp : ExpPart x rest := expPart_of (s := s) hx hnd hes
    have hfrac : FracPart (f ++ x) rest := by
      rcases hf with rfl | ⟨ds, d1, d2, rfl⟩
      · rcases hexp with ⟨rfl, h⟩ | ⟨e, x', he, rfl, h, h'⟩
        · refine .inl ⟨rfl, fun d hd => ⟨hnd d hd, ?_, h d hd |>.2⟩⟩
          intro hdot
          rcases (h3 d hd).2.1 hdot with h' | h' | h'
          · simpa using hno '.' (by decide) (by decide) h'
          · simpa using hno 'e' (by decide) (by decide) h'
          · simpa using hno 'E' (by decide) (by decide) h'
        · exact .inr (.inl ⟨e, x', he, rfl, h, h'⟩)
      · exact .inr (.inr ⟨ds, x, d1, d2, by simp, hexp⟩)
    cases neg with
    | true =>
      simp only [if_true, List.cons_append, List.nil_append] at h2
      rw [h2] at h1
      simp only [List.cons_append, List.cons.injEq] at h1
      obtain ⟨rfl, rfl⟩ := h1
      exact ⟨int, f ++ x, by rw [h2]; simp, by simp, i2, .inr i1, by simp, hfrac, h4⟩
    | false =>
      cases int with
      | nil => exact absurd rfl i1
      | cons d ds =>
        simp only [List.nil_append, List.cons_append, Bool.false_eq_true, if_false] at h2
        rw [h2] at h1
        simp only [List.cons_append, List.cons.injEq] at h1
        obtain ⟨rfl, rfl⟩ := h1
        have hcd := (allDigits_cons.mp i2).1
        have hm : c ≠ '-' := by rintro rfl; rw [not_digit_minus] at hcd; cases hcd
        refine ⟨ds, f ++ x, by rw [h2]; simp, by simp, (allDigits_cons.mp i2).2, .inl (by simpa using hm), ?_, hfrac, h4⟩
        intro h0
        simp at h0
        subst h0
        rcases i3 rfl with h | ⟨_, h⟩
        · simpa using h
        · cases h

/-- A number starts with a minus sign or a digit. -/
theorem numLit_head {m : Mode} {s : List Char} (h : NumLit m s) :
    ∃ c t, s = c :: t ∧ (c = '-' ∨ isDigit c = true) := by
  obtain ⟨neg, int, f, x, ⟨i1, i2, _⟩, _, _, rfl⟩ := h
  cases neg with
  | true => exact ⟨'-', int ++ f ++ x, by simp, .inl rfl⟩
  | false =>
    cases int with
    | nil => exact absurd rfl i1
    | cons d ds => exact ⟨d, ds ++ f ++ x, by simp, .inr (allDigits_cons.mp i2).1⟩

theorem numLit_mono {m m' : Mode} (h : m.minusZero = true → m'.minusZero = true) {s : List Char} (hs : NumLit m s) : NumLit m' s := by
  obtain ⟨neg, int, f, x, ⟨i1, i2, i3⟩, hf, hx, rfl⟩ := hs
  refine ⟨neg, int, f, x, ⟨i1, i2, fun h0 => ?_⟩, hf, hx, rfl⟩
  rcases i3 h0 with h' | ⟨h1, h2⟩
  · exact .inl h'
  · exact .inr ⟨h h1, h2⟩

end Micro.Json
