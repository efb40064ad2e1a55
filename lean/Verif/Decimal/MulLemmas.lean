import Verif.Decimal.AddProps
set_option linter.unusedSimpArgs false
namespace Micro.Dec
open Micro

/-! ### Pieces of Mul -/

theorem mul_overflow_iff (a b : Nat) (ha : 0 < a) (ha' : a ≤ 999999999999999999) (hb' : b ≤ 999999999999999999) :
    (w ((a : Int) * b)).tdiv a = b ↔ a * b < 9223372036854775808 := by
  constructor
  · intro h
    by_contra hc
    push Not at hc
    have hr := (w_range ((a : Int) * b)).2
    set x := w ((a : Int) * b) with hx
    have hb : 0 < b := by
      rcases Nat.eq_zero_or_pos b with h0 | h0
      · subst h0; omega
      · exact h0
    have hx0 : 0 ≤ x := by
      by_contra hneg
      push Not at hneg
      have h1 : 0 ≤ (-x).tdiv a := Int.tdiv_nonneg (by omega) (by omega)
      rw [Int.neg_tdiv] at h1
      omega
    rw [Int.tdiv_eq_ediv_of_nonneg hx0] at h
    have h2 : x / a * a ≤ x := Int.ediv_mul_le x (by omega)
    rw [h] at h2
    have h3 : ((a * b : Nat) : Int) ≤ x := by push_cast; linarith [mul_comm (a : Int) b]
    omega
  · intro h
    have e : w ((a : Int) * b) = (a : Int) * b := by
      have : ((a * b : Nat) : Int) < 9223372036854775808 := by exact_mod_cast h
      push_cast at this
      have h0 : (0 : Int) ≤ (a : Int) * b := by positivity
      exact w_id (by omega) (by omega)
    rw [e, Int.mul_comm, Int.mul_tdiv_cancel _ (by omega)]

theorem mulStrip_spec (ds : List Char) (rs : Nat) (hd : ∀ c ∈ ds, isDigit c = true) :
    ∃ j, j ≤ rs ∧ mulStrip ds rs = (ds.drop j, rs - j) ∧ j ≤ ds.length ∧
      digitsVal ds.reverse = digitsVal (ds.drop j).reverse * 10 ^ j := by
  induction ds generalizing rs with
  | nil => exact ⟨0, by simp [mulStrip]⟩
  | cons c cs ih =>
    unfold mulStrip
    by_cases h : rs > 0 ∧ digitVal c = 0
    · rw [if_pos h]
      obtain ⟨j, h1, h2, h3, h4⟩ := ih (rs - 1) (fun c hc => hd c (by simp [hc]))
      refine ⟨j + 1, by omega, ?_, by simp; omega, ?_⟩
      · rw [h2, List.drop_succ_cons]; congr 1; omega
      · rw [List.reverse_cons, digitsVal_snoc, h.2, h4, List.drop_succ_cons, pow_succ]; ring
    · rw [if_neg h]
      exact ⟨0, by simp⟩

theorem mulRound_spec (ds : List Char) (carry rs : Nat) (hc : carry ≤ 1) :
    ∃ carry', carry' ≤ 1 ∧ mulRound ds carry rs = (ds.drop (ds.length - 18), carry', rs - (ds.length - 18)) ∧
      (ds.length ≤ 18 → carry' = carry) := by
  induction ds generalizing carry rs with
  | nil => exact ⟨carry, hc, by simp [mulRound], by simp⟩
  | cons c cs ih =>
    unfold mulRound
    by_cases h : (c :: cs).length > 18
    · rw [if_pos h]
      simp only [List.length_cons] at h
      obtain ⟨c', h1, h2, h3⟩ := ih (if digitVal c + carry ≥ 5 then 1 else 0) (rs - 1) (by split <;> omega)
      refine ⟨c', h1, ?_, by simp only [List.length_cons]; omega⟩
      rw [h2, List.length_cons]
      have e : cs.length + 1 - 18 = (cs.length - 18) + 1 := by omega
      rw [e, List.drop_succ_cons]
      congr 2; omega
    · rw [if_neg h]
      have e : (c :: cs).length - 18 = 0 := by omega
      rw [e]
      exact ⟨carry, hc, by simp, fun _ => rfl⟩

theorem mulScaleDown_spec (k n : Nat) (hn : n ≤ 9223372036854775806) :
    ∃ m : Nat, mulScaleDown k (n : Int) = (m : Int) ∧ m ≤ n ∧
      9 * (10 ^ k * m) ≤ 9 * n + 5 * (10 ^ k - 1) ∧ 9 * n ≤ 9 * (10 ^ k * m) + 5 * (10 ^ k - 1) ∧
      (k = 0 → m = n) := by
  induction k generalizing n with
  | zero => exact ⟨n, rfl, le_refl _, by simp, by simp, fun _ => rfl⟩
  | succ k ih =>
    have hd : (n : Int).tdiv 10 = ((n / 10 : Nat) : Int) := by
      rw [Int.tdiv_eq_ediv_of_nonneg (by omega)]; rfl
    have hm : (n : Int).tmod 10 = ((n % 10 : Nat) : Int) := by
      rw [Int.tmod_eq_emod_of_nonneg (by omega)]; rfl
    obtain ⟨n', hn', hb, hle⟩ : ∃ n' : Nat, (if (n : Int).tmod 10 ≥ 5 then w ((n : Int).tdiv 10 + 1) else (n : Int).tdiv 10) = n' ∧
        (10 * n' ≤ n + 5 ∧ n ≤ 10 * n' + 5) ∧ n' ≤ n := by
      rw [hd, hm]
      split
      · refine ⟨n / 10 + 1, ?_, by omega, by omega⟩
        rw [w_id (by omega) (by omega)]; rfl
      · exact ⟨n / 10, rfl, by omega, by omega⟩
    obtain ⟨m, h1, h2, h3, h4, _⟩ := ih n' (by omega)
    refine ⟨m, ?_, by omega, ?_, ?_, by simp⟩
    · rw [mulScaleDown, hn', h1]
    · have hp : 1 ≤ 10 ^ k := Nat.one_le_pow _ _ (by norm_num)
      have e : 10 ^ (k + 1) * m = 10 * (10 ^ k * m) := by rw [pow_succ]; ring
      rw [e, pow_succ]
      generalize 10 ^ k * m = z at *
      generalize 10 ^ k = P at *
      omega
    · have hp : 1 ≤ 10 ^ k := Nat.one_le_pow _ _ (by norm_num)
      have e : 10 ^ (k + 1) * m = 10 * (10 ^ k * m) := by rw [pow_succ]; ring
      rw [e, pow_succ]
      generalize 10 ^ k * m = z at *
      generalize 10 ^ k = P at *
      omega

/-- What Mul computes before the final reduction to 18 fractional digits: from the product p of the absolute
values and the sum rs of the scales, an overflow (`none`) or an absolute value and a scale. -/
inductive Core (p rs : Nat) : Option (Nat × Nat) → Prop
  | small : p ≤ 999999999999999999 → Core p rs (some (p, rs))
  | int : 999999999999999999 < p → rs = 0 → Core p rs none
  | tenfold : 999999999999999999 < p → p < 9223372036854775808 → 0 < rs → Core p rs (some ((p + 5) / 10, rs))
  | tooBig : 9223372036854775808 ≤ p → 1000000000000000000 * 10 ^ rs ≤ p → Core p rs none
  | big (e t n : Nat) : 9223372036854775808 ≤ p → p < 1000000000000000000 * 10 ^ rs → e ≤ rs → t = p / 10 ^ e →
      n ≤ 999999999999999999 → (n = t ∧ t * 10 ^ e = p) ∨ (100000000000000000 ≤ t ∧ (n = t ∨ n = t + 1)) →
      Core p rs (some (n, rs - e))
  | nines (e : Nat) (c) : 0 < rs → 9223372036854775808 ≤ p → p / 10 ^ e = 999999999999999999 →
      (∀ n s, c = some (n, s) → n ≤ 999999999999999999) → Core p rs c

def mulErr (d o : Decimal) : DErr := if d.sign = o.sign then .overflow else .underflow

/-- The end of Mul. -/
def mulFinish (d o : Decimal) : Option (Nat × Nat) → Out DErr Decimal
  | none => .err (mulErr d o)
  | some (n, s) => .ok (Decimal.applyNormalization
      ⟨if decide (d.value ≥ 0) = decide (o.value ≥ 0) then mulScaleDown (s - 18) n else w (-mulScaleDown (s - 18) n),
        min s 18, d.denormalized⟩)

theorem parse18' (ds : List Char) (h : ∀ c ∈ ds, isDigit c = true) (hl : ds.length ≤ 18) :
    (Conv.parseInt64 ds).1 = digitsVal ds := parse18 ds h hl 0

theorem digitsVal_take_div (ds : List Char) (h : ∀ c ∈ ds, isDigit c = true) (k : Nat) (hk : k ≤ ds.length) :
    digitsVal (ds.drop k).reverse = digitsVal ds.reverse / 10 ^ k := by
  have e : ds.reverse = (ds.drop k).reverse ++ (ds.take k).reverse := by
    rw [← List.reverse_append, List.take_append_drop]
  have hl : (ds.take k).reverse.length = k := by simp; omega
  have hlt := digitsVal_lt (ds.take k).reverse (fun c hc => h c (List.mem_of_mem_take (List.mem_reverse.mp hc)))
  rw [hl] at hlt
  rw [e, digitsVal_append, hl, Nat.mul_comm, Nat.mul_add_div (by positivity), Nat.div_eq_of_lt hlt, Nat.add_zero]

theorem round19_le (r19 : Bool) (v : Int) (s : Nat) (h : v ≤ 999999999999999999) : mulRound19 r19 v s = some v := by
  unfold mulRound19 maxValue
  rw [if_neg]
  rintro ⟨_, h'⟩
  omega

theorem round19_nines (s : Nat) : mulRound19 true 1000000000000000000 s = if s = 0 then none else some 100000000000000000 := by
  unfold mulRound19 maxValue
  rw [if_pos ⟨rfl, by decide⟩]
  split
  · rfl
  · decide

theorem mulBig_tail (p rs e t k cy dv : Nat) (hp : 9223372036854775808 ≤ p) (hplt : p < 1000000000000000000 * 10 ^ rs)
    (hrs : 0 < rs) (hke : e ≤ rs) (ht : t = p / 10 ^ e) (ht18 : t ≤ 999999999999999999) (hcy : cy = 1 → k ≠ 0)
    (hshape : (k = 0 ∧ t * 10 ^ e = p) ∨ 100000000000000000 ≤ t) :
    ∃ c : Option (Nat × Nat), c.map (fun x => ((x.1 : Int), x.2)) =
      (if cy = 1 ∧ dv ≥ 5 then some (w ((t : Int) + 1), rs - e, true) else some ((t : Int), rs - e, false)).bind
        (fun x => (mulRound19 x.2.2 x.1 x.2.1).map (fun v => (v, x.2.1))) ∧ Core p rs c := by
  by_cases hinc : cy = 1 ∧ dv ≥ 5
  · rw [if_pos hinc]
    have h17 : 100000000000000000 ≤ t := by
      rcases hshape with h | h
      · exact absurd h.1 (hcy hinc.1)
      · exact h
    have hw : w ((t : Int) + 1) = (t : Int) + 1 := w_id (by clear hp hplt ht hshape; omega) (by clear hp hplt ht hshape; omega)
    rw [hw, Option.bind_some]
    rcases Nat.lt_or_ge t 999999999999999999 with hn | hn
    · have hr := round19_le true ((t : Int) + 1) (rs - e) (by clear hp hplt ht hshape; omega)
      simp only [hr]
      exact ⟨some (t + 1, rs - e), by simp, .big e t (t + 1) hp hplt hke ht hn (.inr ⟨h17, .inr rfl⟩)⟩
    · have hn' := le_antisymm ht18 hn
      have hr : mulRound19 true ((t : Int) + 1) (rs - e) = if rs - e = 0 then none else some 100000000000000000 := by
        rw [hn']
        exact round19_nines _
      have ht' : p / 10 ^ e = 999999999999999999 := ht.symm.trans hn'
      simp only [hr]
      by_cases hz : rs - e = 0
      · simp only [hz, if_true]
        exact ⟨none, rfl, .nines e _ hrs hp ht' (by simp)⟩
      · simp only [hz, if_false]
        refine ⟨some (100000000000000000, rs - e), by simp, .nines e _ hrs hp ht' ?_⟩
        intro n s h
        simp only [Option.some.injEq, Prod.mk.injEq] at h
        rw [← h.1]; norm_num
  · rw [if_neg hinc]
    have hr := round19_le false (t : Int) (rs - e) (by clear hp hplt ht hshape; omega)
    simp only [Option.bind_some, hr]
    refine ⟨some (t, rs - e), by simp, .big e t t hp hplt hke ht ht18 ?_⟩
    rcases hshape with h | h
    · exact .inl ⟨rfl, h.2⟩
    · exact .inr ⟨h, .inl rfl⟩

/-- The big.Int path followed by the 19 digit adjustment. -/
theorem mulBig_core (a b rs : Nat) (hp : 9223372036854775808 ≤ a * b) :
    ∃ c : Option (Nat × Nat), c.map (fun x => ((x.1 : Int), x.2)) =
        (mulBig a b rs).bind (fun x => (mulRound19 x.2.2 x.1 x.2.1).map (fun v => (v, x.2.1))) ∧
      Core (a * b) rs c := by
  unfold mulBig
  by_cases hrs : rs = 0
  · rw [if_pos hrs]
    exact ⟨none, rfl, .int (lt_of_lt_of_le (by norm_num) hp) hrs⟩
  · rw [if_neg hrs]
    have e0 : ((a : Int) * (b : Int)).natAbs = a * b := by rw [Int.natAbs_mul]; simp
    rw [e0]
    generalize a * b = p at *
    have hdig := natChars_digits p
    have hdr : ∀ c ∈ (natChars p).reverse, isDigit c = true := fun c hc => hdig c (List.mem_reverse.mp hc)
    obtain ⟨j, j1, j2, j3, j4⟩ := mulStrip_spec (natChars p).reverse rs hdr
    rw [j2]
    simp only
    rw [List.reverse_reverse, digitsVal_natChars] at j4
    have hlen : ((natChars p).reverse.drop j).length = (natChars p).length - j := by simp
    have hdd : ∀ c ∈ (natChars p).reverse.drop j, isDigit c = true := fun c hc => hdr c (List.mem_of_mem_drop hc)
    generalize (natChars p).reverse.drop j = ds at *
    have hlow := natChars_pow_le p (by omega)
    have hhigh := natChars_lt_pow p
    have hp' : digitsVal ds.reverse = p / 10 ^ j := by
      rw [j4, Nat.mul_div_cancel _ (by positivity)]
    simp only [List.length_reverse] at j3
    generalize (natChars p).length = L at *
    by_cases hover : (ds.length : Int) - ((rs - j : Nat) : Int) > 18
    · rw [if_pos hover]
      refine ⟨none, rfl, .tooBig hp ?_⟩
      calc 1000000000000000000 * 10 ^ rs = 10 ^ (18 + rs) := by rw [pow_add]; norm_num
        _ ≤ 10 ^ (L - 1) := Nat.pow_le_pow_right (by norm_num) (by omega)
        _ ≤ p := hlow
    · rw [if_neg hover]
      obtain ⟨cy, y1, y2, y3⟩ := mulRound_spec ds 0 (rs - j) (by omega)
      rw [y2]
      simp only
      generalize hk : ds.length - 18 = k at *
      have hkle : k ≤ rs - j := by omega
      have hld : (ds.drop k).length ≤ 18 := by rw [List.length_drop]; omega
      have hrd : ∀ c ∈ (ds.drop k).reverse, isDigit c = true := fun c hc => hdd c (List.mem_of_mem_drop (List.mem_reverse.mp hc))
      have hpar := parse18' (ds.drop k).reverse hrd (by rw [List.length_reverse]; exact hld)
      have ht18 := digits18 (ds.drop k).reverse hrd (by rw [List.length_reverse]; exact hld)
      have htv : digitsVal (ds.drop k).reverse = p / 10 ^ (j + k) := by
        rw [digitsVal_take_div ds hdd k (by omega), hp', Nat.div_div_eq_div_mul, pow_add]
      rw [hpar, htv]
      rw [htv] at ht18
      have hplt : p < 1000000000000000000 * 10 ^ rs := by
        calc p < 10 ^ L := hhigh
          _ ≤ 10 ^ (18 + rs) := Nat.pow_le_pow_right (by norm_num) (by omega)
          _ = 1000000000000000000 * 10 ^ rs := by rw [pow_add]; norm_num
      have hshape : (k = 0 ∧ p / 10 ^ (j + k) * 10 ^ (j + k) = p) ∨ 100000000000000000 ≤ p / 10 ^ (j + k) := by
        by_cases hk0 : k = 0
        · left
          refine ⟨hk0, ?_⟩
          rw [hk0, Nat.add_zero, ← hp']; exact j4.symm
        · right
          rw [Nat.le_div_iff_mul_le (by positivity), show (100000000000000000 : Nat) = 10 ^ 17 by norm_num, ← pow_add]
          refine le_trans (Nat.pow_le_pow_right (by norm_num) ?_) hlow
          omega
      have hsub : rs - j - k = rs - (j + k) := by omega
      rw [hsub]
      have hke : j + k ≤ rs := by omega
      have hcy : cy = 1 → k ≠ 0 := by
        intro hc h0
        have := y3 (by omega)
        omega
      generalize j + k = e at *
      exact mulBig_tail p rs e (p / 10 ^ e) k cy _ hp hplt (Nat.pos_of_ne_zero hrs) hke rfl ht18 hcy hshape

/-- What Mul computes from the absolute values and the sum of the scales, before the adjustment of 19 digits. -/
def mulR (a b : Int) (rs : Nat) : Option (Int × Nat × Bool) :=
  if a ≠ 0 then
    if (w (a * b)).tdiv a = b then some (w (a * b), rs, true) else mulBig a b rs
  else some (w (a * b), rs, false)

/-- The same after the adjustment of 19 digits. -/
def mulC (a b : Nat) (rs : Nat) : Option (Int × Nat) :=
  (mulR a b rs).bind (fun x => (mulRound19 x.2.2 x.1 x.2.1).map (fun v => (v, x.2.1)))

theorem mulC_core (a b rs : Nat) (ha : a ≤ 999999999999999999) (hb : b ≤ 999999999999999999) :
    ∃ c : Option (Nat × Nat), Core (a * b) rs c ∧ c.map (fun x => ((x.1 : Int), x.2)) = mulC a b rs := by
  unfold mulC mulR
  by_cases h0 : a = 0
  · subst h0
    refine ⟨some (0 * b, rs), .small (by simp), ?_⟩
    have : w (((0 : Nat) : Int) * (b : Int)) = 0 := by rw [w_id] <;> simp
    rw [if_neg (c := ((0 : Nat) : Int) ≠ 0) (fun h => h rfl), this]
    simp [mulRound19]
  · have h0' : ((a : Int) ≠ 0) := by omega
    rw [if_pos h0']
    have hiff := mul_overflow_iff a b (by omega) ha hb
    by_cases hsm : a * b < 9223372036854775808
    · rw [if_pos (hiff.mpr hsm), ← Nat.cast_mul]
      clear hiff ha hb
      generalize a * b = p at *
      have hw : w (p : Int) = (p : Int) := w_id (by omega) (by omega)
      rw [hw]
      by_cases hle : p ≤ 999999999999999999
      · refine ⟨_, .small hle, ?_⟩
        simp only [Option.bind_some]
        rw [round19_le _ _ _ (by omega)]; simp
      · by_cases hr0 : rs = 0
        · refine ⟨_, .int (by omega) hr0, ?_⟩
          simp only [Option.bind_some, mulRound19, maxValue]
          rw [if_pos ⟨trivial, by omega⟩, if_pos hr0]; rfl
        · refine ⟨_, .tenfold (by omega) hsm (by omega), ?_⟩
          simp only [Option.bind_some, mulRound19, maxValue]
          rw [if_pos ⟨trivial, by omega⟩, if_neg hr0]
          have hd : (p : Int).tdiv 10 = ((p / 10 : Nat) : Int) := by
            rw [Int.tdiv_eq_ediv_of_nonneg (by omega)]; rfl
          have hm : (p : Int).tmod 10 = ((p % 10 : Nat) : Int) := by
            rw [Int.tmod_eq_emod_of_nonneg (by omega)]; rfl
          rw [hd, hm]
          split
          · rw [w_id (by omega) (by omega), if_neg (by omega)]
            have : (p + 5) / 10 = p / 10 + 1 := by omega
            simp [this]
          · have : (p + 5) / 10 = p / 10 := by omega
            simp [this]
    · rw [if_neg (fun h => hsm (hiff.mp h))]
      obtain ⟨c, hc, hcore⟩ := mulBig_core a b rs (Nat.le_of_not_lt hsm)
      exact ⟨c, hcore, hc⟩

/-- Complete description of Mul. -/
theorem mul_core' (d o : Decimal) (hd : d.Valid) (ho : o.Valid) :
    ∃ c, Core (d.value.natAbs * o.value.natAbs) (d.scale + o.scale) c ∧
      c.map (fun x => ((x.1 : Int), x.2)) = mulC d.value.natAbs o.value.natAbs (d.scale + o.scale) ∧ d.mul o = mulFinish d o c := by
  have hda := hd.1.le63
  have hoa := ho.1.le63
  have ed : (if decide (d.value ≥ 0) = true then d.value else w (-d.value)) = (d.value.natAbs : Int) := by
    split
    · rename_i h; simp at h; omega
    · rename_i h; simp at h; rw [w_neg hda.1 hda.2]; omega
  have eo : (if decide (o.value ≥ 0) = true then o.value else w (-o.value)) = (o.value.natAbs : Int) := by
    split
    · rename_i h; simp at h; omega
    · rename_i h; simp at h; rw [w_neg hoa.1 hoa.2]; omega
  have ha : d.value.natAbs ≤ 999999999999999999 := by have := hd.1; unfold Fits at this; omega
  have hb : o.value.natAbs ≤ 999999999999999999 := by have := ho.1; unfold Fits at this; omega
  have fin : ∀ (x : Option (Int × Nat × Bool)) (c : Option (Nat × Nat)),
      c.map (fun x => ((x.1 : Int), x.2)) = x.bind (fun x => (mulRound19 x.2.2 x.1 x.2.1).map (fun v => (v, x.2.1))) →
      mulEnd d.denormalized (decide (decide (d.value ≥ 0) = decide (o.value ≥ 0)))
        (if d.sign = o.sign then DErr.overflow else .underflow) x = mulFinish d o c := by
    intro x c hc
    cases x with
    | none =>
      cases c with
      | none => rfl
      | some y => simp at hc
    | some x =>
      obtain ⟨v, s, r19⟩ := x
      simp only [Option.bind_some] at hc
      unfold mulEnd
      simp only
      cases hm : mulRound19 r19 v s with
      | none =>
        rw [hm] at hc
        cases c with
        | none => rfl
        | some y => simp at hc
      | some v' =>
        rw [hm] at hc
        cases c with
        | none => simp at hc
        | some y =>
          obtain ⟨n, s'⟩ := y
          simp at hc
          obtain ⟨rfl, rfl⟩ := hc
          simp [mulFinish]
  obtain ⟨c, hc, hm⟩ := mulC_core d.value.natAbs o.value.natAbs (d.scale + o.scale) ha hb
  refine ⟨c, hc, hm, ?_⟩
  rw [← fin _ c hm]
  unfold Decimal.mul
  simp only [ed, eo]
  rfl

/-- The description without the function that computes it. -/
theorem mul_core (d o : Decimal) (hd : d.Valid) (ho : o.Valid) :
    ∃ c, Core (d.value.natAbs * o.value.natAbs) (d.scale + o.scale) c ∧ d.mul o = mulFinish d o c := by
  obtain ⟨c, h, _, h'⟩ := mul_core' d o hd ho
  exact ⟨c, h, h'⟩

end Micro.Dec
