import Verif.Conv.MsgModel
import Verif.Conv.ToPairs
/-
C152. What the error of a failed conversion says.
-/
namespace Micro.Conv
open Micro

/-- The conversions that go through a wider type: from the big types to float32 and to the integer types other than int64 and uint64. -/
def through : NTy → NTy → Bool
  | .bigInt, .int k | .bigFloat, .int k | .bigRat, .int k => decide (k ≠ .int64 ∧ k ≠ .uint64)
  | .bigInt, .float32 | .bigFloat, .float32 | .bigRat, .float32 => true
  | _, _ => false

/-- The type they go through. -/
def via : NTy → NTy
  | .int k => .int (if k.signed then .int64 else .uint64)
  | .float32 => .float64
  | t => t

theorem stagedMsg_eq (n : Shown) (k : Kind) (r : Res Int) :
    stagedMsg n k r = if r.failed then some ⟨n, .int (wide k)⟩ else if k = .int64 ∨ k = .uint64 then none else secondMsg k r.target := by
  cases k <;> simp [stagedMsg, wide, Kind.signed]

theorem secondMsg_some {k : Kind} {v : Int} {msg : Msg} (h : secondMsg k v = some msg) :
    (if k.signed then intToInt .int64 k v 0 else uintToUint .uint64 k v 0).failed = true ∧ msg = ⟨.num (.int (wide k) v), .int k⟩ := by
  unfold secondMsg at h
  by_cases hf : (if k.signed then intToInt .int64 k v 0 else uintToUint .uint64 k v 0).failed = true
  · rw [if_pos hf] at h; injection h with h; exact ⟨hf, h.symm⟩
  · rw [if_neg hf] at h; simp at h

/-- Whether a call fails does not depend on what the variable holds. -/
theorem failed_indep (oor : Kind → ℚ → Int) (n : Num) (t : NTy) (c c' : Cell) : (numTo oor n t c).map (·.failed) = (numTo oor n t c').map (·.failed) := by
  have hii : ∀ (s k : Kind) (v a b : Int), (intToInt s k v a).failed = (intToInt s k v b).failed := by intro s k v a b; simp only [intToInt]; split <;> rfl
  have huu : ∀ (s k : Kind) (v a b : Int), (uintToUint s k v a).failed = (uintToUint s k v b).failed := by intro s k v a b; simp only [uintToUint]; split <;> rfl
  have hui : ∀ (s k : Kind) (v a b : Int), (uintToInt s k v a).failed = (uintToInt s k v b).failed := by intro s k v a b; simp only [uintToInt]; split <;> rfl
  have hiu : ∀ (s k : Kind) (v a b : Int), (intToUint s k v a).failed = (intToUint s k v b).failed := by intro s k v a b; simp only [intToUint]; split <;> rfl
  have hb1 : ∀ (v a b : Int), (bigIntToInt64 v a).failed = (bigIntToInt64 v b).failed := by intro v a b; simp only [bigIntToInt64]; split <;> rfl
  have hb2 : ∀ (v a b : Int), (bigIntToUint64 v a).failed = (bigIntToUint64 v b).failed := by intro v a b; simp only [bigIntToUint64]; split <;> rfl
  have hf : ∀ (x a b : Flt), (floatToFloat true x a).failed = (floatToFloat true x b).failed := by
    intro x a b; cases x <;> simp only [floatToFloat]; split <;> rfl
  cases n with
  | int s v =>
    cases t <;> simp only [numTo, intSrc, Option.map_some, Option.map_map]
    case int k =>
      simp only [toInt]
      split
      · rfl
      · cases h : convertFromTo s k with
        | none => rfl
        | some e => cases e <;> simp only [Option.map_some, Function.comp, Entry.run, hii s k v _ (curInt c'), huu s k v _ (curInt c'), hui s k v _ (curInt c'), hiu s k v _ (curInt c')]
    all_goals (split <;> rfl)
  | float32 x =>
    cases t <;> simp only [numTo, floatSrc, Option.map_some]
    case int k =>
      cases hk : k.signed <;> cases hx : floatToBigRat x <;> simp only [floatToInt, floatToUint, hx, if_true, Bool.false_eq_true, if_false] <;>
        split <;> first | rfl | simp only [hii _ _ _ _ (curInt c'), huu _ _ _ _ (curInt c')]
    case float32 => rfl
    all_goals (split <;> rfl)
  | float64 x =>
    cases t <;> simp only [numTo, floatSrc, Option.map_some]
    case int k =>
      cases hk : k.signed <;> cases hx : floatToBigRat x <;> simp only [floatToInt, floatToUint, hx, if_true, Bool.false_eq_true, if_false] <;>
        split <;> first | rfl | simp only [hii _ _ _ _ (curInt c'), huu _ _ _ _ (curInt c')]
    case float32 => simp only [Bool.false_eq_true, if_false, hf x _ (curFlt c')]
    all_goals (split <;> rfl)
  | bigInt v =>
    cases t <;> simp only [numTo, bigIntSrc, Option.map_some]
    case int k =>
      cases k <;> simp only [bigIntTo, hb1 v (curInt c) (curInt c'), hb2 v (curInt c) (curInt c')] <;>
        split <;> simp only [hii _ _ _ _ (curInt c'), huu _ _ _ _ (curInt c')]
    case float32 => simp only [bigIntToFloat32Entry]; split <;> simp only [hf _ _ (curFlt c')]
  | bigFloat x =>
    cases t <;> simp only [numTo, bigFloatSrc, Option.map_some]
    case int k =>
      cases k <;> simp only [bigFloatTo] <;>
        first
        | (split <;> simp only [hii _ _ _ _ (curInt c'), huu _ _ _ _ (curInt c')])
        | (simp only [bigFloatToInt64, bigFloatToUint64]; split <;> simp only [hb1 _ _ (curInt c'), hb2 _ _ (curInt c')])
    case float32 => simp only [bigFloatToFloat32Entry]; split <;> simp only [hf _ _ (curFlt c')]
    all_goals (split <;> rfl)
  | bigRat q =>
    cases t <;> simp only [numTo, bigRatSrc, Option.map_some]
    case int k =>
      cases k <;> simp only [bigRatTo] <;>
        first
        | (split <;> simp only [hii _ _ _ _ (curInt c'), huu _ _ _ _ (curInt c')])
        | (simp only [bigRatToInt64, bigRatToUint64]; split <;> rfl)
    case float32 => simp only [bigRatToFloat32Entry]; split <;> simp only [hf _ _ (curFlt c')]
    all_goals (split <;> rfl)

/-- The first step of a staged conversion to an integer type. -/
def firstInt (n : Num) (k : Kind) : Res Int :=
  match n with
  | .bigInt v => if k.signed then bigIntToInt64 v 0 else bigIntToUint64 v 0
  | .bigFloat x => if k.signed then bigFloatToInt64 x 0 else bigFloatToUint64 x 0
  | .bigRat q => if k.signed then bigRatToInt64 q 0 else bigRatToUint64 q 0
  | _ => ⟨0, false⟩

/-- The first step of a staged conversion to float32. -/
def firstFlt (n : Num) : Res Flt :=
  match n with
  | .bigInt v => bigIntToFloat float64 v
  | .bigFloat x => bigFloatToFloat float64 x
  | .bigRat q => bigRatToFloat float64 q
  | _ => ⟨.fin 0, false⟩

/-- The value is of a big type. -/
def Num.IsBig (n : Num) : Prop := n.ty = .bigInt ∨ n.ty = .bigFloat ∨ n.ty = .bigRat

theorem numMsg_int {oor : Kind → ℚ → Int} {n : Num} (h : n.IsBig) (k : Kind) (c : Cell) : numMsg oor n (.int k) c = stagedMsg (.num n) k (firstInt n k) := by
  cases n <;> simp [Num.IsBig, Num.ty] at h <;> rfl

theorem numMsg_float32 {oor : Kind → ℚ → Int} {n : Num} (h : n.IsBig) (c : Cell) : numMsg oor n .float32 c = stagedMsg32 n (firstFlt n) := by
  cases n <;> simp [Num.IsBig, Num.ty] at h <;> rfl

theorem numMsg_direct {oor : Kind → ℚ → Int} {n : Num} {t : NTy} (h : ¬ (n.IsBig ∧ ((∃ k, t = .int k) ∨ t = .float32))) (c : Cell) : numMsg oor n t c = directMsg oor n t c := by
  cases n <;> cases t <;> simp [Num.IsBig, Num.ty] at h <;> rfl

/-- A staged conversion to an integer type fails iff a step does. -/
theorem numTo_int_failed {oor : Kind → ℚ → Int} {n : Num} (h : n.IsBig) (k : Kind) (c : Cell) :
    ∃ r, numTo oor n (.int k) c = some r ∧ r.failed = (stagedMsg (.num n) k (firstInt n k)).isSome := by
  have hii : ∀ (k : Kind) (v a : Int), (intToInt .int64 k v a).failed = (intToInt .int64 k v 0).failed := by intro k v a; simp only [intToInt]; split <;> rfl
  have huu : ∀ (k : Kind) (v a : Int), (uintToUint .uint64 k v a).failed = (uintToUint .uint64 k v 0).failed := by intro k v a; simp only [uintToUint]; split <;> rfl
  have hb1 : ∀ (v a : Int), (bigIntToInt64 v a).failed = (bigIntToInt64 v 0).failed := by intro v a; simp only [bigIntToInt64]; split <;> rfl
  have hb2 : ∀ (v a : Int), (bigIntToUint64 v a).failed = (bigIntToUint64 v 0).failed := by intro v a; simp only [bigIntToUint64]; split <;> rfl
  have hf1 : ∀ (x : Flt) (a : Int), (bigFloatToInt64 x a).failed = (bigFloatToInt64 x 0).failed := by intro x a; simp only [bigFloatToInt64]; split <;> simp only [hb1 _ a]
  have hf2 : ∀ (x : Flt) (a : Int), (bigFloatToUint64 x a).failed = (bigFloatToUint64 x 0).failed := by intro x a; simp only [bigFloatToUint64]; split <;> simp only [hb2 _ a]
  have hr1 : ∀ (x : ℚ) (a : Int), (bigRatToInt64 x a).failed = (bigRatToInt64 x 0).failed := by intro x a; simp only [bigRatToInt64]; split <;> rfl
  have hr2 : ∀ (x : ℚ) (a : Int), (bigRatToUint64 x a).failed = (bigRatToUint64 x 0).failed := by intro x a; simp only [bigRatToUint64]; split <;> rfl
  have key : ∀ r : Res Int, ∀ k : Kind, k ≠ .int64 → k ≠ .uint64 → ∀ a,
      (if r.failed then (⟨a, true⟩ : Res Int) else if k.signed then intToInt .int64 k r.target a else uintToUint .uint64 k r.target a).failed = (stagedMsg (.num n) k r).isSome := by
    intro r k h1 h2 a
    have h3 : ¬ (k = .int64 ∨ k = .uint64) := by simp [h1, h2]
    simp only [stagedMsg_eq, if_neg h3]
    cases hr : r.failed
    · simp only [Bool.false_eq_true, if_false, secondMsg]
      cases hk : k.signed
      · simp only [Bool.false_eq_true, if_false, huu k _ a]
        split <;> simp_all
      · simp only [if_true, hii k _ a]
        split <;> simp_all
    · simp
  have last : ∀ (m : Shown) (r : Res Int), r.failed = (stagedMsg m .int64 r).isSome ∧ r.failed = (stagedMsg m .uint64 r).isSome := by
    intro m r; cases hr : r.failed <;> simp [stagedMsg, hr]
  cases n <;> simp [Num.IsBig, Num.ty] at h
  case bigInt v =>
    refine ⟨_, rfl, ?_⟩
    cases k
    case int64 => simp only [bigIntSrc, bigIntTo, hb1 v]; exact (last _ _).1
    case uint64 => simp only [bigIntSrc, bigIntTo, hb2 v]; exact (last _ _).2
    all_goals (rw [← key _ _ (by decide) (by decide) (curInt c)]; rfl)
  case bigFloat v =>
    refine ⟨_, rfl, ?_⟩
    cases k
    case int64 => simp only [bigFloatSrc, bigFloatTo, hf1 v]; exact (last _ _).1
    case uint64 => simp only [bigFloatSrc, bigFloatTo, hf2 v]; exact (last _ _).2
    all_goals (rw [← key _ _ (by decide) (by decide) (curInt c)]; rfl)
  case bigRat v =>
    refine ⟨_, rfl, ?_⟩
    cases k
    case int64 => simp only [bigRatSrc, bigRatTo, hr1 v]; exact (last _ _).1
    case uint64 => simp only [bigRatSrc, bigRatTo, hr2 v]; exact (last _ _).2
    all_goals (rw [← key _ _ (by decide) (by decide) (curInt c)]; rfl)

/-- A staged conversion to float32 fails iff a step does. -/
theorem numTo_float32_failed {oor : Kind → ℚ → Int} {n : Num} (h : n.IsBig) (c : Cell) :
    ∃ r, numTo oor n .float32 c = some r ∧ r.failed = (stagedMsg32 n (firstFlt n)).isSome := by
  have hf : ∀ (x a : Flt), (floatToFloat true x a).failed = (floatToFloat true x (.fin 0)).failed := by
    intro x a; cases x <;> simp only [floatToFloat]; split <;> rfl
  have key : ∀ (r : Res Flt) (a : Flt), (if r.failed then (⟨a, true⟩ : Res Flt) else floatToFloat true r.target a).failed = (stagedMsg32 n r).isSome := by
    intro r a
    cases hr : r.failed <;> simp only [stagedMsg32, hr, if_true, Bool.false_eq_true, if_false, hf _ a, Option.isSome_some]
    split <;> simp_all
  cases n <;> simp [Num.IsBig, Num.ty] at h
  all_goals exact ⟨_, rfl, key _ (curFlt c)⟩

/-- C152: there is a message exactly if the conversion returns an error. -/
theorem c152_error (oor : Kind → ℚ → Int) (n : Num) (t : NTy) (c : Cell) :
    (numMsg oor n t c).isSome = true ↔ ∃ r, numTo oor n t c = some r ∧ r.failed = true := by
  by_cases hb : n.IsBig ∧ ((∃ k, t = .int k) ∨ t = .float32)
  · obtain ⟨hb, ⟨k, rfl⟩ | rfl⟩ := hb
    · obtain ⟨r, h1, h2⟩ := numTo_int_failed (oor := oor) hb k c
      rw [numMsg_int hb, h1, ← h2]; simp
    · obtain ⟨r, h1, h2⟩ := numTo_float32_failed (oor := oor) hb c
      rw [numMsg_float32 hb, h1, ← h2]; simp
  · rw [numMsg_direct hb, directMsg]
    cases h : numTo oor n t c with
    | none => simp
    | some r => cases hr : r.failed <;> simp [hr]


/-- C152: the conversions that do not go through a wider type show the value that was to be converted, with its own type, and name the type of the variable. For the others this is false
(`c152_other`, `c152_refuted`). -/
theorem c152_names_partial (oor : Kind → ℚ → Int) (n : Num) (t : NTy) (c : Cell) (msg : Msg) (hd : through n.ty t = false)
    (h : numMsg oor n t c = some msg) : msg = ⟨.num n, t⟩ := by
  by_cases hb : n.IsBig ∧ ((∃ k, t = .int k) ∨ t = .float32)
  · obtain ⟨hb, ⟨k, rfl⟩ | rfl⟩ := hb
    · have hk : k = .int64 ∨ k = .uint64 := by
        cases n <;> simp [Num.IsBig, Num.ty] at hb <;> cases k <;> simp [through, Num.ty] at hd ⊢
      rw [numMsg_int hb, stagedMsg_eq] at h
      rcases hk with rfl | rfl <;> split at h <;> simp [wide, Kind.signed] at h <;> exact h.symm
    · cases n <;> simp [Num.IsBig, Num.ty] at hb <;> simp [through, Num.ty] at hd
  · rw [numMsg_direct hb, directMsg] at h
    split at h
    · split at h
      · simpa using h.symm
      · simp at h
    · simp at h

theorem firstInt_ok {n : Num} {k : Kind} (hb : n.IsBig) :
    ((firstInt n k).failed = true ∧ ¬ (via (.int k)).Has n.value) ∨
    ((firstInt n k).failed = false ∧ (wide k).InRange (firstInt n k).target ∧ n.value = .fin ((firstInt n k).target : ℚ)) := by
  have hI : ∀ v : Int, bigIntToInt64 v 0 = if Kind.int64.InRange v then ⟨v, false⟩ else ⟨0, true⟩ := fun v => c21_bigInt_exact .int64 v 0
  have hU : ∀ v : Int, bigIntToUint64 v 0 = if Kind.uint64.InRange v then ⟨v, false⟩ else ⟨0, true⟩ := fun v => c21_bigInt_exact .uint64 v 0
  have hk : via (.int k) = .int (wide k) := rfl
  have hF := fun (k : Kind) (q : ℚ) => bigFloatTo_fin k q 0
  rw [hk]
  cases n <;> simp [Num.IsBig, Num.ty] at hb
  case bigInt v =>
    cases hs : k.signed
    · have hw : wide k = .uint64 := by simp [wide, hs]
      simp only [firstInt, hs, Bool.false_eq_true, if_false, hU, hw, NTy.Has, Num.value]
      by_cases hv : Kind.uint64.InRange v
      · right; simp [hv]
      · left; simp [hv]
    · have hw : wide k = .int64 := by simp [wide, hs]
      simp only [firstInt, hs, if_true, hI, hw, NTy.Has, Num.value]
      by_cases hv : Kind.int64.InRange v
      · right; simp [hv]
      · left; simp [hv]
  case bigFloat x =>
    cases x with
    | nan => left; cases hs : k.signed <;> simp [firstInt, hs, bigFloatToInt64, bigFloatToUint64, bigFloatToBigInt, NTy.Has, Num.value]
    | inf b => left; cases hs : k.signed <;> simp [firstInt, hs, bigFloatToInt64, bigFloatToUint64, bigFloatToBigInt, NTy.Has, Num.value]
    | fin q =>
      cases hs : k.signed
      · have hw : wide k = .uint64 := by simp [wide, hs]
        simp only [firstInt, hs, Bool.false_eq_true, if_false, hw, NTy.Has, Num.value]
        by_cases hq : ∃ i : ℤ, q = i
        · obtain ⟨i, rfl⟩ := hq
          have := ((hF .uint64 i).1 i rfl).1
          simp only [bigFloatTo, bigIntTo, hU] at this
          by_cases hv : Kind.uint64.InRange i
          · right; simp [this, hv]
          · left; simp [this, hv]
        · left
          have := ((hF .uint64 q).2 hq).1
          simp only [bigFloatTo] at this
          exact ⟨by simp [this], fun ⟨i, hi, _⟩ => hq ⟨i, hi⟩⟩
      · have hw : wide k = .int64 := by simp [wide, hs]
        simp only [firstInt, hs, if_true, hw, NTy.Has, Num.value]
        by_cases hq : ∃ i : ℤ, q = i
        · obtain ⟨i, rfl⟩ := hq
          have := ((hF .int64 i).1 i rfl).1
          simp only [bigFloatTo, bigIntTo, hI] at this
          by_cases hv : Kind.int64.InRange i
          · right; simp [this, hv]
          · left; simp [this, hv]
        · left
          have := ((hF .int64 q).2 hq).1
          simp only [bigFloatTo] at this
          exact ⟨by simp [this], fun ⟨i, hi, _⟩ => hq ⟨i, hi⟩⟩
  case bigRat q =>
    cases hs : k.signed
    · have hw : wide k = .uint64 := by simp [wide, hs]
      simp only [firstInt, hs, Bool.false_eq_true, if_false, hw, NTy.Has, Num.value]
      by_cases hq : ∃ i : ℤ, q = i
      · obtain ⟨i, rfl⟩ := hq
        have := ((hF .uint64 i).1 i rfl).2
        simp only [bigRatTo, bigIntTo, hU] at this
        by_cases hv : Kind.uint64.InRange i
        · right; simp [this, hv]
        · left; simp [this, hv]
      · left
        have := ((hF .uint64 q).2 hq).2
        simp only [bigRatTo] at this
        exact ⟨by simp [this], fun ⟨i, hi, _⟩ => hq ⟨i, hi⟩⟩
    · have hw : wide k = .int64 := by simp [wide, hs]
      simp only [firstInt, hs, if_true, hw, NTy.Has, Num.value]
      by_cases hq : ∃ i : ℤ, q = i
      · obtain ⟨i, rfl⟩ := hq
        have := ((hF .int64 i).1 i rfl).2
        simp only [bigRatTo, bigIntTo, hI] at this
        by_cases hv : Kind.int64.InRange i
        · right; simp [this, hv]
        · left; simp [this, hv]
      · left
        have := ((hF .int64 q).2 hq).2
        simp only [bigRatTo] at this
        exact ⟨by simp [this], fun ⟨i, hi, _⟩ => hq ⟨i, hi⟩⟩

theorem firstFlt_ok {n : Num} (oor : Kind → ℚ → Int) (hb : n.IsBig) (hv : n.Valid) :
    ((firstFlt n).failed = true ∧ ¬ NTy.float64.Has n.value) ∨
    ((firstFlt n).failed = false ∧ NTy.float64.Has n.value ∧ n.value = (firstFlt n).target) := by
  have hc : NTy.float64.Cell (some (.float64 (.fin 0))) := Or.inl ⟨_, rfl, rfl⟩
  obtain ⟨he, hco, -⟩ := big_float64 oor n.ty hb
  obtain ⟨r, h1, h2⟩ := he n _ rfl hv hc
  have hr : r.failed = (firstFlt n).failed ∧ r.target = some (.float64 (firstFlt n).target) := by
    cases n <;> simp [Num.IsBig, Num.ty] at hb <;> (injection h1 with h1; subst h1; exact ⟨rfl, rfl⟩)
  cases hf : (firstFlt n).failed
  · right
    obtain ⟨m, h3, h4, h5, h6⟩ := h2 (hr.1.trans hf)
    rw [hr.2] at h3
    injection h3 with h3
    subst h3
    refine ⟨rfl, ?_, h6.symm⟩
    rw [← h6]; exact h5
  · left
    refine ⟨rfl, fun hh => ?_⟩
    obtain ⟨r', h1', h2'⟩ := hco n _ rfl hv hc hh
    rw [h1] at h1'
    injection h1' with h1'
    rw [← h1', hr.1, hf] at h2'
    exact absurd h2' (by simp)

/-- C152: the conversions that go through a wider type never say what was to be converted to what: if the wider type does not have the number, the message names the wider type instead of the type of the variable,
and if it has, the message shows a value of the wider type instead of the value converted. -/
theorem c152_other (oor : Kind → ℚ → Int) (n : Num) (t : NTy) (c : Cell) (msg : Msg) (ht : through n.ty t = true) (hv : n.Valid)
    (h : numMsg oor n t c = some msg) :
    (¬ (via t).Has n.value ∧ msg = ⟨.num n, via t⟩ ∧ via t ≠ t) ∨
    (∃ m : Num, m.ty = via t ∧ m.ty ≠ n.ty ∧ m.Valid ∧ m.value = n.value ∧ msg = ⟨.num m, t⟩) := by
  have hb : n.IsBig ∧ ((∃ k, t = .int k ∧ k ≠ .int64 ∧ k ≠ .uint64) ∨ t = .float32) := by
    cases n <;> cases t <;> simp [Num.ty, through] at ht <;> simp [Num.IsBig, Num.ty] <;> exact ht
  have hne : ∀ u, via t = u → u ≠ n.ty := by
    rintro u rfl e
    rcases hb with ⟨hb | hb | hb, ⟨k, rfl, -⟩ | rfl⟩ <;> rw [hb] at e <;> simp [via] at e
  obtain ⟨hb, ⟨k, rfl, hk⟩ | rfl⟩ := hb
  · rw [numMsg_int hb, stagedMsg_eq, if_neg (c := k = .int64 ∨ k = .uint64) (by simp [hk])] at h
    rcases firstInt_ok (k := k) hb with ⟨h1, h2⟩ | ⟨h1, h2, h3⟩
    · rw [if_pos h1] at h
      injection h with h
      refine Or.inl ⟨h2, h.symm, ?_⟩
      cases k <;> simp [via, Kind.signed] at hk ⊢
    · rw [if_neg (by simp [h1])] at h
      exact Or.inr ⟨.int (wide k) (firstInt n k).target, rfl, hne _ rfl, ⟨_, rfl, h2⟩, h3.symm, (secondMsg_some h).2⟩
  · rw [numMsg_float32 hb, stagedMsg32] at h
    rcases firstFlt_ok oor hb hv with ⟨h1, h2⟩ | ⟨h1, h2, h3⟩
    · rw [if_pos h1] at h
      injection h with h
      exact Or.inl ⟨h2, h.symm, by simp [via]⟩
    · rw [if_neg (by simp [h1])] at h
      right
      split at h
      · injection h with h
        exact ⟨.float64 (firstFlt n).target, rfl, hne _ rfl, by rw [h3] at h2; exact h2, h3.symm, h.symm⟩
      · simp at h

/-- C152: what a message says is true: the value it shows cannot be converted to the type it names. -/
theorem c152_true (oor : Kind → ℚ → Int) (n : Num) (t : NTy) (c : Cell) (m : Num) (u : NTy)
    (h : numMsg oor n t c = some ⟨.num m, u⟩) (c' : Cell) : ∃ r, numTo oor m u c' = some r ∧ r.failed = true := by
  have conc : ∀ {n : Num} {t : NTy} {c : Cell}, (∃ r, numTo oor n t c = some r ∧ r.failed = true) → ∃ r, numTo oor n t c' = some r ∧ r.failed = true := by
    rintro n t c ⟨r, h1, h2⟩
    have := failed_indep oor n t c c'
    rw [h1] at this
    simp only [Option.map_some] at this
    cases h3 : numTo oor n t c' with
    | none => rw [h3] at this; simp at this
    | some r' => rw [h3] at this; simp only [Option.map_some, Option.some.injEq] at this; exact ⟨r', rfl, by rw [← this, h2]⟩
  have h0 := (c152_error oor n t c).1 (by rw [h]; rfl)
  by_cases hd : through n.ty t = true
  swap
  · have := c152_names_partial oor n t c _ (by simpa using hd) h
    injection this with h1 h2
    injection h1 with h1
    subst h1 h2
    exact conc h0
  have hb : n.IsBig ∧ ((∃ k, t = .int k ∧ k ≠ .int64 ∧ k ≠ .uint64) ∨ t = .float32) := by
    cases n <;> cases t <;> simp [Num.ty, through] at hd <;> simp [Num.IsBig, Num.ty] <;> exact hd
  obtain ⟨hb, ⟨k, rfl, hk⟩ | rfl⟩ := hb
  · rw [numMsg_int hb, stagedMsg_eq, if_neg (c := k = .int64 ∨ k = .uint64) (by simp [hk])] at h
    split at h
    · rename_i hf
      simp only [Option.some.injEq, Msg.mk.injEq, Shown.num.injEq] at h
      obtain ⟨rfl, rfl⟩ := h
      obtain ⟨r, h1, h2⟩ := numTo_int_failed (oor := oor) hb (wide k) c'
      refine ⟨r, h1, ?_⟩
      have : firstInt n (wide k) = firstInt n k := by
        have : (wide k).signed = k.signed := by cases k <;> rfl
        cases n <;> simp [firstInt, this]
      rw [h2, stagedMsg_eq, this, hf]; rfl
    · obtain ⟨hf, h⟩ := secondMsg_some h
      · simp only [Msg.mk.injEq, Shown.num.injEq] at h
        obtain ⟨rfl, rfl⟩ := h
        have hii : ∀ (k : Kind) (v a : Int), (intToInt .int64 k v a).failed = (intToInt .int64 k v 0).failed := by intro k v a; simp only [intToInt]; split <;> rfl
        have huu : ∀ (k : Kind) (v a : Int), (uintToUint .uint64 k v a).failed = (uintToUint .uint64 k v 0).failed := by intro k v a; simp only [uintToUint]; split <;> rfl
        generalize (firstInt n k).target = v at hf
        cases k <;> simp [Kind.signed] at hf hk
        all_goals
          refine ⟨_, rfl, ?_⟩
          first
          | exact (hii _ _ _).trans hf
          | exact (huu _ _ _).trans hf
  · rw [numMsg_float32 hb, stagedMsg32] at h
    split at h
    · rename_i hf
      simp only [Option.some.injEq, Msg.mk.injEq, Shown.num.injEq] at h
      obtain ⟨rfl, rfl⟩ := h
      cases n <;> simp [Num.IsBig, Num.ty] at hb <;> exact ⟨_, rfl, hf⟩
    · split at h
      · rename_i hf
        simp only [Option.some.injEq, Msg.mk.injEq, Shown.num.injEq] at h
        obtain ⟨rfl, rfl⟩ := h
        refine ⟨_, rfl, ?_⟩
        have hff : ∀ (x a : Flt), (floatToFloat true x a).failed = (floatToFloat true x (.fin 0)).failed := by
          intro x a; cases x <;> simp only [floatToFloat]; split <;> rfl
        exact (hff _ _).trans hf
      · simp at h

/-- C152: for strings too, there is a message exactly if the conversion returns an error. -/
theorem c152_text_error (lib : TextLib) (s : List Char) :
    (∀ k cur, (textMsg lib s (.int k)).isSome = (stringTo k s cur).failed) ∧
    (∀ cur, (textMsg lib s .float32).isSome = (stringToFloat lib float32 s cur).failed) ∧
    (∀ cur, (textMsg lib s .float64).isSome = (stringToFloat lib float64 s cur).failed) ∧
    (∀ cur, (textMsg lib s .bigInt).isSome = (stringToBigInt s cur).failed) ∧
    (∀ cur, (textMsg lib s .bigFloat).isSome = (stringToBigFloat lib s cur).failed) ∧
    (∀ cur, (textMsg lib s .bigRat).isSome = (stringToBigRat lib s cur).failed) := by
  have hif : ∀ (b : Bool) (m : Msg), (if b = true then some m else none).isSome = b := by intro b m; cases b <;> rfl
  have hfl : ∀ f cur, (stringToFloat lib f s cur).failed = (stringToFloat lib f s (.fin 0)).failed := by
    intro f cur; unfold stringToFloat; split
    · rfl
    · split <;> rfl
  refine ⟨fun k cur => ?_, fun cur => ?_, fun cur => ?_, fun cur => ?_, fun cur => ?_, fun cur => ?_⟩
  · have hii : ∀ (k : Kind) (v a : Int), (intToInt .int64 k v a).failed = (intToInt .int64 k v 0).failed := by intro k v a; simp only [intToInt]; split <;> rfl
    have huu : ∀ (k : Kind) (v a : Int), (uintToUint .uint64 k v a).failed = (uintToUint .uint64 k v 0).failed := by intro k v a; simp only [uintToUint]; split <;> rfl
    simp only [textMsg]
    cases k <;> simp only [stagedMsg, Kind.signed, if_true, Bool.false_eq_true, if_false, hif, stringTo, secondMsg]
    all_goals first
      | rfl
      | (split
         · rfl
         · simp only [hif, hii _ _ cur, huu _ _ cur])
  · simp only [textMsg, hif, hfl _ cur]
  · simp only [textMsg, hif, hfl _ cur]
  · simp only [textMsg, hif]; rfl
  · simp only [textMsg, hif]; rfl
  · simp only [textMsg, hif]; rfl

/-- C152: the message for a string shows the string and names the type of the variable, if that is int64, uint64 or no integer type. For the others this is false (`c152_text_other`, `c152_refuted`). -/
theorem c152_text_names_partial (lib : TextLib) (s : List Char) (t : NTy) (msg : Msg) (ht : ∀ k, t = .int k → k = .int64 ∨ k = .uint64)
    (h : textMsg lib s t = some msg) : msg = ⟨.text s, t⟩ := by
  have hif : ∀ (b : Bool) (m : Msg), (if b = true then some m else none) = some msg → msg = m := by intro b m; cases b <;> simp; exact fun h => h.symm
  cases t with
  | int k => rcases ht k rfl with rfl | rfl <;> exact hif _ _ h
  | float32 => exact hif _ _ h
  | float64 => exact hif _ _ h
  | bigInt => exact hif _ _ h
  | bigFloat => exact hif _ _ h
  | bigRat => exact hif _ _ h

/-- C152: for the other integer types the message names int64 or uint64 instead of the type of the variable, if the string is no number of that type, and otherwise it shows, instead of the string,
the int64 or uint64 that the string spells. -/
theorem c152_text_other (lib : TextLib) (s : List Char) (k : Kind) (msg : Msg) (hk : k ≠ .int64 ∧ k ≠ .uint64)
    (h : textMsg lib s (.int k) = some msg) :
    ((¬ ∃ v, Spells k.signed s v ∧ (if k.signed then Kind.int64 else Kind.uint64).InRange v) ∧
      msg = ⟨.text s, .int (if k.signed then .int64 else .uint64)⟩) ∨
    (∃ v, Spells k.signed s v ∧ ¬ k.InRange v ∧ msg = ⟨.num (.int (if k.signed then .int64 else .uint64) v), .int k⟩) := by
  have hfail : ¬ ∃ v, Spells k.signed s v ∧ k.InRange v := by
    rintro ⟨v, hv⟩
    have h1 := (c22_string_to_integer k s v 0).2 hv
    have h2 := (c152_text_error lib s).1 k 0
    rw [h, h1] at h2
    simp at h2
  simp only [textMsg, stagedMsg_eq, if_neg (show ¬ (k = .int64 ∨ k = .uint64) by simp [hk])] at h
  cases hs : k.signed
  · have hw : wide k = .uint64 := by simp [wide, hs]
    have hq := fun v => c22_string_to_integer .uint64 s v 0
    simp only [hs, Bool.false_eq_true, if_false, hw] at h hfail ⊢
    simp only [stringTo, Kind.signed] at hq
    cases hf : (stringToUint64 s 0).failed
    · right
      rw [if_neg (by simp [hf])] at h
      have := (hq (stringToUint64 s 0).target).1 (by rw [← hf])
      refine ⟨_, this.1, fun hr => hfail ⟨_, this.1, hr⟩, ?_⟩
      rw [(secondMsg_some h).2, hw]
    · left
      rw [if_pos hf] at h
      refine ⟨?_, by injection h with h; exact h.symm⟩
      rintro ⟨v, hv⟩
      rw [← hq v] at hv
      rw [hv] at hf
      simp at hf
  · have hw : wide k = .int64 := by simp [wide, hs]
    have hq := fun v => c22_string_to_integer .int64 s v 0
    simp only [hs, if_true, hw] at h hfail ⊢
    simp only [stringTo, Kind.signed] at hq
    cases hf : (stringToInt64 s 0).failed
    · right
      rw [if_neg (by simp [hf])] at h
      have := (hq (stringToInt64 s 0).target).1 (by rw [← hf])
      refine ⟨_, this.1, fun hr => hfail ⟨_, this.1, hr⟩, ?_⟩
      rw [(secondMsg_some h).2, hw]
    · left
      rw [if_pos hf] at h
      refine ⟨?_, by injection h with h; exact h.symm⟩
      rintro ⟨v, hv⟩
      rw [← hq v] at hv
      rw [hv] at hf
      simp at hf

/-- C152: it is false that the message always says which value was to be converted to which type: 300, as a *big.Int, into an int8 gives "The int64 value of 300 cannot be converted to int8", 2^70 gives
"cannot be converted to int64", and the string "300" gives "The int64 value of 300 cannot be converted to int8". -/
theorem c152_refuted (oor : Kind → ℚ → Int) (lib : TextLib) (c : Cell) :
    numMsg oor (.bigInt 300) (.int .int8) c = some ⟨.num (.int .int64 300), .int .int8⟩ ∧
    numMsg oor (.bigInt (2 ^ 70)) (.int .int8) c = some ⟨.num (.bigInt (2 ^ 70)), .int .int64⟩ ∧
    textMsg lib "300".toList (.int .int8) = some ⟨.num (.int .int64 300), .int .int8⟩ ∧
    textMsg lib "x".toList (.int .int8) = some ⟨.text "x".toList, .int .int64⟩ :=
  ⟨by rfl, by rfl, by rfl, by rfl⟩

/-- A direct conversion: 300 from int into int8. -/
example (oor : Kind → ℚ → Int) (c : Cell) : numMsg oor (.int .int 300) (.int .int8) c = some ⟨.num (.int .int 300), .int .int8⟩ ∧ through (.int .int) (.int .int8) = false ∧
    numMsg oor (.int .int 3) (.int .int8) c = none := ⟨by rfl, by rfl, by rfl⟩

/-- The hypotheses of `c152_other` and `c152_true`. -/
example (oor : Kind → ℚ → Int) (c : Cell) : through (Num.bigInt 300).ty (.int .int8) = true ∧ (Num.bigInt 300).Valid ∧ (numMsg oor (.bigInt 300) (.int .int8) c).isSome = true :=
  ⟨by rfl, ⟨300, by norm_num⟩, by rfl⟩

end Micro.Conv
