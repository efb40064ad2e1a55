import Verif.Conv.ToModel
/-
Specification of conv.To for numbers: which numbers a type has, and the three demands on a conversion.
-/
namespace Micro.Conv
open Micro

/-- The type of a value. -/
def Num.ty : Num → NTy
  | .int k _ => .int k
  | .float32 _ => .float32
  | .float64 _ => .float64
  | .bigInt _ => .bigInt
  | .bigFloat _ => .bigFloat
  | .bigRat _ => .bigRat

/-- The number a value stands for. -/
def Num.value : Num → Flt
  | .int _ v => .fin v
  | .float32 x => x
  | .float64 x => x
  | .bigInt v => .fin v
  | .bigFloat x => x
  | .bigRat q => .fin q

/-- The type has this number (or NaN, or an infinity). -/
def NTy.Has : NTy → Flt → Prop
  | .int k, .fin q => ∃ i : ℤ, q = i ∧ k.InRange i
  | .float32, .fin q => Conv.float32.Has q
  | .float64, .fin q => Conv.float64.Has q
  | .bigInt, .fin q => ∃ i : ℤ, q = i
  | .bigFloat, .fin q => Dyadic q
  | .bigRat, .fin _ => True
  | .float32, _ => True
  | .float64, _ => True
  | .bigFloat, .inf _ => True
  | _, _ => False

/-- A value that really exists: its type has its number. -/
def Num.Valid (n : Num) : Prop := n.ty.Has n.value

/-- What a variable of the type can contain; variables of the big types can be nil. -/
def NTy.Cell (t : NTy) (c : Conv.Cell) : Prop :=
  (∃ n : Num, c = some n ∧ n.ty = t) ∨ (c = none ∧ (t = .bigInt ∨ t = .bigFloat ∨ t = .bigRat))

/-- To from `s` to `t` never panics, and if it returns no error, the variable holds the number converted. -/
def Exact (oor : Kind → ℚ → Int) (s t : NTy) : Prop :=
  ∀ (n : Num) (c : Cell), n.ty = s → n.Valid → t.Cell c →
    ∃ r, numTo oor n t c = some r ∧ (r.failed = false → ∃ m, r.target = some m ∧ m.ty = t ∧ m.Valid ∧ m.value = n.value)

/-- To from `s` to `t` never panics, and returns no error for a number that `t` has. -/
def Complete (oor : Kind → ℚ → Int) (s t : NTy) : Prop :=
  ∀ (n : Num) (c : Cell), n.ty = s → n.Valid → t.Cell c → t.Has n.value → ∃ r, numTo oor n t c = some r ∧ r.failed = false

/-- To from `s` to `t` never panics, and leaves the variable as it was if it returns an error. -/
def Clean (oor : Kind → ℚ → Int) (s t : NTy) : Prop :=
  ∀ (n : Num) (c : Cell), n.ty = s → n.Valid → t.Cell c →
    ∃ r, numTo oor n t c = some r ∧ (r.failed = true → r.target = c)

/-- The pairs of types between which To can change a number without an error. On arm64 there are more of them. -/
def lossy (arm : Bool) : NTy → NTy → Bool
  | .int k, .float32 => arm && decide (32 ≤ k.bits)
  | .int k, .float64 => arm && decide (k.bits = 64)
  | .int k, .bigFloat => !k.signed && decide (k.bits = 64)
  | .float32, .int k => decide (k.bits = 64)
  | .float64, .int _ => true
  | .float64, .float32 => true
  | .float32, .bigRat => true
  | .float64, .bigRat => true
  | .bigInt, .float32 => true
  | .bigFloat, .float32 => true
  | .bigFloat, .bigRat => true
  | .bigRat, .float32 => true
  | .bigRat, .bigFloat => true
  | _, _ => false

/-- The pairs of types between which To can refuse a number that the target type has. -/
def refusing : NTy → NTy → Bool
  | .float32, .int k => k.signed && decide (k.bits = 64)
  | .float64, .int k => k.signed && decide (k.bits = 64)
  | _, _ => false

/-- The pairs of types between which To can return an error and change the variable. -/
def clobbering : NTy → NTy → Bool
  | .bigInt, .float64 => true
  | .bigFloat, .float64 => true
  | .bigRat, .float64 => true
  | _, _ => false

/-- Float to integer casts out of range on the two platforms. -/
def platform (arm : Bool) : Kind → ℚ → Int := if arm then arm64 else amd64

end Micro.Conv
