/-
Common vocabulary for the Go semantics used by all models.
-/
namespace Micro

/-- The ten built-in Go integer types (constraint/constraint.go:9-24: SignedInteger, UnsignedInteger).
Simplification: `int`/`uint` are 64 bits wide, as on every platform for which the maps
conv/int.go:19-38 (`map[int]int` holding MinInt64) compile; user defined subtypes behave as
their underlying type. -/
inductive Kind where
  | int | int8 | int16 | int32 | int64 | uint | uint8 | uint16 | uint32 | uint64
  deriving DecidableEq, Repr

namespace Kind

/-- `NumBits` (conv/int.go:42-44): size in bits of a value of the type. -/
def bits : Kind → Nat
  | int => 64 | int8 => 8 | int16 => 16 | int32 => 32 | int64 => 64
  | uint => 64 | uint8 => 8 | uint16 => 16 | uint32 => 32 | uint64 => 64

/-- Membership of constraint.SignedInteger. -/
def signed : Kind → Bool
  | int | int8 | int16 | int32 | int64 => true
  | _ => false

/-- Smallest value of the type (Go language specification). -/
def minV (k : Kind) : Int := if k.signed then -(2 ^ (k.bits - 1) : Nat) else 0

/-- Largest value of the type (Go language specification). -/
def maxV (k : Kind) : Int :=
  if k.signed then (2 ^ (k.bits - 1) : Nat) - 1 else (2 ^ k.bits : Nat) - 1

/-- A mathematical integer is a value of the type. -/
def InRange (k : Kind) (x : Int) : Prop := k.minV ≤ x ∧ x ≤ k.maxV

instance (k : Kind) (x : Int) : Decidable (k.InRange x) := by unfold InRange; infer_instance

/-- Go integer arithmetic / conversion result: two's complement truncation to the type
(Go specification, "Integer overflow", "Conversions between numeric types"). -/
def wrap (k : Kind) (x : Int) : Int :=
  if k.signed then (x + (2 ^ (k.bits - 1) : Nat)) % (2 ^ k.bits : Nat) - (2 ^ (k.bits - 1) : Nat)
  else x % (2 ^ k.bits : Nat)

/-- The type's name as printed by reflect.Type.String(). -/
def name : Kind → String
  | int => "int" | int8 => "int8" | int16 => "int16" | int32 => "int32" | int64 => "int64"
  | uint => "uint" | uint8 => "uint8" | uint16 => "uint16" | uint32 => "uint32" | uint64 => "uint64"

end Kind

/-- Outcome of a Go call: normal return, returned error, or panic (runtime or explicit). -/
inductive Out (ε : Type) (α : Type) where
  | ok (a : α)
  | err (e : ε)
  | panic
  deriving DecidableEq, Repr

/-- Unfold all numeric facts about a concrete integer type. -/
macro "kind_norm" : tactic =>
  `(tactic| simp [Kind.InRange, Kind.minV, Kind.maxV, Kind.wrap, Kind.signed, Kind.bits] at *)

namespace Kind

theorem wrap_of_inRange {k : Kind} {x : Int} (h : k.InRange x) : k.wrap x = x := by
  cases k <;> kind_norm <;> omega

theorem wrap_inRange (k : Kind) (x : Int) : k.InRange (k.wrap x) := by
  cases k <;> kind_norm <;> omega

/-- The wrapped value is congruent to the exact one modulo the size of the type, so `wrap` is the
unique in-range representative. -/
theorem wrap_congr (k : Kind) (x : Int) : ((2 ^ k.bits : Nat) : Int) ∣ (k.wrap x - x) := by
  cases k <;> simp [Kind.wrap, Kind.signed, Kind.bits] <;> omega

end Kind
end Micro
