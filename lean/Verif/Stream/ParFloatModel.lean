import Verif.Stream.ParModel
import Verif.Conv.FloatModel
/-
The sizes Parallel computes with float64 arithmetic, as it is written.
-/
namespace Micro.Stream
open Micro Micro.Conv

/-- `uint(gomath.Min(float64(numItems), gomath.Max(1, float64(inf.N))))` (stream/stream.go:1127, 1142): the conversions to float64 round to the nearest
float64, Min and Max are exact, and the conversion to uint drops the fraction. -/
def clampFloat (numItems : Nat) (n : Int) : Nat :=
  (trunc (min (roundFloat float64 numItems) (max 1 (roundFloat float64 n)))).toNat

/-- `uint(gomath.Round(gomath.Sqrt(float64(numItems))))` (stream/stream.go:1108), with `sqrt` for math.Sqrt. Round of a number that is not negative
is the largest integer up to half more. -/
def sqrtFloat (sqrt : ℚ → ℚ) (numItems : Nat) : Nat := ⌊sqrt (roundFloat float64 numItems) + 1 / 2⌋.toNat

/-- stream/stream.go:1102-1160 `generateRanges` with the sizes computed in float64. -/
def generateRangesFloat (sqrt : ℚ → ℚ) (numItems : Nat) (info : Option PInfo) : List (Nat × Nat) :=
  match info with
  | none => bucketRanges numItems (sqrtFloat sqrt numItems)
  | some inf =>
    let q := clampFloat numItems inf.n
    if inf.items then bucketRanges numItems q
    else threadRangesLoop numItems (numItems / q) numItems 0 (numItems % q)

end Micro.Stream
