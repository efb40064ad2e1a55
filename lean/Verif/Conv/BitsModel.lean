import Verif.Conv.FloatModel
/-
The precisions that conv computes with float64 arithmetic, as written.
-/
namespace Micro.Conv

/-- `math.Ceil(float64(n) * log2Of10)` (conv/bigfloat.go:16, 50, 64), with `c` for log2Of10 = math.Log2(10) (conv/conv.go:26): the product rounded to
float64, then up to an integer. -/
def bitsFloat (c : ℚ) (n : ℕ) : ℕ := ⌈roundFloat float64 (n * c)⌉.toNat

end Micro.Conv
