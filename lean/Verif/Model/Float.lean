import Verif.Model.Dh
import Verif.Model.Merkle
import Verif.Model.Simul
import Mathlib.Analysis.SpecialFunctions.Log.Base

/-! # Model of the sizes that are computed with floating-point numbers

The other models compute these sizes exactly. Here they are as the code computes them: `fl` is the rounding of the hardware,
applied to every conversion and every quotient, and `lg` is the function `math.Log2` of the standard library. -/

namespace Verif.Float

/-- `int(math.Ceil(float64(a) / float64(b)))`: lib/server/dh.go:30, lib/database/elliptic.go:36. -/
def ceilDiv (fl : ℚ → ℚ) (a b : Nat) : Int := ⌈fl (fl a / fl b)⌉

/-- simulations/multi/client/client.go:361-364 and simulations/simul.go:343-345 `bitsToBlocks`. -/
def bitsToBlocks (fl : ℚ → ℚ) (blockSize elemSize numBits : Nat) : Int := ceilDiv fl numBits (blockSize * elemSize)

/-- `int(math.Ceil(math.Log2(float64(n))))`: lib/merkle/merkletree.go:61, 77, 93. The argument of the logarithm is at most
2^32 in the theorems and hence exact. -/
noncomputable def ceilLog2 (lg : Nat → ℝ) (n : Nat) : Int := ⌈lg n⌉

end Verif.Float
