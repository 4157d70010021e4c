import Verif.Model.Float
import Verif.Spec.Monitor

/-! # Specification: what is assumed of floating-point operations -/

namespace Verif.Float.Spec

/-- A logarithm to the base two as in a mathematical library: exact for powers of two, elsewhere with an absolute error of at
most `δ`. -/
structure Log2 (lg : Nat → ℝ) (δ : ℝ) : Prop where
  pow : ∀ k : Nat, lg (2 ^ k) = k
  near : ∀ n : Nat, 0 < n → |lg n - Real.logb 2 n| ≤ δ

end Verif.Float.Spec
