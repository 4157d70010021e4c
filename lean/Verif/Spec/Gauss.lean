import Verif.Model.Gauss
import Verif.Spec.Privacy
import Verif.Spec.Monitor
import Mathlib.Analysis.SpecialFunctions.Exp
import Mathlib.Order.Interval.Finset.Basic
import Mathlib.Data.Int.Interval

/-! # Specification: the distribution of the noise -/

namespace Verif.Gauss.Spec
open Res Verif.Privacy

/-- The Gaussian function of width 6.4 (lib/utils/lwe.go:28 `Sigma`). -/
noncomputable def rho (g : Int) : ℝ := Real.exp (-(g : ℝ) ^ 2 / (2 * 6.4 ^ 2))

/-- The discrete Gaussian distribution of width 6.4 on the integers from -128 to 128. -/
noncomputable def gaussian (g : Int) : ℝ := rho g / ∑ h ∈ Finset.Icc (-128 : Int) 128, rho h

/-- A symmetric distribution on the integers from -128 to 128 that equals the discrete Gaussian up to a factor of
1 ± 1/50000 and an absolute error of 2^-62. -/
structure NearGaussian (q : Int → ℚ) : Prop where
  nonneg : ∀ g, 0 ≤ q g
  symmetric : ∀ g, q (-g) = q g
  support : ∀ g : Int, 128 < g.natAbs → q g = 0
  sum : ∑ g ∈ Finset.Icc (-128 : Int) 128, q g = 1
  near : ∀ g : Int, g.natAbs ≤ 128 →
    (1 - 1 / 50000) * gaussian g ≤ (q g : ℝ) ∧ (q g : ℝ) ≤ (1 + 1 / 50000) * gaussian g + 1 / 2 ^ 62

open Classical in
/-- The part of all sequences of `N` random words for which `A` holds. -/
noncomputable def part (N : Nat) (A : List (BitVec 64) → Prop) : ℚ :=
  avg (fun B : Fin N → BitVec 64 => if A (List.ofFn B) then 1 else 0)

/-- The samples drawn from the words are exactly `gs`. -/
def Yields (fl : ℚ → ℚ) (gs : List Int) (ws : List (BitVec 64)) : Prop :=
  ∃ rest, gaussSamples fl gs.length ws = ok (gs, rest)

end Verif.Gauss.Spec
