import Verif.Model.Monitor
import Mathlib.Algebra.Order.Group.Unbundled.Abs

/-! # Specification: what the CPU costs mean -/

namespace Verif.Monitor.Spec
open Verif.Monitor

/-- A number that `float64` represents (leaving aside that exponents are also bounded from above). -/
def Double (x : ℚ) : Prop := ∃ (q : Int) (e : Nat), |q| < 2 ^ 53 ∧ (x = q * 2 ^ e ∨ e ≤ 1074 ∧ x = q / 2 ^ e)

/-- Rounding to a nearest double. How ties are broken does not matter. -/
def Nearest (fl : ℚ → ℚ) : Prop := ∀ x, Double (fl x) ∧ ∀ y, Double y → |x - fl x| ≤ |x - y|

/-- A reading of the kernel's clocks as it should be: microseconds within a second. -/
structure Sound (r : Rusage) : Prop where
  s0 : 0 ≤ r.stimeSec
  u0 : 0 ≤ r.utimeSec
  s : 0 ≤ r.stimeUsec ∧ r.stimeUsec < 1000000
  u : 0 ≤ r.utimeUsec ∧ r.utimeUsec < 1000000

/-- System time in microseconds. -/
def sys (r : Rusage) : Int := r.stimeSec * 1000000 + r.stimeUsec

/-- User time in microseconds. -/
def user (r : Rusage) : Int := r.utimeSec * 1000000 + r.utimeUsec

/-- The kernel's clocks: every reading succeeds and is sound, and neither time ever goes back. -/
def Clock (clock : Nat → Option Rusage) (r : Nat → Rusage) : Prop :=
  ∀ k, clock k = some (r k) ∧ Sound (r k) ∧ ∀ l, k ≤ l → sys (r k) ≤ sys (r l) ∧ user (r k) ≤ user (r l)

/-- Does the call start a new measurement? -/
def restarts : Call → Bool
  | .reset | .recordAndReset => true
  | _ => false

/-- Before call number `i` (counted from 1) of `cs` the measurement was started last by call number `j`, where number 0 is the
creation of the monitor. -/
def StartedAt (cs : List Call) (i j : Nat) : Prop :=
  j < i ∧ (j = 0 ∨ ∃ c, cs[j - 1]? = some c ∧ restarts c) ∧
    ∀ k c, j < k → k < i → cs[k - 1]? = some c → restarts c = false

/-- Milliseconds of CPU time between two readings, exactly. -/
def cost (a b : Rusage) : ℚ := ((sys b + user b - (sys a + user a) : Int) : ℚ) / 1000

end Verif.Monitor.Spec
