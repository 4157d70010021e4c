import Mathlib.Data.Nat.Dist
import Mathlib.Data.Nat.Size

/-! # Specification of floating-point rounding of natural numbers -/

namespace Verif.Layout.Spec

/-- A natural number with at most `p` significant binary digits. -/
def Digits (p x : Nat) : Prop := ∃ q e, q < 2 ^ p ∧ x = q * 2 ^ e

/-- `r` is `n` rounded to `p` significant binary digits as IEEE 754 asks for: nothing with that many digits is nearer, and
if another number is as near, then `r` is the one whose last digit is even (an even multiple of the distance of the two). -/
def Rounded (p n r : Nat) : Prop :=
  Digits p r ∧ ∀ x, Digits p x → Nat.dist n r ≤ Nat.dist n x ∧
    (Nat.dist n x = Nat.dist n r → x ≠ r → 2 * Nat.dist x r ∣ r)

end Verif.Layout.Spec
