import Verif.Go
import Mathlib.NumberTheory.LucasLehmer

/-! # Specification of the field of 2^31 - 1 elements -/

namespace Verif.Field.Spec

/-- The modulus. -/
def p : Nat := 2 ^ 31 - 1

/-- The value of the 31 low-order bits of a big-endian byte string. -/
def low31 (b : List Byte) : Nat := ofBE b % 2 ^ 31

/-- A canonical representative of a field element. -/
def Canonical (x : U32) : Prop := x.toNat < p

instance (x : U32) : Decidable (Canonical x) := by unfold Canonical; infer_instance

theorem p_prime : Nat.Prime p := by
  have := lucas_lehmer_sufficiency 31 (by norm_num) (by norm_num)
  simpa [mersenne, p] using this

instance : Fact p.Prime := ⟨p_prime⟩

end Verif.Field.Spec
