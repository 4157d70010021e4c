import Verif.Model.Matrix
import Mathlib.Algebra.BigOperators.Group.Finset.Basic

/-! # Specification vocabulary for matrices: entries and products, independent of loops and memory layout -/

namespace Verif.Matrix

/-- As many stored entries as the dimensions announce. -/
def Mat.WellFormed {w : Nat} (m : Mat w) : Prop := m.data.length = m.rows * m.cols

/-- Entry in row `i`, column `j` (entries are stored row by row). -/
def Mat.entry {w : Nat} (m : Mat w) (i j : Nat) : BitVec w := m.data.getD (i * m.cols + j) 0

/-- `c` is the `r × n` by `n × s` product of `a` and `b` over the integers modulo `2^w`. -/
def IsProduct {w : Nat} (r n s : Nat) (a b c : Nat → Nat → BitVec w) : Prop :=
  ∀ i j, i < r → j < s → c i j = ∑ k ∈ Finset.range n, a i k * b k j

/-- A byte matrix of zeros and ones, read as residues modulo `2^w`. -/
def bitAs (w : Nat) (m : Mat 8) (i j : Nat) : BitVec w := BitVec.ofNat w (m.entry i j).toNat

/-- Every stored byte is 0 or 1. -/
def Mat.Binary (m : Mat 8) : Prop := ∀ x ∈ m.data, x = 0 ∨ x = 1

/-- The index computations of an `r × n` by `n × s` product fit C's 32-bit `int`. -/
def FitsInt (r n s : Nat) : Prop :=
  0 < r ∧ 0 < n ∧ 0 < s ∧ r < 2 ^ 31 ∧ n < 2 ^ 31 ∧ s < 2 ^ 31 ∧
    r * n ≤ 2 ^ 31 ∧ n * s ≤ 2 ^ 31 ∧ r * s ≤ 2 ^ 31

instance (r n s : Nat) : Decidable (FitsInt r n s) := by unfold FitsInt; infer_instance

end Verif.Matrix
