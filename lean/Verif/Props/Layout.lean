import Verif.Lemmas.Layout
import Verif.Props.Point

/-! # Layout of databases (C18) -/

namespace Verif.Layout
open Res Verif.Database Verif.Point

/-- C18 as claimed: the square layout has room for all blocks and no row too many. -/
def C18_Statement : Prop :=
  ∀ n, 0 < n → ∃ c, calculateNumRowsAndColumns n true = (c, c) ∧ n ≤ c * c ∧ (c - 1) * (c - 1) < n

/-- C18 up to 2^52 blocks. Missing from the full claim: larger numbers, for which it is false. -/
theorem C18_square_partial (n : Nat) (h0 : 0 < n) (h : n ≤ 2 ^ 52) :
    ∃ c, calculateNumRowsAndColumns n true = (c, c) ∧ n ≤ c * c ∧ (c - 1) * (c - 1) < n := by
  obtain ⟨c, h1, -, h2, h3⟩ := calculate_matrix h
  exact ⟨c, h1, h2, h3 h0⟩

/-- For 2^52 + 1 blocks the floating-point square root is the integer 2^26, and the layout has one place too few. -/
theorem C18_too_small : calculateNumRowsAndColumns (2 ^ 52 + 1) true = (2 ^ 26, 2 ^ 26) := by
  have hs : Nat.sqrt (2 ^ 52 + 1) = 2 ^ 26 := by
    refine (Nat.eq_sqrt.mpr ?_).symm
    constructor <;> norm_num
  have hs2 : Nat.sqrt ((2 ^ 52 + 1) * 4 ^ 26) = 2 ^ 52 := by
    refine (Nat.eq_sqrt.mpr ?_).symm
    constructor <;> norm_num
  have hr : roundBits 53 (2 ^ 52 + 1) = 2 ^ 52 + 1 := roundBits_small (by norm_num)
  have hz : (2 ^ 26 : Nat).size = 27 := Nat.size_pow
  have hsq : sqrtF64 (2 ^ 52 + 1) = (2 ^ 52, 26) := by
    unfold sqrtF64
    simp only [hr, hs, hz, show 53 - 27 = 26 from rfl, hs2]
    norm_num
  have hinc : increaseToNextSquare (2 ^ 52 + 1) = 2 ^ 52 + 1 := by
    unfold increaseToNextSquare
    rw [hsq]
    norm_num
  unfold calculateNumRowsAndColumns
  rw [if_pos rfl, hinc]
  simp only [hsq]
  norm_num

/-- C18 as claimed is false. -/
theorem C18_refuted : ¬ C18_Statement := by
  intro h
  obtain ⟨c, h1, h2, -⟩ := h (2 ^ 52 + 1) (by norm_num)
  rw [C18_too_small] at h1
  obtain ⟨rfl, -⟩ := Prod.mk.inj h1
  norm_num at h2

/-- C18: without the matrix option the layout is one row. -/
theorem C18_row (n : Nat) : calculateNumRowsAndColumns n false = (1, n) := rfl

/-- C18: every linear index is the index of exactly one row and column. -/
theorem C18_indices (R C : Nat) (i : Nat) (hi : i < R * C) :
    ∃ x y : Nat, vectorToMatrixIndices i C = ok ((x : Int), (y : Int)) ∧ x < R ∧ y < C ∧ x * C + y = i ∧
      ∀ x' y' : Nat, y' < C → x' * C + y' = i → x' = x ∧ y' = y := by
  obtain ⟨hC, hx, hy, hxy⟩ := index_split hi
  refine ⟨i / C, i % C, indices i C hC, hx, hy, ?_, ?_⟩
  · rw [Nat.mul_comm]; exact Nat.div_add_mod i C
  · rintro x' y' h1 rfl
    constructor
    · rw [Nat.mul_comm, Nat.mul_add_div hC, Nat.div_eq_of_lt h1, Nat.add_zero]
    · rw [Nat.mul_comm, Nat.mul_add_mod, Nat.mod_eq_of_lt h1]

/-- C18: conversely every place of the layout has a linear index that is converted back to it. -/
theorem C18_indices_back (R C x y : Nat) (hx : x < R) (hy : y < C) :
    x * C + y < R * C ∧ vectorToMatrixIndices ((x * C + y : Nat) : Int) C = ok ((x : Int), (y : Int)) := by
  have hlt : x * C + y < R * C := by
    have : (x + 1) * C ≤ R * C := Nat.mul_le_mul_right _ hx
    rw [Nat.succ_mul] at this
    omega
  refine ⟨hlt, ?_⟩
  obtain ⟨a, b, h1, -, -, -, h2⟩ := C18_indices R C _ hlt
  obtain ⟨rfl, rfl⟩ := h2 x y hy rfl
  exact h1

/-- C18: the sizes are computed with numbers rounded as IEEE 754 asks for. -/
theorem C18_rounding (p n : Nat) (hp : 0 < p) : Spec.Rounded p n (roundBits p n) := roundBits_rounded hp

/-- A tie at 24 digits: 2^24 + 1 and 2^24 + 3 are rounded to multiples of four. -/
example : 0 < 24 ∧ roundBits 24 (2 ^ 24 + 1) = 2 ^ 24 ∧ roundBits 24 (2 ^ 24 + 3) = 2 ^ 24 + 4 := by decide +kernel

/-- C18: layouts of sizes that are and are not squares. -/
example : (0 < 17 ∧ 17 ≤ 2 ^ 52) ∧ (0 < 16 ∧ 16 ≤ 2 ^ 52) := by decide

end Verif.Layout
