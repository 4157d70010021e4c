import Verif.Lemmas.Float

/-! # Sizes computed in floating point (C100) -/

namespace Verif.Float
open Res Monitor.Spec

/-- C100: with rounding to a nearest double, however ties are broken, the ceiling of a quotient of integers below 2^53 is
exact: `k` parts of size `b` suffice for `a`, and one part less does not. -/
theorem C100_ceil {fl : ℚ → ℚ} (hf : Nearest fl) {a b : Nat} (ha : a < 2 ^ 53) (hb : 0 < b) (hb2 : b < 2 ^ 53) :
    ∃ k : Nat, ceilDiv fl a b = k ∧ a ≤ k * b ∧ k * b < a + b := by
  have hbq : (0 : ℚ) < b := by exact_mod_cast hb
  have h1 : a ≤ (a + b - 1) / b * b := by
    have := Nat.div_add_mod (a + b - 1) b
    have := Nat.mod_lt (a + b - 1) hb
    rw [Nat.mul_comm]
    omega
  have h2 : (a + b - 1) / b * b < a + b := by
    have := Nat.div_mul_le_self (a + b - 1) b
    omega
  refine ⟨(a + b - 1) / b, ?_, h1, h2⟩
  unfold ceilDiv
  rw [fl_nat hf ha, fl_nat hf hb2, ceil_fl_div hf ha hb hb2, Int.ceil_eq_iff]
  generalize (a + b - 1) / b = k at h1 h2
  constructor
  · rw [lt_div_iff₀ hbq]
    have : ((k * b : Nat) : ℚ) < ((a + b : Nat) : ℚ) := by exact_mod_cast h2
    push_cast at this ⊢
    linarith
  · rw [div_le_iff₀ hbq]
    exact_mod_cast h1

theorem parts_unique {a b k l : Nat} (h1 : a ≤ k * b) (h2 : k * b < a + b) (h3 : a ≤ l * b) (h4 : l * b < a + b) :
    k = l := by
  rcases Nat.lt_trichotomy k l with h | h | h
  · have : (k + 1) * b ≤ l * b := Nat.mul_le_mul_right b h
    rw [Nat.add_mul, Nat.one_mul] at this
    omega
  · exact h
  · have : (l + 1) * b ≤ k * b := Nat.mul_le_mul_right b h
    rw [Nat.add_mul, Nat.one_mul] at this
    omega

/-- C100: the rows per goroutine that the group scheme computes in floating point are those of the model of C39 to C42. -/
theorem C100_rows {fl : ℚ → ℚ} (hf : Nearest fl) {numRows n : Nat} (ha : numRows < 2 ^ 53) (hn : 0 < n)
    (hn2 : n < 2 ^ 53) : ceilDiv fl numRows n = Dh.ceilDiv numRows n := by
  obtain ⟨k, hk, h1, h2⟩ := C100_ceil hf ha hn hn2
  rw [hk, parts_unique h1 h2 (l := Dh.ceilDiv numRows n)]
  · unfold Dh.ceilDiv
    have := Nat.div_add_mod (numRows + n - 1) n
    have := Nat.mod_lt (numRows + n - 1) hn
    rw [Nat.mul_comm]
    omega
  · unfold Dh.ceilDiv
    have := Nat.div_mul_le_self (numRows + n - 1) n
    omega

/-- C100: the number of blocks that the experiment client retrieves is enough for the bits asked for, and one block less is
not; it is the number of the model of C66. -/
theorem C100_blocks {fl : ℚ → ℚ} (hf : Nearest fl) {blockSize elemSize numBits : Nat} (hb : 0 < blockSize * elemSize)
    (hb2 : blockSize * elemSize < 2 ^ 53) (hn : numBits < 2 ^ 53) :
    ∃ k : Nat, bitsToBlocks fl blockSize elemSize numBits = k ∧ Simul.bitsToBlocks blockSize elemSize numBits = ok k ∧
      numBits ≤ k * (blockSize * elemSize) ∧ k * (blockSize * elemSize) < numBits + blockSize * elemSize := by
  obtain ⟨k, hk, h1, h2⟩ := C100_ceil hf hn hb hb2
  refine ⟨k, hk, ?_, h1, h2⟩
  unfold Simul.bitsToBlocks
  rw [if_neg (by omega)]
  congr 1
  refine parts_unique ?_ ?_ h1 h2
  · have := Nat.div_add_mod (numBits + blockSize * elemSize - 1) (blockSize * elemSize)
    have := Nat.mod_lt (numBits + blockSize * elemSize - 1) hb
    rw [Nat.mul_comm]
    omega
  · have := Nat.div_mul_le_self (numBits + blockSize * elemSize - 1) (blockSize * elemSize)
    omega

/-- The bound is sharp: with 2^53 + 1 rows and one goroutine the number of rows is not computed. -/
theorem C100_ceil_bound {fl : ℚ → ℚ} (hf : Nearest fl) : ceilDiv fl (2 ^ 53 + 1) 1 ≠ 2 ^ 53 + 1 := by
  intro h
  have h1 : fl 1 = 1 := by simpa using fl_nat hf (a := 1) (by norm_num)
  unfold ceilDiv at h
  rw [Nat.cast_one, h1, div_one] at h
  have hid : ∀ x, Double x → fl x = x := by
    intro x hx
    have := (hf x).2 x hx
    simp only [sub_self, abs_zero, abs_nonpos_iff] at this
    linarith
  rw [hid _ (hf _).1] at h
  push_cast at h
  have hd := (hf 9007199254740993).1
  generalize fl 9007199254740993 = x at h hd
  obtain ⟨hl, hu⟩ := Int.ceil_eq_iff.mp h
  push_cast at hl hu
  obtain ⟨q, e, hq, hx | ⟨-, hx⟩⟩ := hd
  · -- an integer
    have hxi : x = ((q * 2 ^ e : Int) : ℚ) := by rw [hx]; push_cast; rfl
    have hv : q * 2 ^ e = 2 ^ 53 + 1 := by
      have h3 : ((2 ^ 53 : Int) : ℚ) < ((q * 2 ^ e : Int) : ℚ) := by rw [← hxi]; push_cast; linarith
      have h4 : ((q * 2 ^ e : Int) : ℚ) ≤ ((2 ^ 53 + 1 : Int) : ℚ) := by rw [← hxi]; push_cast; linarith
      have h3 := Int.cast_lt.mp h3
      have h4 := Int.cast_le.mp h4
      omega
    cases e with
    | zero =>
      rw [pow_zero, mul_one] at hv
      rw [hv] at hq
      norm_num at hq
    | succ e =>
      rw [pow_succ, ← mul_assoc] at hv
      omega
  · -- a fraction of a 53-bit integer is below
    have : x < 2 ^ 53 := by
      have hq' : (q : ℚ) < 2 ^ 53 := by
        have := (abs_lt.mp hq).2
        exact_mod_cast this
      rw [hx, div_lt_iff₀ (by positivity)]
      have : (1 : ℚ) ≤ 2 ^ e := one_le_pow₀ (by norm_num)
      nlinarith
    linarith

/-- C100: for every logarithm that is exact on powers of two and elsewhere off by less than 2^-32, the depth of the tree over
`n` records, which are at most 2^32 because their indices are 32-bit numbers, is the least with room for all of them, as in
the model of C07 to C11. -/
theorem C100_log2 {lg : Nat → ℝ} {δ : ℝ} (hl : Spec.Log2 lg δ) (hδ : δ < 1 / 2 ^ 32) {n : Nat} (h0 : 0 < n)
    (hn : n ≤ 2 ^ 32) :
    ∃ d : Nat, ceilLog2 lg n = d ∧ d = Merkle.ceilLog2 n ∧ n ≤ 2 ^ d ∧ ∀ d', n ≤ 2 ^ d' → d ≤ d' := by
  have hclog : ∀ d, n ≤ 2 ^ d → (∀ d', n ≤ 2 ^ d' → d ≤ d') → d = Merkle.ceilLog2 n := by
    intro d h1 h2
    exact Nat.le_antisymm (h2 _ (Nat.le_pow_clog (by norm_num) n)) (Nat.clog_le_of_le_pow h1)
  by_cases hp : n = 2 ^ Nat.log 2 n
  · have hmin : ∀ d', n ≤ 2 ^ d' → Nat.log 2 n ≤ d' := by
      intro d' hd
      rw [hp] at hd
      exact (Nat.pow_le_pow_iff_right (by norm_num)).mp hd
    refine ⟨Nat.log 2 n, ?_, hclog _ hp.le hmin, hp.le, hmin⟩
    unfold ceilLog2
    rw [hp, hl.pow, Nat.log_pow (by norm_num)]
    exact Int.ceil_natCast _
  · have hlt : 2 ^ Nat.log 2 n < n := lt_of_le_of_ne (Nat.pow_log_le_self 2 (by omega)) (Ne.symm hp)
    have hgt : n < 2 ^ (Nat.log 2 n + 1) := Nat.lt_pow_succ_log_self (by norm_num) n
    have hk : Nat.log 2 n + 1 ≤ 32 := by
      have : 2 ^ Nat.log 2 n < 2 ^ 32 := by omega
      exact (Nat.pow_lt_pow_iff_right (by norm_num)).mp this
    generalize Nat.log 2 n = k at hlt hgt hk
    have hmin : ∀ d', n ≤ 2 ^ d' → k + 1 ≤ d' := by
      intro d' hd
      have : 2 ^ k < 2 ^ d' := by omega
      exact (Nat.pow_lt_pow_iff_right (by norm_num)).mp this
    refine ⟨k + 1, ?_, hclog _ hgt.le hmin, hgt.le, hmin⟩
    obtain ⟨h1, h2⟩ := logb_between hlt hgt
    have h3 := abs_le.mp (hl.near n h0)
    have h4 : (1 : ℝ) / 2 ^ 32 ≤ 1 / 2 ^ (k + 1) :=
      one_div_le_one_div_of_le (by positivity) (pow_le_pow_right₀ (by norm_num) hk)
    have h5 : (1 : ℝ) / 2 ^ (k + 1) ≤ 1 / 2 ^ k :=
      one_div_le_one_div_of_le (by positivity) (pow_le_pow_right₀ (by norm_num) (by omega))
    unfold ceilLog2
    rw [Int.ceil_eq_iff]
    push_cast
    constructor <;> linarith [h3.1, h3.2]

/-! ### Cases -/

/-- There is a rounding to a nearest double, and there is a logarithm. -/
example : (∃ fl, Nearest fl) ∧ Spec.Log2 (fun n => Real.logb 2 n) (1 / 2 ^ 50) := by
  refine ⟨Monitor.nearest_exists, fun k => ?_, fun n _ => ?_⟩
  · push_cast
    rw [Real.logb_pow, Real.logb_self_eq_one (by norm_num), mul_one]
  · simp

/-- The 67 108 864 = 2^26 rows of the largest table of the group scheme, for 24 goroutines. -/
example {fl : ℚ → ℚ} (hf : Nearest fl) : ceilDiv fl (2 ^ 26) 24 = 2796203 := by
  rw [C100_rows hf (by norm_num) (by norm_num) (by norm_num)]
  rfl

/-- A logarithm with a larger error can get the depth wrong: a tree of depth three for nine records. -/
example : ∃ lg : Nat → ℝ, Spec.Log2 lg (1 / 4) ∧ ceilLog2 lg 9 = 3 := by
  have h9 : Real.logb 2 9 ≤ 3 + 1 / 4 := by
    rw [Real.logb_le_iff_le_rpow (by norm_num) (by norm_num)]
    have h : ((2 : ℝ) ^ (3 + 1 / 4 : ℝ)) ^ 4 = 2 ^ 13 := by
      rw [← Real.rpow_natCast, ← Real.rpow_mul (by norm_num)]
      norm_num
    by_contra hlt
    have hlt : (2 : ℝ) ^ (3 + 1 / 4 : ℝ) < 9 := by linarith
    have := pow_lt_pow_left₀ hlt (by positivity) (by norm_num : (4 : ℕ) ≠ 0)
    rw [h] at this
    norm_num at this
  have h3 : 3 ≤ Real.logb 2 9 := by
    rw [Real.le_logb_iff_rpow_le (by norm_num) (by norm_num)]
    norm_num
  refine ⟨fun n => if n = 9 then 3 else Real.logb 2 n, ⟨fun k => ?_, fun n _ => ?_⟩, ?_⟩
  · have h1 : 2 ^ k ≠ 9 := by
      intro h
      cases k with
      | zero => simp at h
      | succ k => rw [pow_succ] at h; omega
    simp only [if_neg h1]
    push_cast
    rw [Real.logb_pow, Real.logb_self_eq_one (by norm_num), mul_one]
  · by_cases h : n = 9
    · subst h
      simp only [if_true]
      push_cast
      rw [abs_le]
      constructor <;> linarith
    · simp [h]
  · simp [ceilLog2]

end Verif.Float
