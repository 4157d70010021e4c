import Verif.Spec.Float
import Verif.Lemmas.Monitor
import Mathlib.Analysis.Convex.SpecificFunctions.Basic
import Mathlib.Data.Nat.Log

/-! # Lemmas about floating-point sizes -/

namespace Verif.Float
open Monitor.Spec

theorem fl_nat {fl : ℚ → ℚ} (hf : Nearest fl) {a : Nat} (h : a < 2 ^ 53) : fl a = a := by
  have hd : Double (a : ℚ) := by
    have := Monitor.double_int (q := (a : Int)) (by rw [abs_of_nonneg (by positivity)]; exact_mod_cast h)
    exact_mod_cast this
  have := (hf a).2 a hd
  simp only [sub_self, abs_zero, abs_nonpos_iff] at this
  linarith

/-- A quotient of integers of at most 53 bits is rounded within the same integers. -/
theorem ceil_fl_div {fl : ℚ → ℚ} (hf : Nearest fl) {a b : Nat} (ha : a < 2 ^ 53) (hb : 0 < b) (hb2 : b < 2 ^ 53) :
    ⌈fl ((a : ℚ) / b)⌉ = ⌈(a : ℚ) / b⌉ := by
  have hbq : (0 : ℚ) < b := by exact_mod_cast hb
  rcases Nat.eq_zero_or_pos a with h0 | h0
  · subst h0
    have := fl_nat hf (a := 0) (by norm_num)
    simp only [Nat.cast_zero] at this
    simp [this]
  obtain ⟨k, hk⟩ : ∃ k : Nat, ⌈(a : ℚ) / b⌉ = k + 1 := by
    have : 0 < ⌈(a : ℚ) / b⌉ := Int.ceil_pos.mpr (by positivity)
    exact ⟨(⌈(a : ℚ) / b⌉ - 1).toNat, by omega⟩
  have hc := Int.ceil_eq_iff.mp hk
  obtain ⟨h1, h2⟩ := hc
  push_cast at h1 h2
  have h1' : (k : ℚ) < (a : ℚ) / b := by linarith
  have hkb : k * b + 1 ≤ a := by
    rw [lt_div_iff₀ hbq] at h1'
    have : k * b < a := by exact_mod_cast h1'
    omega
  have hgap : (k : ℚ) + 1 / b ≤ (a : ℚ) / b := by
    rw [le_div_iff₀ hbq, add_mul, one_div, inv_mul_cancel₀ hbq.ne']
    exact_mod_cast hkb
  rw [hk, Int.ceil_eq_iff]
  push_cast
  constructor
  · -- not rounded down to the integer below
    by_contra hle
    have hle : fl ((a : ℚ) / b) ≤ k := by linarith
    let e := Nat.log 2 b
    have he1 : 2 ^ e ≤ b := Nat.pow_log_le_self 2 (by omega)
    have he2 : b < 2 ^ (e + 1) := Nat.lt_pow_succ_log_self (by norm_num) b
    have hlt : k * 2 ^ e + 1 < 2 ^ 53 := by
      have : k * 2 ^ e ≤ k * b := Nat.mul_le_mul_left k he1
      omega
    have he : e ≤ 1074 := by
      have : 2 ^ e < 2 ^ 53 := by omega
      have := (Nat.pow_lt_pow_iff_right (by norm_num : 1 < 2)).mp this
      omega
    have hy := Monitor.double_div (q := ((k * 2 ^ e + 1 : Nat) : Int)) (e := e)
      (by rw [abs_of_nonneg (by positivity)]; exact_mod_cast hlt) he
    have := (hf ((a : ℚ) / b)).2 _ hy
    rw [abs_of_nonneg (by linarith : (0 : ℚ) ≤ (a : ℚ) / b - fl ((a : ℚ) / b))] at this
    have hyv : (((k * 2 ^ e + 1 : Nat) : Int) : ℚ) / 2 ^ e = k + 1 / 2 ^ e := by
      push_cast
      field_simp
    rw [hyv] at this
    have hp1 : (0 : ℚ) < 1 / 2 ^ e := by positivity
    have hp2 : (1 : ℚ) / 2 ^ e < 2 * (1 / b) := by
      rw [div_lt_iff₀ (by positivity), mul_assoc, div_mul_eq_mul_div, one_mul, mul_div_assoc', lt_div_iff₀ hbq, one_mul]
      have : (b : ℚ) < 2 ^ (e + 1) := by exact_mod_cast he2
      rw [pow_succ] at this
      linarith
    rcases abs_cases ((a : ℚ) / b - (k + 1 / 2 ^ e)) with ⟨h3, _⟩ | ⟨h3, _⟩ <;> rw [h3] at this <;> linarith
  · -- not rounded up beyond the integer above
    by_contra hgt
    have hgt : (k : ℚ) + 1 < fl ((a : ℚ) / b) := by linarith
    have hd : Double (((k + 1 : Nat) : Int) : ℚ) := Monitor.double_int (by
      rw [abs_of_nonneg (by positivity)]
      have : k ≤ k * b := Nat.le_mul_of_pos_right k hb
      have : k + 1 < 2 ^ 53 := by omega
      exact_mod_cast this)
    have := (hf ((a : ℚ) / b)).2 _ hd
    push_cast at this
    rw [abs_sub_comm, abs_of_nonneg (by linarith), abs_sub_comm, abs_of_nonneg (by linarith)] at this
    linarith

/-- `log2 (1 + x) ≥ x` between zero and one. -/
theorem le_logb_one_add {x : ℝ} (h0 : 0 ≤ x) (h1 : x ≤ 1) : x ≤ Real.logb 2 (1 + x) := by
  rw [Real.le_logb_iff_rpow_le (by norm_num) (by linarith)]
  have := rpow_one_add_le_one_add_mul_self (s := 1) (by norm_num) h0 h1
  norm_num at this
  linarith

/-- The logarithm of a number that is not a power of two keeps away from the integers. -/
theorem logb_between {n k : Nat} (h1 : 2 ^ k < n) (h2 : n < 2 ^ (k + 1)) :
    (k : ℝ) + 1 / 2 ^ k ≤ Real.logb 2 n ∧ Real.logb 2 n ≤ (k : ℝ) + 1 - 1 / 2 ^ (k + 1) := by
  have hn : (0 : ℝ) < n := by
    have : 0 < n := by omega
    exact_mod_cast this
  have hk : (0 : ℝ) < 2 ^ k := by positivity
  have h1' : (2 : ℝ) ^ k + 1 ≤ n := by exact_mod_cast h1
  have h2' : (n : ℝ) + 1 ≤ 2 ^ (k + 1) := by exact_mod_cast h2
  constructor
  · have hx : (n : ℝ) = 2 ^ k * (1 + (n - 2 ^ k) / 2 ^ k) := by field_simp; ring
    have h3 := le_logb_one_add (x := ((n : ℝ) - 2 ^ k) / 2 ^ k) (div_nonneg (by linarith) hk.le)
      (by rw [div_le_one hk]; rw [pow_succ] at h2'; linarith)
    have h4 : (1 : ℝ) / 2 ^ k ≤ ((n : ℝ) - 2 ^ k) / 2 ^ k := by gcongr; linarith
    rw [hx, Real.logb_mul hk.ne' (by
      have : (0 : ℝ) ≤ ((n : ℝ) - 2 ^ k) / 2 ^ k := div_nonneg (by linarith) hk.le
      linarith), Real.logb_pow, Real.logb_self_eq_one (by norm_num), mul_one]
    · linarith
  · have hx : (2 : ℝ) ^ (k + 1) = n * (1 + (2 ^ (k + 1) - n) / n) := by field_simp; ring
    have h3 := le_logb_one_add (x := ((2 : ℝ) ^ (k + 1) - n) / n) (div_nonneg (by linarith) hn.le)
      (by rw [div_le_one hn, pow_succ]; linarith)
    have h4 : (1 : ℝ) / 2 ^ (k + 1) ≤ ((2 : ℝ) ^ (k + 1) - n) / n := by
      rw [div_le_div_iff₀ (by positivity) hn]
      nlinarith
    have h5 : Real.logb 2 (2 ^ (k + 1) : ℝ) = k + 1 := by
      rw [Real.logb_pow, Real.logb_self_eq_one (by norm_num)]
      push_cast
      ring
    rw [hx, Real.logb_mul hn.ne' (by
      have : (0 : ℝ) ≤ ((2 : ℝ) ^ (k + 1) - n) / n := div_nonneg (by linarith) hn.le
      linarith)] at h5
    linarith

end Verif.Float
