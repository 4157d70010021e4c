import Verif.Model.Layout
import Verif.Spec.Layout
import Mathlib.Tactic.Ring
import Mathlib.Tactic.NormNum
import Mathlib.Tactic.Linarith
import Mathlib.Tactic.IntervalCases

/-! # Lemmas about the layout computation -/

namespace Verif.Layout

theorem roundBits_small {p n : Nat} (h : n < 2 ^ p) : roundBits p n = n := by
  have hs : n.size - p = 0 := by
    have := Nat.size_le.mpr h
    omega
  unfold roundBits
  rw [hs]
  simp [Nat.mod_one]

theorem size_bounds {n : Nat} (h : 0 < n) : 2 ^ (n.size - 1) ≤ n ∧ n < 2 ^ n.size ∧ 0 < n.size := by
  have h0 : 0 < n.size := Nat.size_pos.mpr h
  refine ⟨?_, Nat.lt_size_self n, h0⟩
  exact Nat.lt_size.mp (by omega)

theorem digits_or {p n x : Nat} (hp : 0 < p) (hs : p < n.size) (hx : Spec.Digits p x) :
    x ≤ n / 2 ^ (n.size - p) * 2 ^ (n.size - p) ∨ (n / 2 ^ (n.size - p) + 1) * 2 ^ (n.size - p) ≤ x := by
  have hn : 0 < n := by
    by_contra h
    have : n = 0 := by omega
    subst this
    simp at hs
  obtain ⟨h1, h2, h3⟩ := size_bounds hn
  have hq : 2 ^ (p - 1) ≤ n / 2 ^ (n.size - p) := by
    rw [Nat.le_div_iff_mul_le (Nat.two_pow_pos _), ← Nat.pow_add]
    rwa [show p - 1 + (n.size - p) = n.size - 1 by omega]
  obtain ⟨q, e, hq', rfl⟩ := hx
  by_cases he : n.size - p ≤ e
  · obtain ⟨d, rfl⟩ := Nat.exists_eq_add_of_le he
    rw [pow_add, Nat.mul_comm (2 ^ (n.size - p)), ← Nat.mul_assoc]
    by_cases h : q * 2 ^ d ≤ n / 2 ^ (n.size - p)
    · exact Or.inl (Nat.mul_le_mul_right _ h)
    · exact Or.inr (Nat.mul_le_mul_right _ (by omega))
  · left
    calc q * 2 ^ e ≤ 2 ^ p * 2 ^ e := Nat.mul_le_mul_right _ hq'.le
      _ = 2 ^ (p + e) := by rw [pow_add]
      _ ≤ 2 ^ (p - 1 + (n.size - p)) := Nat.pow_le_pow_right (by omega) (by omega)
      _ = 2 ^ (p - 1) * 2 ^ (n.size - p) := by rw [pow_add]
      _ ≤ _ := Nat.mul_le_mul_right _ hq

theorem digits_succ {p q s : Nat} (hp : 0 < p) (hq : q < 2 ^ p) : Spec.Digits p ((q + 1) * 2 ^ s) := by
  by_cases h : q + 1 < 2 ^ p
  · exact ⟨q + 1, s, h, rfl⟩
  · refine ⟨1, p + s, Nat.one_lt_two_pow (by omega), ?_⟩
    rw [show q + 1 = 2 ^ p by omega, pow_add, Nat.one_mul]

theorem roundBits_rounded {p n : Nat} (hp : 0 < p) : Spec.Rounded p n (roundBits p n) := by
  by_cases hs : n.size ≤ p
  · have hn := Nat.size_le.mp hs
    rw [roundBits_small hn]
    refine ⟨⟨n, 0, hn, by simp⟩, ?_⟩
    intro x _
    simp only [Nat.dist_self]
    refine ⟨by omega, ?_⟩
    intro h hne
    exact absurd (Nat.eq_of_dist_eq_zero h).symm hne
  · have hs' : p < n.size := by omega
    have hq : n / 2 ^ (n.size - p) < 2 ^ p := by
      rw [Nat.div_lt_iff_lt_mul (Nat.two_pow_pos _), ← Nat.pow_add, show p + (n.size - p) = n.size by omega]
      exact Nat.lt_size_self n
    have hdig : Spec.Digits p (roundBits p n) := by
      unfold roundBits
      simp only
      split
      · exact digits_succ hp hq
      · exact ⟨_, _, hq, rfl⟩
    refine ⟨hdig, ?_⟩
    intro x hx
    have hor := digits_or hp hs' hx
    have hdm := Nat.div_add_mod n (2 ^ (n.size - p))
    have hr := Nat.mod_lt n (Nat.two_pow_pos (n.size - p))
    have hT := Nat.two_pow_pos (n.size - p)
    unfold roundBits
    simp only
    rw [Nat.mul_comm] at hdm
    rw [Nat.succ_mul] at hor
    generalize n / 2 ^ (n.size - p) = q at *
    generalize n % 2 ^ (n.size - p) = r at *
    generalize 2 ^ (n.size - p) = T at *
    simp only [Nat.dist]
    split
    · rename_i hc
      rw [Nat.succ_mul]
      generalize hQ : q * T = Q at *
      refine ⟨by omega, ?_⟩
      intro h hne
      have hx : x = Q := by omega
      have h2 : q % 2 = 1 := by omega
      obtain ⟨k, hk⟩ : ∃ k, q = 2 * k + 1 := ⟨q / 2, by omega⟩
      refine ⟨k + 1, ?_⟩
      have hd : x - (Q + T) + (Q + T - x) = T := by omega
      rw [hd, ← hQ, hk]
      ring
    · rename_i hc
      generalize hQ : q * T = Q at *
      refine ⟨by omega, ?_⟩
      intro h hne
      have hx : x = Q + T := by omega
      have h2 : q % 2 = 0 := by omega
      obtain ⟨k, hk⟩ : ∃ k, q = 2 * k := ⟨q / 2, by omega⟩
      refine ⟨k, ?_⟩
      have hd : x - Q + (Q - x) = T := by omega
      rw [hd, ← hQ, hk]
      ring
theorem roundBits_ge {p n k : Nat} (hp : 0 < p) (h : 2 ^ k ≤ n) : 2 ^ k ≤ roundBits p n := by
  by_cases hs : n.size ≤ p
  · rw [roundBits_small (Nat.size_le.mp hs)]; exact h
  · obtain ⟨h1, h2, h3⟩ := size_bounds (n := n) (lt_of_lt_of_le (Nat.two_pow_pos k) h)
    have hk : k ≤ n.size - 1 := by
      have : k < n.size := Nat.lt_size.mpr h
      omega
    have hq : 2 ^ (p - 1) ≤ n / 2 ^ (n.size - p) := by
      rw [Nat.le_div_iff_mul_le (Nat.two_pow_pos _), ← Nat.pow_add]
      rwa [show p - 1 + (n.size - p) = n.size - 1 by omega]
    have hq2 : 2 ^ k ≤ n / 2 ^ (n.size - p) * 2 ^ (n.size - p) := by
      calc 2 ^ k ≤ 2 ^ (n.size - 1) := Nat.pow_le_pow_right (by omega) hk
        _ = 2 ^ (p - 1) * 2 ^ (n.size - p) := by rw [← Nat.pow_add]; congr 1; omega
        _ ≤ _ := Nat.mul_le_mul_right _ hq
    unfold roundBits
    simp only
    split
    · rw [Nat.add_mul]; omega
    · exact hq2

theorem roundBits_le {p n : Nat} (hp : 0 < p) : roundBits p n ≤ 2 * n := by
  by_cases hs : n.size ≤ p
  · rw [roundBits_small (Nat.size_le.mp hs)]; omega
  · have hn : 0 < n := by
      by_contra h
      have : n = 0 := by omega
      subst this
      simp at hs
    obtain ⟨h1, h2, h3⟩ := size_bounds hn
    have hsp : 2 ^ (n.size - p) ≤ n := le_trans (Nat.pow_le_pow_right (by omega) (by omega)) h1
    have := Nat.div_mul_le_self n (2 ^ (n.size - p))
    unfold roundBits
    simp only
    split
    · rw [Nat.add_mul]; omega
    · omega

theorem preSquare_zero {n : Nat} (h : n < 10) : preSquareNumBlocks n = 0 := by
  interval_cases n <;> decide

theorem preSquare_pos {n : Nat} (h : 10 ≤ n) : 0 < preSquareNumBlocks n := by
  unfold preSquareNumBlocks
  apply Nat.div_pos _ (by norm_num)
  apply roundBits_ge (by norm_num)
  have : 10 ≤ roundBits 24 n := by
    by_cases hs : n < 2 ^ 24
    · rw [roundBits_small hs]; exact h
    · have := roundBits_ge (p := 24) (n := n) (k := 24) (by norm_num) (by omega)
      omega
  omega

theorem preSquare_le (n : Nat) : 5 * preSquareNumBlocks n ≤ 3 * n := by
  unfold preSquareNumBlocks
  have h1 := roundBits_le (p := 24) (n := n) (by norm_num)
  have h2 := roundBits_le (p := 24) (n := roundBits 24 n * 13421773) (by norm_num)
  have h3 : roundBits 24 (roundBits 24 n * 13421773) ≤ 4 * 13421773 * n := by
    calc _ ≤ 2 * (roundBits 24 n * 13421773) := h2
      _ ≤ 2 * ((2 * n) * 13421773) := by omega
      _ = _ := by ring
  have h4 := Nat.div_mul_le_self (roundBits 24 (roundBits 24 n * 13421773)) (2 ^ 27)
  omega

/-- The floating-point root of a perfect square is exact. -/
theorem sqrtF64_square {c : Nat} (h : c ≤ 2 ^ 26) : ∃ s, sqrtF64 (c * c) = (c * 2 ^ s, s) := by
  have hc : c * c < 2 ^ 53 := by
    calc c * c ≤ 2 ^ 26 * 2 ^ 26 := Nat.mul_le_mul h h
      _ < 2 ^ 53 := by norm_num
  refine ⟨53 - c.size, ?_⟩
  unfold sqrtF64
  simp only [roundBits_small hc, Nat.sqrt_eq]
  have hm : c * c * 4 ^ (53 - c.size) = (c * 2 ^ (53 - c.size)) * (c * 2 ^ (53 - c.size)) := by
    rw [show (4 : Nat) = 2 * 2 by norm_num, Nat.mul_pow]; ring
  rw [hm, Nat.sqrt_eq]
  simp

/-- The floating-point root of a number that is not a perfect square lies strictly between the neighbouring
integers. -/
theorem sqrtF64_between {n : Nat} (h : n ≤ 2 ^ 52) (hns : Nat.sqrt n * Nat.sqrt n ≠ n) :
    ∃ m s, sqrtF64 n = (m, s) ∧ m % 2 ^ s ≠ 0 ∧ m / 2 ^ s = Nat.sqrt n := by
  have hn : n < 2 ^ 53 := lt_of_le_of_lt h (by norm_num)
  have hk1 : Nat.sqrt n * Nat.sqrt n ≤ n := Nat.sqrt_le n
  have hk2 : n < (Nat.sqrt n + 1) * (Nat.sqrt n + 1) := Nat.lt_succ_sqrt n
  have hklt : Nat.sqrt n < 2 ^ 26 := by
    by_contra hc
    have h1 : 2 ^ 26 * 2 ^ 26 ≤ Nat.sqrt n * Nat.sqrt n := Nat.mul_le_mul (by omega) (by omega)
    have : (2 : Nat) ^ 26 * 2 ^ 26 = 2 ^ 52 := by norm_num
    omega
  unfold sqrtF64
  simp only [roundBits_small hn]
  generalize hk : Nat.sqrt n = k at *
  have hsz : k.size ≤ 26 := Nat.size_le.mpr hklt
  generalize hs : 53 - k.size = s
  have hP : k < 2 ^ s := by
    calc k < 2 ^ 26 := hklt
      _ ≤ 2 ^ s := Nat.pow_le_pow_right (by omega) (by omega)
  have h4 : (4 : Nat) ^ s = 2 ^ s * 2 ^ s := by
    rw [show (4 : Nat) = 2 * 2 by norm_num, Nat.mul_pow]
  rw [h4]
  generalize hPP : 2 ^ s = P at *
  have hP0 : 0 < P := by omega
  have m1 : Nat.sqrt (n * (P * P)) * Nat.sqrt (n * (P * P)) ≤ n * (P * P) := Nat.sqrt_le _
  have m2 : n * (P * P) < (Nat.sqrt (n * (P * P)) + 1) * (Nat.sqrt (n * (P * P)) + 1) := Nat.lt_succ_sqrt _
  generalize Nat.sqrt (n * (P * P)) = m at *
  have hlo : k * P ≤ m := by
    by_contra hc
    have : (m + 1) * (m + 1) ≤ (k * P) * (k * P) := Nat.mul_le_mul (by omega) (by omega)
    have : (k * P) * (k * P) = (k * k) * (P * P) := by ring
    have : (k * k) * (P * P) ≤ n * (P * P) := Nat.mul_le_mul_right _ hk1
    omega
  have hhi : m < (k + 1) * P := by
    by_contra hc
    have : ((k + 1) * P) * ((k + 1) * P) ≤ m * m := Nat.mul_le_mul (by omega) (by omega)
    have : ((k + 1) * P) * ((k + 1) * P) = ((k + 1) * (k + 1)) * (P * P) := by ring
    have : n * (P * P) < ((k + 1) * (k + 1)) * (P * P) := Nat.mul_lt_mul_of_pos_right hk2 (by positivity)
    omega
  have hge : (k * k + 1) * (P * P) ≤ n * (P * P) := Nat.mul_le_mul_right _ (by omega)
  have hle : n * (P * P) + P * P ≤ ((k + 1) * (k + 1)) * (P * P) := by
    calc n * (P * P) + P * P = (n + 1) * (P * P) := by ring
      _ ≤ _ := Nat.mul_le_mul_right _ (by omega)
  have hkP : k * P < P * P := Nat.mul_lt_mul_of_pos_right hP hP0
  have hres : k * P < (if m < n * (P * P) - m * m then m + 1 else m) ∧
      (if m < n * (P * P) - m * m then m + 1 else m) < (k + 1) * P := by
    constructor
    · split
      · omega
      · rename_i hc
        rcases Nat.lt_or_ge (k * P) m with h | h
        · exact h
        · exfalso
          have he : m = k * P := by omega
          subst he
          have : (k * P) * (k * P) = (k * k) * (P * P) := by ring
          have : (k * k + 1) * (P * P) = (k * k) * (P * P) + P * P := by ring
          omega
    · split
      · rename_i hc
        by_contra hcc
        have he : m + 1 = (k + 1) * P := by omega
        have e1 : ((k + 1) * (k + 1)) * (P * P) = (m + 1) * (m + 1) := by rw [he]; ring
        have e2 : (m + 1) * (m + 1) = m * m + 2 * m + 1 := by ring
        have e3 : (k + 1) * P = k * P + P := by ring
        have e4 : (k + 1) * P ≤ P * P := Nat.mul_le_mul_right _ (by omega)
        omega
      · exact hhi
  generalize (if m < n * (P * P) - m * m then m + 1 else m) = x at hres
  have hdiv : x / P = k := by
    rw [Nat.div_eq_iff hP0]
    have : (k + 1) * P = k * P + P := by ring
    omega
  refine ⟨x, s, rfl, ?_, by rw [hPP]; exact hdiv⟩
  rw [hPP]
  intro h0
  have := Nat.div_add_mod x P
  rw [hdiv, h0, Nat.mul_comm] at this
  omega

/-- Up to 2^52 blocks: unchanged for perfect squares, else the next perfect square. -/
theorem increase_spec {n : Nat} (h : n ≤ 2 ^ 52) :
    ∃ c, increaseToNextSquare n = c * c ∧ c ≤ 2 ^ 26 ∧ n ≤ c * c ∧ (0 < n → (c - 1) * (c - 1) < n) := by
  have hk1 : Nat.sqrt n * Nat.sqrt n ≤ n := Nat.sqrt_le n
  have hk2 : n < (Nat.sqrt n + 1) * (Nat.sqrt n + 1) := Nat.lt_succ_sqrt n
  have hk3 : Nat.sqrt n ≤ 2 ^ 26 := by
    by_contra hc
    have h1 : (2 ^ 26 + 1) * (2 ^ 26 + 1) ≤ Nat.sqrt n * Nat.sqrt n := Nat.mul_le_mul (by omega) (by omega)
    have : (2 : Nat) ^ 52 < (2 ^ 26 + 1) * (2 ^ 26 + 1) := by norm_num
    omega
  by_cases hsq : Nat.sqrt n * Nat.sqrt n = n
  · obtain ⟨s, hs⟩ := sqrtF64_square hk3
    refine ⟨Nat.sqrt n, ?_, hk3, by omega, ?_⟩
    · unfold increaseToNextSquare
      rw [hsq] at hs
      rw [hs]
      simp [hsq]
    · intro h0
      have : 0 < Nat.sqrt n := Nat.sqrt_pos.mpr h0
      generalize Nat.sqrt n = k at *
      obtain ⟨j, rfl⟩ : ∃ j, k = j + 1 := ⟨k - 1, by omega⟩
      simp only [Nat.add_sub_cancel]
      have : (j + 1) * (j + 1) = j * j + 2 * j + 1 := by ring
      omega
  · obtain ⟨m, s, hs, h1, h2⟩ := sqrtF64_between h hsq
    have hlt : Nat.sqrt n < 2 ^ 26 := by
      by_contra hc
      have he : Nat.sqrt n = 2 ^ 26 := by omega
      rw [he] at hk1 hsq
      have : (2 : Nat) ^ 26 * 2 ^ 26 = 2 ^ 52 := by norm_num
      omega
    refine ⟨Nat.sqrt n + 1, ?_, by omega, by omega, ?_⟩
    · unfold increaseToNextSquare
      rw [hs]
      simp only
      rw [if_neg h1, h2, roundBits_small]
      calc (Nat.sqrt n + 1) * (Nat.sqrt n + 1) ≤ 2 ^ 26 * 2 ^ 26 := Nat.mul_le_mul (by omega) (by omega)
        _ < 2 ^ 53 := by norm_num
    · intro _
      simp only [Nat.add_sub_cancel]
      omega

theorem calculate_matrix {n : Nat} (h : n ≤ 2 ^ 52) :
    ∃ c, calculateNumRowsAndColumns n true = (c, c) ∧ c ≤ 2 ^ 26 ∧ n ≤ c * c ∧ (0 < n → (c - 1) * (c - 1) < n) := by
  obtain ⟨c, h1, h2, h3, h4⟩ := increase_spec h
  obtain ⟨s, hs⟩ := sqrtF64_square h2
  refine ⟨c, ?_, h2, h3, h4⟩
  unfold calculateNumRowsAndColumns
  simp only [if_true, h1, hs]
  rw [Nat.mul_div_cancel _ (Nat.two_pow_pos s)]

/-- Number of buckets of the key databases: positive from ten keys on, and below 2^32 up to 2^32 keys. -/
theorem table_size {n : Nat} (hn : n ≤ 2 ^ 32) (rebalanced : Bool) :
    (calculateNumRowsAndColumns (preSquareNumBlocks n) rebalanced).1 *
      (calculateNumRowsAndColumns (preSquareNumBlocks n) rebalanced).2 < 2 ^ 32 ∧
    (10 ≤ n → 0 < (calculateNumRowsAndColumns (preSquareNumBlocks n) rebalanced).1 *
      (calculateNumRowsAndColumns (preSquareNumBlocks n) rebalanced).2) ∧
    (n < 10 → (calculateNumRowsAndColumns (preSquareNumBlocks n) rebalanced).1 *
      (calculateNumRowsAndColumns (preSquareNumBlocks n) rebalanced).2 = 0) := by
  have hle := preSquare_le n
  have hpos := @preSquare_pos n
  have hzero := @preSquare_zero n
  generalize preSquareNumBlocks n = b at *
  cases rebalanced with
  | false =>
    simp only [calculateNumRowsAndColumns, Bool.false_eq_true, if_false, Nat.one_mul]
    omega
  | true =>
    obtain ⟨c, h1, h2, h3, h4⟩ := calculate_matrix (n := b) (by omega)
    rw [h1]
    simp only
    refine ⟨?_, fun h => by have := hpos h; omega, fun h => ?_⟩
    · by_cases hb : b = 0
      · subst hb
        obtain ⟨c', e1, -, -, -⟩ := calculate_matrix (n := 0) (by norm_num)
        have : calculateNumRowsAndColumns 0 true = (0, 0) := by decide
        rw [this] at h1
        simp only [Prod.mk.injEq] at h1
        rw [← h1.1]
        norm_num
      · have h5 := h4 (by omega)
        have hc : c - 1 < 2 ^ 16 - 1 := by
          by_contra hc
          have : (2 ^ 16 - 1) * (2 ^ 16 - 1) ≤ (c - 1) * (c - 1) := Nat.mul_le_mul (by omega) (by omega)
          have : (2 : Nat) ^ 32 * 3 < 5 * ((2 ^ 16 - 1) * (2 ^ 16 - 1)) := by norm_num
          omega
        calc c * c ≤ (2 ^ 16 - 1) * (2 ^ 16 - 1) := Nat.mul_le_mul (by omega) (by omega)
          _ < 2 ^ 32 := by norm_num
    · have hb := hzero h
      subst hb
      have : calculateNumRowsAndColumns 0 true = (0, 0) := by decide
      rw [this] at h1
      simp only [Prod.mk.injEq] at h1
      rw [← h1.1]

end Verif.Layout
