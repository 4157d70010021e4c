import Verif.Lemmas.Gauss

/-! # C104: the noise is a discrete Gaussian -/

namespace Verif.Gauss
open Res Verif.Matrix Verif.Privacy Verif.Gauss.Spec Verif.Fss Verif.Forge Verif.Uniform Verif.Monitor.Spec

/-- C104: there is a symmetric distribution on the integers from -128 to 128, equal to the discrete Gaussian of width 6.4 up to
a factor of 1 ± 1/50000 and an absolute error of 2^-62, such that the samples of a noise matrix are independent draws from it:
with `n` random words per sample every sequence of samples has the product of its chances, up to the chance that the words do
not suffice. That chance falls exponentially with `n`, and the sampler never crashes. -/
def C104_Statement : Prop :=
  ∀ fl : ℚ → ℚ, Nearest fl → ∃ q : Int → ℚ, NearGaussian q ∧
    ∀ n N : Nat, 4 ≤ n →
      (∀ gs : List Int, n * gs.length ≤ N →
        (1 - 11 / 10 * (97 / 100) ^ n) ^ gs.length * (gs.map q).prod ≤ part N (Yields fl gs) ∧
        part N (Yields fl gs) ≤ (gs.map q).prod) ∧
      ∀ m : Nat, n * m ≤ N →
        part N (fun ws => ¬ ∃ gs rest, gaussSamples fl m ws = ok (gs, rest)) ≤ m * (11 / 10 * (97 / 100) ^ n) ∧
        ∀ ws, ¬ (gaussSamples fl m ws).isCrash

/-! ### Sequences of samples -/

/-- The amounts for `m` samples. -/
def amounts (fl : ℚ → ℚ) : Nat → Nat → ℚ
  | 0 => fun _ => 1
  | m + 1 => fun n => (amount fl (amounts fl m) n).1

/-- Is this what the words yield? -/
def value (gs : List Int) : Res (List Int × List (BitVec 64)) → ℚ
  | ok r => if r.1 = gs then 1 else 0
  | _ => 0

/-- Are there enough words? -/
def done : Res (List Int × List (BitVec 64)) → ℚ
  | ok _ => 1
  | _ => 0

theorem samples_value (fl : ℚ → ℚ) : ∀ (gs : List Int) (n : Nat),
    mean n (fun ws => value gs (gaussSamples fl gs.length ws)) = (gs.map (half fl)).prod * amounts fl gs.length n := by
  intro gs
  induction gs with
  | nil =>
    intro n
    simp only [List.length_nil, gaussSamples, value, if_true, mean_const, List.map_nil, List.prod_nil, amounts, mul_one]
  | cons g gs ih =>
    intro n
    have e : ∀ ws, value (g :: gs) (gaussSamples fl (g :: gs).length ws)
        = worth (fun g' rest => (if g' = g then 1 else 0) * value gs (gaussSamples fl gs.length rest)) (run fl .index ws) := by
      intro ws
      rw [List.length_cons, gaussSamples, gaussSample_run]
      cases run fl .index ws with
      | ok r =>
        obtain ⟨g', rest⟩ := r
        simp only [ok_bind, worth]
        cases gaussSamples fl gs.length rest with
        | ok r =>
          simp only [ok_bind, value, List.cons.injEq]
          by_cases h1 : g' = g <;> by_cases h2 : r.1 = gs <;> simp [h1, h2]
        | err m => simp [value]
        | crash m => simp [value]
      | err m => rfl
      | crash m => rfl
    rw [mean_congr n e]
    have h := (proportion fl (fun g' => if g' = g then 1 else 0) (fun ws => value gs (gaussSamples fl gs.length ws))
      (half fl g) (half_eq fl g) n).1
    refine h.trans ?_
    rw [show (fun j => mean j (fun ws => value gs (gaussSamples fl gs.length ws)))
      = fun j => (gs.map (half fl)).prod * amounts fl gs.length j from funext ih, amount_scale]
    rw [List.map_cons, List.prod_cons, List.length_cons, amounts]
    ring

theorem samples_done (fl : ℚ → ℚ) : ∀ (m n : Nat),
    mean n (fun ws => done (gaussSamples fl m ws)) = total fl ^ m * amounts fl m n := by
  intro m
  induction m with
  | zero =>
    intro n
    simp only [gaussSamples, done, mean_const, amounts, pow_zero, mul_one]
  | succ m ih =>
    intro n
    have e : ∀ ws, done (gaussSamples fl (m + 1) ws)
        = worth (fun _ rest => 1 * done (gaussSamples fl m rest)) (run fl .index ws) := by
      intro ws
      rw [gaussSamples, gaussSample_run]
      cases run fl .index ws with
      | ok r =>
        obtain ⟨g', rest⟩ := r
        simp only [ok_bind, worth]
        cases gaussSamples fl m rest <;> simp [done]
      | err m => rfl
      | crash m => rfl
    rw [mean_congr n e]
    have h := (proportion fl (fun _ => 1) (fun ws => done (gaussSamples fl m ws)) (total fl)
      (by unfold total; refine Finset.sum_congr rfl (fun x _ => ?_); ring) n).1
    refine h.trans ?_
    rw [show (fun j => mean j (fun ws => done (gaussSamples fl m ws)))
      = fun j => total fl ^ m * amounts fl m j from funext ih, amount_scale, pow_succ, amounts]
    ring

theorem amounts_nonneg (fl : ℚ → ℚ) : ∀ m n, 0 ≤ amounts fl m n := by
  intro m
  induction m with
  | zero => intro n; simp [amounts]
  | succ m ih => intro n; exact (amount_nonneg fl _ ih n).1

theorem amounts_le (fl : ℚ → ℚ) (ht : 0 < total fl) : ∀ m n, amounts fl m n ≤ 1 / total fl ^ m := by
  intro m
  induction m with
  | zero => intro n; simp [amounts]
  | succ m ih =>
    intro n
    have := (amount_le fl (amounts fl m) (1 / total fl ^ m) (by positivity) ih n).1
    rw [pow_succ, ← div_div, le_div_iff₀ ht, mul_comm]
    exact this

theorem late_anti {a b : Nat} (h : a ≤ b) : late b ≤ late a := by
  unfold late
  exact mul_le_mul_of_nonneg_left (pow_le_pow_of_le_one (by norm_num) (by norm_num) h) (by norm_num)

theorem late_le {n : Nat} (h : 4 ≤ n) : late n ≤ 1 := (late_anti h).trans (by norm_num [late])

theorem amounts_ge (fl : ℚ → ℚ) (ht : 77 / 10 ≤ total fl) (n : Nat) (hn : 4 ≤ n) : ∀ m N, n * m ≤ N →
    (1 - late n) ^ m / total fl ^ m ≤ amounts fl m N := by
  have ht0 : 0 < total fl := by linarith
  have hl : 0 ≤ 1 - late n := by linarith [late_le hn]
  intro m
  induction m with
  | zero => intro N _; simp [amounts]
  | succ m ih =>
    intro N hN
    have h1 := (amount_ge fl ht (amounts fl m) (amounts_nonneg fl m) ((1 - late n) ^ m / total fl ^ m) (by positivity)
      (n * m) ih (N - n * m)).1
    rw [Nat.mul_succ] at hN
    rw [Nat.sub_add_cancel (by omega)] at h1
    have h2 : late (N - n * m) ≤ late n := late_anti (by omega)
    have h3 : (1 - late n) ^ m / total fl ^ m * (1 - late n) ≤ (1 - late n) ^ m / total fl ^ m * (1 - late (N - n * m)) :=
      mul_le_mul_of_nonneg_left (by linarith) (by positivity)
    rw [pow_succ, pow_succ, mul_div_mul_comm, ← mul_div_assoc, div_le_iff₀ ht0, amounts, mul_comm (amount _ _ _).1]
    linarith

/-! ### The distribution of one sample -/

/-- The chance of a sample. -/
def chanceFor (fl : ℚ → ℚ) (g : Int) : ℚ := half fl g / total fl

theorem half_nonneg (fl : ℚ → ℚ) (g : Int) : 0 ≤ half fl g := by
  unfold half
  split
  · exact le_rfl
  · split
    · exact chance_nonneg fl 0
    · exact div_nonneg (chance_nonneg fl _) (by norm_num)

theorem half_sum (fl : ℚ → ℚ) : ∑ g ∈ Finset.Icc (-128 : Int) 128, half fl g = total fl := by
  have e : ∀ g ∈ Finset.Icc (-128 : Int) 128, half fl g = ∑ x ∈ Finset.range 129, chanceOf fl x
      * ((if -(x : Int) = g then 1 else 0) / 2 + (if (x : Int) = g then 1 else 0) / 2) := fun g _ => (half_eq fl g).symm
  rw [Finset.sum_congr rfl e, Finset.sum_comm]
  unfold total
  refine Finset.sum_congr rfl (fun x hx => ?_)
  rw [Finset.mem_range] at hx
  rw [← Finset.mul_sum, Finset.sum_add_distrib, ← Finset.sum_div, ← Finset.sum_div, Finset.sum_ite_eq, Finset.sum_ite_eq,
    if_pos (by rw [Finset.mem_Icc]; omega), if_pos (by rw [Finset.mem_Icc]; omega)]
  ring

theorem rho_neg (g : Int) : rho (-g) = rho g := by
  unfold rho
  push_cast
  rw [neg_sq]

theorem rho_natAbs (g : Int) : rho (g.natAbs : Int) = rho g := by
  rcases Int.natAbs_eq g with h | h
  · rw [← h]
  · rw [← rho_neg, ← h]

theorem rho_pos (g : Int) : 0 < rho g := Real.exp_pos _

theorem rho_zero : rho 0 = 1 := by simp [rho]

theorem half_near {fl : ℚ → ℚ} (hf : Nearest fl) (g : Int) (hg : g.natAbs ≤ 128) :
    (1 - 5 / 1000000) * rho g ≤ ((2 * half fl g : ℚ) : ℝ) ∧ ((2 * half fl g : ℚ) : ℝ) ≤ (1 + 5 / 1000000) * rho g + 1 / 2 ^ 62 := by
  unfold half
  rw [if_neg (by omega)]
  by_cases h0 : g = 0
  · rw [if_pos h0, h0, rho_zero]
    obtain ⟨h1, h2⟩ := entries_ok 0 (by norm_num)
    have hl := le_chance hf h1 h2
    have hu := chance_le hf h1
    have he : entry 0 = 1 / 2 := by norm_num [entry, cdfTable]
    rw [he] at hl hu
    have hl' : ((1 / 2 * (1 - 1 / 2 ^ 48) : ℚ) : ℝ) ≤ (chanceOf fl 0 : ℝ) := by exact_mod_cast hl
    have hu' : (chanceOf fl 0 : ℝ) ≤ ((1 / 2 * (1 + 1 / 2 ^ 48) + 1 / 2 ^ 63 : ℚ) : ℝ) := by exact_mod_cast hu
    push_cast at hl' hu' ⊢
    constructor <;> linarith
  · rw [if_neg h0]
    obtain ⟨h1, h2⟩ := entries_ok g.natAbs (by omega)
    have hl := le_chance hf h1 h2
    have hu := chance_le hf h1
    obtain ⟨n1, n2⟩ := entry_near g.natAbs (by omega) (by omega)
    rw [rho_natAbs] at n1 n2
    have hr := rho_pos g
    have hl' : ((entry g.natAbs * (1 - 1 / 2 ^ 48) : ℚ) : ℝ) ≤ (chanceOf fl g.natAbs : ℝ) := by exact_mod_cast hl
    have hu' : (chanceOf fl g.natAbs : ℝ) ≤ ((entry g.natAbs * (1 + 1 / 2 ^ 48) + 1 / 2 ^ 63 : ℚ) : ℝ) := by
      exact_mod_cast hu
    push_cast at hl' hu' ⊢
    constructor
    · nlinarith
    · nlinarith

/-- C104: the distribution of one sample is that of the discrete Gaussian, up to the accuracy of the table and of the random
numbers. -/
theorem C104_near {fl : ℚ → ℚ} (hf : Nearest fl) (g : Int) (hg : g.natAbs ≤ 128) :
    (1 - 1 / 50000) * gaussian g ≤ (chanceFor fl g : ℝ) ∧ (chanceFor fl g : ℝ) ≤ (1 + 1 / 50000) * gaussian g + 1 / 2 ^ 62 := by
  have hsum : ((∑ g ∈ Finset.Icc (-128 : Int) 128, 2 * half fl g : ℚ) : ℝ) = 2 * total fl := by
    rw [← Finset.mul_sum, half_sum]
    push_cast
    rfl
  set R := ∑ h ∈ Finset.Icc (-128 : Int) 128, rho h with hR
  have hR1 : 1 ≤ R := by
    rw [← rho_zero]
    exact Finset.single_le_sum (f := rho) (fun i _ => (rho_pos i).le) (by simp)
  have hlo : (1 - 5 / 1000000) * R ≤ 2 * (total fl : ℝ) := by
    rw [← hsum, hR, Finset.mul_sum]
    push_cast
    refine Finset.sum_le_sum (fun h hh => ?_)
    have := (half_near hf h (by rw [Finset.mem_Icc] at hh; omega)).1
    push_cast at this
    exact this
  have hhi : 2 * (total fl : ℝ) ≤ (1 + 5 / 1000000) * R + 257 / 2 ^ 62 := by
    rw [← hsum, hR, Finset.mul_sum]
    push_cast
    have h257 : (257 : ℝ) / 2 ^ 62 = ∑ h ∈ Finset.Icc (-128 : Int) 128, (1 : ℝ) / 2 ^ 62 := by
      rw [Finset.sum_const, nsmul_eq_mul, Int.card_Icc, show (128 + 1 - -128 : Int).toNat = 257 from rfl]
      norm_num
    rw [h257, ← Finset.sum_add_distrib]
    refine Finset.sum_le_sum (fun h hh => ?_)
    have := (half_near hf h (by rw [Finset.mem_Icc] at hh; omega)).2
    push_cast at this
    exact this
  obtain ⟨g1, g2⟩ := half_near hf g hg
  have hr := rho_pos g
  have hpos : (0 : ℝ) < 2 * total fl := by nlinarith
  have hq : (chanceFor fl g : ℝ) = ((2 * half fl g : ℚ) : ℝ) / (2 * total fl) := by
    unfold chanceFor
    push_cast
    rw [mul_div_mul_left _ _ (by norm_num)]
  have hG : gaussian g = rho g / R := rfl
  have hR0 : 0 < R := by linarith
  have hd : 0 < rho g / R := div_pos hr hR0
  have hrd : rho g = rho g / R * R := by field_simp
  rw [hq, hG]
  constructor
  · rw [le_div_iff₀ hpos]
    refine le_trans ?_ g1
    have h1 : rho g / R * (2 * (total fl : ℝ)) ≤ rho g / R * ((1 + 6 / 1000000) * R) :=
      mul_le_mul_of_nonneg_left (by nlinarith) hd.le
    have h2 : rho g / R * ((1 + 6 / 1000000) * R) = (1 + 6 / 1000000) * rho g := by field_simp
    rw [h2] at h1
    nlinarith
  · rw [div_le_iff₀ hpos]
    refine g2.trans ?_
    have h1 : rho g / R * ((1 - 5 / 1000000) * R) ≤ rho g / R * (2 * (total fl : ℝ)) :=
      mul_le_mul_of_nonneg_left hlo hd.le
    have h2 : rho g / R * ((1 - 5 / 1000000) * R) = (1 - 5 / 1000000) * rho g := by field_simp
    rw [h2] at h1
    have h3 : (1 : ℝ) ≤ 2 * total fl := by
      have : (((77 / 10 : ℚ)) : ℝ) ≤ total fl := Rat.cast_le.2 (total_ge hf)
      push_cast at this
      linarith
    nlinarith

/-! ### No crash -/

theorem run_crash (fl : ℚ → ℚ) : ∀ (ws : List (BitVec 64)) (ph : Phase), ¬ (run fl ph ws).isCrash := by
  intro ws
  induction ws with
  | nil => intro ph; cases ph <;> exact id
  | cons w ws ih =>
    intro ph
    cases ph with
    | index => rw [run]; split <;> exact ih _
    | height x =>
      rw [run]
      split
      · exact ih _
      · split <;> exact ih _
    | sign x => exact id

/-- C104: the sampler never crashes; the only way to fail is to run out of random words. -/
theorem C104_no_crash (fl : ℚ → ℚ) : ∀ (m : Nat) (ws : List (BitVec 64)), ¬ (gaussSamples fl m ws).isCrash := by
  intro m
  induction m with
  | zero => intro ws; exact id
  | succ m ih =>
    intro ws
    rw [gaussSamples, gaussSample_run]
    have h1 := run_crash fl ws .index
    cases h : run fl .index ws with
    | ok r =>
      obtain ⟨g, rest⟩ := r
      simp only [ok_bind]
      have h2 := ih rest
      cases h3 : gaussSamples fl m rest with
      | ok r => exact id
      | err m => exact id
      | crash m => rw [h3] at h2; exact h2
    | err m => exact id
    | crash m => rw [h] at h1; exact h1

/-! ### The property -/

theorem prod_div (c : ℚ) (f : Int → ℚ) : ∀ gs : List Int, (gs.map (fun g => f g / c)).prod = (gs.map f).prod / c ^ gs.length := by
  intro gs
  induction gs with
  | nil => simp
  | cons g gs ih =>
    rw [List.map_cons, List.prod_cons, ih, List.map_cons, List.prod_cons, List.length_cons, pow_succ, div_mul_div_comm,
      mul_comm c]

theorem prod_nonneg (fl : ℚ → ℚ) (gs : List Int) : 0 ≤ (gs.map (half fl)).prod := by
  apply List.prod_nonneg
  intro a ha
  obtain ⟨g, -, rfl⟩ := List.mem_map.1 ha
  exact half_nonneg fl g

theorem part_yields (fl : ℚ → ℚ) (gs : List Int) (N : Nat) :
    part N (Yields fl gs) = (gs.map (half fl)).prod * amounts fl gs.length N := by
  rw [← samples_value]
  refine avg_congr (fun B => ?_)
  dsimp only
  unfold Yields
  cases h : gaussSamples fl gs.length (List.ofFn B) with
  | ok r =>
    obtain ⟨gs', rest⟩ := r
    by_cases e : gs' = gs
    · rw [if_pos ⟨rest, by rw [e]⟩]
      simp [value, e]
    · rw [if_neg (by rintro ⟨r', h'⟩; simp only [ok.injEq, Prod.mk.injEq] at h'; exact e h'.1)]
      simp [value, e]
  | err m => simp [value]
  | crash m => simp [value]

theorem part_undone (fl : ℚ → ℚ) (m N : Nat) :
    part N (fun ws => ¬ ∃ gs rest, gaussSamples fl m ws = ok (gs, rest)) = 1 - total fl ^ m * amounts fl m N := by
  rw [← samples_done, eq_sub_iff_add_eq]
  refine Eq.trans (avg_add _ _) (Eq.trans (avg_congr (g := fun _ => (1 : ℚ)) (fun B => ?_)) (avg_const 1))
  dsimp only
  by_cases h : ∃ gs rest, gaussSamples fl m (List.ofFn B) = ok (gs, rest)
  · rw [if_neg (not_not.2 h)]
    obtain ⟨gs, rest, h⟩ := h
    rw [h]
    simp [done]
  · rw [if_pos h]
    have : done (gaussSamples fl m (List.ofFn B)) = 0 := by
      generalize gaussSamples fl m (List.ofFn B) = x at h
      cases x with
      | ok r => exact absurd ⟨r.1, r.2, rfl⟩ h
      | err e => rfl
      | crash e => rfl
    rw [this, add_zero]

/-- C104: the chances of one sample are those of a distribution near the Gaussian. -/
theorem C104_distribution {fl : ℚ → ℚ} (hf : Nearest fl) : NearGaussian (chanceFor fl) := by
  have ht0 : 0 < total fl := by linarith [total_ge hf]
  refine ⟨fun g => div_nonneg (half_nonneg fl g) ht0.le, fun g => ?_, fun g h => ?_, ?_, fun g hg => C104_near hf g hg⟩
  · unfold chanceFor half
    rw [Int.natAbs_neg]
    simp only [neg_eq_zero]
  · unfold chanceFor half
    rw [if_pos h, zero_div]
  · unfold chanceFor
    rw [← Finset.sum_div, half_sum, div_self ht0.ne']

/-- C104: the noise of the learning-with-errors clients has the distribution it is meant to have. -/
theorem C104_noise : C104_Statement := by
  intro fl hf
  have ht := total_ge hf
  have ht0 : 0 < total fl := by linarith
  refine ⟨chanceFor fl, C104_distribution hf, ?_⟩
  · intro n N hn
    refine ⟨fun gs hN => ?_, fun m hN => ⟨?_, C104_no_crash fl m⟩⟩
    · have hp := prod_nonneg fl gs
      have h1 := amounts_ge fl ht n hn gs.length N hN
      have h2 := amounts_le fl ht0 gs.length N
      rw [part_yields, show chanceFor fl = fun g => half fl g / total fl from rfl, prod_div]
      constructor
      · refine le_trans (le_of_eq ?_) (mul_le_mul_of_nonneg_left h1 hp)
        unfold late
        ring
      · refine (mul_le_mul_of_nonneg_left h2 hp).trans (le_of_eq ?_)
        ring
    · rw [part_undone]
      have h1 := amounts_ge fl ht n hn m N hN
      rw [div_le_iff₀ (by positivity), mul_comm] at h1
      have h2 := one_add_mul_le_pow (a := -late n) (by linarith [late_le hn]) m
      rw [← sub_eq_add_neg] at h2
      have h3 : (m : ℚ) * (11 / 10 * (97 / 100) ^ n) = -(m * -late n) := by unfold late; ring
      rw [h3]
      linarith

/-- Rounding to nearest exists, so that C104 is not vacuous. -/
example : ∃ fl : ℚ → ℚ, Nearest fl := Monitor.nearest_exists

/-- A run on concrete words: index 5, height 0, negative sign. -/
example {fl : ℚ → ℚ} (hf : Nearest fl) : gaussSample fl [BitVec.ofNat 64 (5 * 2 ^ 32), 0, 2, 7] = ok (-5, [7]) := by
  have h0 : fl ((int63 0 : Nat) : ℚ) = 0 := by
    have := hf.exact Monitor.double_zero
    simpa [int63] using this
  have hh : height fl 0 = 0 := by
    unfold height
    rw [h0, zero_div]
    exact hf.exact Monitor.double_zero
  have hi : int31 (BitVec.ofNat 64 (5 * 2 ^ 32)) = 5 := by decide
  have he : (0 : ℚ) < fl (entry 5) := by
    have h5 : entry 5 = 0.736994 := by norm_num [entry, cdfTable]
    have := abs_le.1 (nearest_rel hf (x := entry 5) (by rw [h5]; norm_num))
    rw [h5] at this ⊢
    linarith [this.1, (by norm_num : (0 : ℚ) < 0.736994 - 0.736994 / 2 ^ 52)]
  rw [gaussSample_run, run, cdfTable_length, hi, if_neg (by norm_num), run, hh, if_neg (by norm_num), if_pos he]
  rfl

/-! ### The noise matrix -/

theorem samples_length (fl : ℚ → ℚ) : ∀ (m : Nat) (ws rest : List (BitVec 64)) (gs : List Int),
    gaussSamples fl m ws = ok (gs, rest) → gs.length = m := by
  intro m
  induction m with
  | zero =>
    intro ws rest gs h
    simp only [gaussSamples, ok.injEq, Prod.mk.injEq] at h
    rw [← h.1]
    rfl
  | succ m ih =>
    intro ws rest gs h
    rw [gaussSamples] at h
    obtain ⟨⟨g, w1⟩, -, h⟩ := bind_eq_ok.1 h
    obtain ⟨⟨gs', w2⟩, h2, h⟩ := bind_eq_ok.1 h
    simp only [ok.injEq, Prod.mk.injEq] at h
    rw [← h.1, List.length_cons, ih _ _ _ h2]

/-- C104: the noise matrix holds the encodings of the samples, one per cell and in their order. -/
theorem C104_matrix {w : Nat} (fl : ℚ → ℚ) (enc : Int → BitVec w) (r c : Nat) (ws rest : List (BitVec 64)) (M : Mat w) :
    noise fl enc r c ws = ok (M, rest) ↔
      ∃ gs, gaussSamples fl (r * c) ws = ok (gs, rest) ∧ M = ⟨r, c, gs.map enc⟩ := by
  have key : ∀ gs, gs.length = r * c → newGauss enc r c gs = ok ⟨r, c, gs.map enc⟩ := by
    intro gs h
    unfold newGauss
    simp only [new, List.length_replicate]
    rw [forLoop_set_all (r * c) (fun i => enc (gs.getD i 0)) _ _ ?_ (by simp)]
    · rw [ok_bind]
      congr 2
      apply List.ext_getElem (by simp [h])
      intro i h1 h2
      simp only [List.length_map, List.length_range] at h1
      simp [List.getD, List.getElem?_eq_getElem (show i < gs.length by omega)]
    · intro i t hi ht
      rw [idx_getD 0 (by omega), ok_bind]
  unfold noise
  constructor
  · intro h
    obtain ⟨⟨gs, w1⟩, h1, h⟩ := bind_eq_ok.1 h
    dsimp only at h
    rw [key gs (samples_length fl _ _ _ _ h1), ok_bind] at h
    simp only [ok.injEq, Prod.mk.injEq] at h
    exact ⟨gs, by rw [h1, h.2], h.1.symm⟩
  · rintro ⟨gs, h1, rfl⟩
    rw [h1, ok_bind]
    dsimp only
    rw [key gs (samples_length fl _ _ _ _ h1), ok_bind]

theorem run_bound (fl : ℚ → ℚ) : ∀ (ws : List (BitVec 64)) (ph : Phase) (g : Int) (rest : List (BitVec 64)),
    (match ph with | .index => True | .height x => x < 129 | .sign x => x < 129) →
    run fl ph ws = ok (g, rest) → g.natAbs ≤ 128 := by
  intro ws
  induction ws with
  | nil => intro ph g rest _ h; cases ph <;> cases h
  | cons w ws ih =>
    intro ph g rest hp h
    cases ph with
    | index =>
      rw [run] at h
      split at h
      · exact ih _ _ _ hp h
      · refine ih _ _ _ ?_ h
        dsimp only
        rw [cdfTable_length]
        exact Nat.mod_lt _ (by norm_num)
    | height x =>
      rw [run] at h
      split at h
      · exact ih _ _ _ hp h
      · split at h
        · exact ih _ _ _ hp h
        · exact ih .index _ _ trivial h
    | sign x =>
      simp only [run, ok.injEq, Prod.mk.injEq] at h
      dsimp only at hp
      rw [← h.1]
      split <;> omega

theorem samples_bound (fl : ℚ → ℚ) : ∀ (m : Nat) (ws rest : List (BitVec 64)) (gs : List Int),
    gaussSamples fl m ws = ok (gs, rest) → ∀ g ∈ gs, g.natAbs ≤ 128 := by
  intro m
  induction m with
  | zero =>
    intro ws rest gs h
    simp only [gaussSamples, ok.injEq, Prod.mk.injEq] at h
    rw [← h.1]
    intro g hg
    cases hg
  | succ m ih =>
    intro ws rest gs h
    rw [gaussSamples, gaussSample_run] at h
    obtain ⟨⟨g, w1⟩, h1, h⟩ := bind_eq_ok.1 h
    obtain ⟨⟨gs', w2⟩, h2, h⟩ := bind_eq_ok.1 h
    simp only [ok.injEq, Prod.mk.injEq] at h
    rw [← h.1]
    intro a ha
    rcases List.mem_cons.1 ha with rfl | ha
    · exact run_bound fl _ .index _ _ trivial h1
    · exact ih _ _ _ h2 a ha

/-- C104: in a 128-bit noise matrix no cell is -1, although the sample -1 is as frequent as 1: the encoding turns the sample
`-k` into `-k - 1`. In a 32-bit noise matrix every cell is its sample. -/
theorem C104_encodings (fl : ℚ → ℚ) (r c : Nat) (ws rest : List (BitVec 64)) (M : Mat 32) (L : Mat 128)
    (hM : noise fl gauss32 r c ws = ok (M, rest)) (hL : noise fl gauss128 r c ws = ok (L, rest)) :
    (∀ x ∈ L.data, x.toInt ≠ -1) ∧
    L.data.map BitVec.toInt = M.data.map (fun x => if 0 ≤ x.toInt then x.toInt else x.toInt - 1) := by
  obtain ⟨gs, h1, rfl⟩ := (C104_matrix fl gauss32 r c ws rest M).1 hM
  obtain ⟨gs', h2, rfl⟩ := (C104_matrix fl gauss128 r c ws rest L).1 hL
  rw [h1] at h2
  simp only [ok.injEq, Prod.mk.injEq, and_true] at h2
  subst h2
  have hb := samples_bound fl _ _ _ _ h1
  have e : ∀ g : Int, g.natAbs ≤ 128 → (gauss128 g).toInt = if 0 ≤ g then g else g - 1 := by
    intro g hg
    unfold gauss128
    split
    · rw [BitVec.toInt_ofNat', Int.bmod_def]
      omega
    · rw [BitVec.toInt_ofNat', Int.bmod_def]
      omega
  have e' : ∀ g : Int, g.natAbs ≤ 128 → (gauss32 g).toInt = g := by
    intro g hg
    unfold gauss32
    rw [BitVec.toInt_ofInt, Int.bmod_def]
    omega
  refine ⟨fun x hx => ?_, ?_⟩
  · obtain ⟨g, hg, rfl⟩ := List.mem_map.1 hx
    rw [e g (hb g hg)]
    split <;> omega
  · simp only [List.map_map]
    refine List.map_congr_left (fun g hg => ?_)
    simp only [Function.comp]
    rw [e g (hb g hg), e' g (hb g hg)]

/-- Both matrices on the words of a negative sample. -/
example {fl : ℚ → ℚ} (h : gaussSample fl [BitVec.ofNat 64 (5 * 2 ^ 32), 0, 2, 7] = ok (-5, [7])) :
    noise fl gauss32 1 1 [BitVec.ofNat 64 (5 * 2 ^ 32), 0, 2, 7] = ok (⟨1, 1, [0xFFFFFFFB]⟩, [7]) ∧
    noise fl gauss128 1 1 [BitVec.ofNat 64 (5 * 2 ^ 32), 0, 2, 7] = ok (⟨1, 1, [BitVec.ofInt 128 (-6)]⟩, [7]) := by
  constructor <;>
  · rw [C104_matrix]
    refine ⟨[-5], ?_, by decide⟩
    rw [Nat.mul_one, gaussSamples, h]
    rfl

end Verif.Gauss
