import Verif.Spec.Gauss
import Verif.Lemmas.ForgeryGame
import Verif.Lemmas.Uniform
import Verif.Lemmas.Monitor
import Mathlib.Algebra.Order.Archimedean.Basic

/-! # The distribution of the noise sampler -/

namespace Verif.Gauss
open Res Verif.Matrix Verif.Privacy Verif.Gauss.Spec Verif.Fss Verif.Forge Verif.Uniform Verif.Monitor.Spec

/-! ### Averages over words -/

theorem sum_range_mod (F : Nat → ℚ) (M : Nat) : ∀ c : Nat,
    ∑ i ∈ Finset.range (c * M), F (i % M) = c * ∑ i ∈ Finset.range M, F i := by
  intro c
  induction c with
  | zero => simp
  | succ c ih =>
    rw [Nat.succ_mul, Finset.sum_range_add, ih]
    have : ∀ i ∈ Finset.range M, F ((c * M + i) % M) = F i := by
      intro i hi
      rw [Finset.mem_range] at hi
      rw [Nat.mul_comm, Nat.mul_add_mod, Nat.mod_eq_of_lt hi]
    rw [Finset.sum_congr rfl this]
    push_cast
    ring

theorem sum_range_div (F : Nat → ℚ) (D : Nat) (hD : 0 < D) : ∀ a : Nat,
    ∑ i ∈ Finset.range (a * D), F (i / D) = D * ∑ i ∈ Finset.range a, F i := by
  intro a
  induction a with
  | zero => simp
  | succ a ih =>
    rw [Nat.succ_mul, Finset.sum_range_add, ih, Finset.sum_range_succ]
    have : ∀ i ∈ Finset.range D, F ((a * D + i) / D) = F a := by
      intro i hi
      rw [Finset.mem_range] at hi
      rw [Nat.mul_comm, Nat.mul_add_div hD, Nat.div_eq_of_lt hi, Nat.add_zero]
    rw [Finset.sum_congr rfl this, Finset.sum_const, Finset.card_range, nsmul_eq_mul]
    ring

theorem avg_word {w : Nat} (F : Nat → ℚ) :
    avg (fun b : BitVec w => F b.toNat) = (∑ i ∈ Finset.range (2 ^ w), F i) / 2 ^ w := by
  unfold avg
  have e : BitVec w ≃ Fin (2 ^ w) := ⟨BitVec.toFin, BitVec.ofFin, fun _ => rfl, fun _ => rfl⟩
  have hc : Fintype.card (BitVec w) = 2 ^ w := by
    rw [Fintype.card_congr (⟨BitVec.toFin, BitVec.ofFin, fun _ => rfl, fun _ => rfl⟩ : BitVec w ≃ Fin (2 ^ w)),
      Fintype.card_fin]
  rw [hc, Finset.sum_range]
  congr 1
  · exact Fintype.sum_equiv (⟨BitVec.toFin, BitVec.ofFin, fun _ => rfl, fun _ => rfl⟩ : BitVec w ≃ Fin (2 ^ w)) _ _
      (fun b => rfl)
  · push_cast
    rfl

/-- A function of the lower `w` bits of a word of `w + 1` bits. -/
theorem avg_low {w : Nat} (F : Nat → ℚ) :
    avg (fun b : BitVec (w + 1) => F (b.toNat % 2 ^ w)) = (∑ i ∈ Finset.range (2 ^ w), F i) / 2 ^ w := by
  rw [avg_word (fun i => F (i % 2 ^ w)), pow_succ' 2 w, sum_range_mod F (2 ^ w) 2, pow_succ]
  push_cast
  field_simp

theorem avg_int63 (F : Nat → ℚ) :
    avg (fun b : BitVec 64 => F (int63 b)) = (∑ i ∈ Finset.range (2 ^ 63), F i) / 2 ^ 63 := avg_low (w := 63) F

theorem avg_high {u l : Nat} (F : Nat → ℚ) :
    (∑ i ∈ Finset.range (2 ^ (u + l)), F (i / 2 ^ l)) / 2 ^ (u + l) = (∑ i ∈ Finset.range (2 ^ u), F i) / 2 ^ u := by
  rw [pow_add, sum_range_div F (2 ^ l) (by positivity), pow_add]
  push_cast
  field_simp

theorem avg_int31 (F : Nat → ℚ) :
    avg (fun b : BitVec 64 => F (int31 b)) = (∑ i ∈ Finset.range (2 ^ 31), F i) / 2 ^ 31 := by
  rw [← avg_high (u := 31) (l := 32) F]
  exact avg_int63 (fun i => F (i / 2 ^ 32))

theorem sum_accepted (n K r : Nat) (hK : 0 < K * n) (a : ℚ) (F : Nat → ℚ) :
    ∑ v ∈ Finset.range (K * n + r), (if K * n + r - 1 - r < v then a else F (v % n))
      = r * a + K * ∑ x ∈ Finset.range n, F x := by
  rw [Finset.sum_range_add]
  have h1 : ∀ v ∈ Finset.range (K * n), (if K * n + r - 1 - r < v then a else F (v % n)) = F (v % n) := by
    intro v hv
    rw [Finset.mem_range] at hv
    rw [if_neg (by omega)]
  have h2 : ∀ v ∈ Finset.range r, (if K * n + r - 1 - r < K * n + v then a else F ((K * n + v) % n)) = a := by
    intro v hv
    rw [if_pos (by omega)]
  rw [Finset.sum_congr rfl h1, Finset.sum_congr rfl h2, sum_range_mod, Finset.sum_const, Finset.card_range, nsmul_eq_mul]
  ring

/-- The chance that a draw of an index is repeated, and the chance of every index in one draw. -/
def redraw : ℚ := 8 / 2 ^ 31
def each : ℚ := 16647160 / 2 ^ 31

theorem redraw_each : redraw + 129 * each = 1 := by norm_num [redraw, each]

theorem cdfTable_length : cdfTable.length = 129 := by
  rw [← List.length_map (f := fun _ => ())]; rfl

theorem avg_index (a : ℚ) (F : Nat → ℚ) :
    avg (fun b : BitVec 64 => if 2 ^ 31 - 1 - 2 ^ 31 % cdfTable.length < int31 b then a else F (int31 b % cdfTable.length))
      = redraw * a + each * ∑ x ∈ Finset.range 129, F x := by
  rw [cdfTable_length, avg_int31 (fun v => if 2 ^ 31 - 1 - 2 ^ 31 % 129 < v then a else F (v % 129)),
    show (2 ^ 31 : Nat) = 16647160 * 129 + 8 from by norm_num,
    show (16647160 * 129 + 8) % 129 = 8 from by norm_num,
    sum_accepted 129 16647160 8 (by norm_num)]
  unfold redraw each
  push_cast
  ring

/-! ### The sampler as a machine -/

/-- What the next word is for. -/
inductive Phase where
  | index
  | height (x : Nat)
  | sign (x : Nat)

/-- The entry of the table. -/
def entry (x : Nat) : ℚ := cdfTable.getD x 0

/-- The height drawn with a word. -/
def height (fl : ℚ → ℚ) (w : BitVec 64) : ℚ := fl (fl (int63 w) / 2 ^ 63)

/-- The sampler, one word at a time. -/
def run (fl : ℚ → ℚ) : Phase → List (BitVec 64) → Res (Int × List (BitVec 64))
  | _, [] => err "no more words"
  | .index, w :: ws =>
    if 2 ^ 31 - 1 - 2 ^ 31 % cdfTable.length < int31 w then run fl .index ws else run fl (.height (int31 w % cdfTable.length)) ws
  | .height x, w :: ws =>
    if height fl w = 1 then run fl (.height x) ws
    else if height fl w < fl (entry x) then run fl (.sign x) ws else run fl .index ws
  | .sign x, w :: ws => ok (if w.toNat % 2 = 0 then -(x : Int) else x, ws)

theorem run_index (fl : ℚ → ℚ) : ∀ ws : List (BitVec 64), run fl .index ws
    = int31n cdfTable.length ws >>= fun r => run fl (.height r.1) r.2 := by
  intro ws
  induction ws with
  | nil => rfl
  | cons w ws ih =>
    rw [run, int31n]
    split
    · exact ih
    · rfl

theorem int31n_bound {n : Nat} (hn : 0 < n) : ∀ {ws ws' : List (BitVec 64)} {x : Nat}, int31n n ws = ok (x, ws') →
    x < n ∧ ws'.length < ws.length := by
  intro ws
  induction ws with
  | nil => intro ws' x h; simp [int31n] at h
  | cons w ws ih =>
    intro ws' x h
    rw [int31n] at h
    split at h
    · obtain ⟨h1, h2⟩ := ih h
      exact ⟨h1, by simp only [List.length_cons]; omega⟩
    · simp only [ok.injEq, Prod.mk.injEq] at h
      rw [← h.1, ← h.2]
      exact ⟨Nat.mod_lt _ hn, by simp⟩

theorem run_height (fl : ℚ → ℚ) (x : Nat) : ∀ ws : List (BitVec 64), run fl (.height x) ws
    = float64 fl ws >>= fun r => if r.1 < fl (entry x) then run fl (.sign x) r.2 else run fl .index r.2 := by
  intro ws
  induction ws with
  | nil => rfl
  | cons w ws ih =>
    rw [run, float64]
    by_cases h : fl (fl (int63 w) / 2 ^ 63) = 1
    · rw [if_pos (show height fl w = 1 from h)]
      rw [if_pos h]
      exact ih
    · rw [if_neg (show ¬ height fl w = 1 from h)]
      rw [if_neg h]
      rfl

theorem float64_length (fl : ℚ → ℚ) : ∀ {ws ws' : List (BitVec 64)} {y : ℚ}, float64 fl ws = ok (y, ws') →
    ws'.length < ws.length := by
  intro ws
  induction ws with
  | nil => intro ws' y h; simp [float64] at h
  | cons w ws ih =>
    intro ws' y h
    rw [float64] at h
    split at h
    · have := ih h
      simp only [List.length_cons]
      omega
    · simp only [ok.injEq, Prod.mk.injEq] at h
      rw [← h.2]
      simp

theorem loop_run (fl : ℚ → ℚ) : ∀ (fuel : Nat) (ws : List (BitVec 64)), ws.length < fuel →
    (gaussLoop fl fuel ws >>= fun r => uint64 r.2 >>= fun u => ok (if u.1.toNat % 2 = 0 then -(r.1 : Int) else r.1, u.2))
      = run fl .index ws := by
  intro fuel
  induction fuel with
  | zero => intro ws h; omega
  | succ fuel ih =>
    intro ws h
    rw [run_index, gaussLoop]
    cases e1 : int31n cdfTable.length ws with
    | ok r =>
      obtain ⟨x, ws1⟩ := r
      obtain ⟨hx, hl1⟩ := int31n_bound (by rw [cdfTable_length]; norm_num) e1
      simp only [ok_bind]
      rw [run_height]
      cases e2 : float64 fl ws1 with
      | ok r =>
        obtain ⟨y, ws2⟩ := r
        have hl2 := float64_length fl e2
        simp only [ok_bind]
        rw [idx_getD (l := cdfTable) 0 hx]
        simp only [ok_bind]
        rw [show cdfTable.getD x 0 = entry x from rfl]
        split
        · simp only [ok_bind]
          cases ws2 <;> rfl
        · exact ih ws2 (by omega)
      | err m => rfl
      | crash m => rfl
    | err m => rfl
    | crash m => rfl

theorem gaussSample_run (fl : ℚ → ℚ) (ws : List (BitVec 64)) : gaussSample fl ws = run fl .index ws :=
  loop_run fl (ws.length + 1) ws (by omega)

/-! ### Means -/

/-- The mean over `n` random words. -/
def mean (n : Nat) (φ : List (BitVec 64) → ℚ) : ℚ := avg (fun B : Fin n → BitVec 64 => φ (List.ofFn B))

theorem mean_succ (n : Nat) (φ : List (BitVec 64) → ℚ) :
    mean (n + 1) φ = avg (fun w : BitVec 64 => mean n (fun ws => φ (w :: ws))) := by
  unfold mean
  rw [avg_cons]
  refine avg_congr (fun w => avg_congr (fun B => ?_))
  rw [List.ofFn_succ]
  rfl

theorem mean_congr (n : Nat) {φ ψ : List (BitVec 64) → ℚ} (h : ∀ ws, φ ws = ψ ws) : mean n φ = mean n ψ :=
  avg_congr (fun _ => h _)

theorem mean_const (n : Nat) (c : ℚ) : mean n (fun _ => c) = c := avg_const c

theorem mean_scale (n : Nat) (c : ℚ) (φ : List (BitVec 64) → ℚ) : mean n (fun ws => c * φ ws) = c * mean n φ :=
  avg_scale c _

/-- What a test makes of a result. -/
def worth (F : Int → List (BitVec 64) → ℚ) : Res (Int × List (BitVec 64)) → ℚ
  | ok r => F r.1 r.2
  | _ => 0

/-- The chance that the height is below the table's entry, and that it is drawn again. -/
def chanceOf (fl : ℚ → ℚ) (x : Nat) : ℚ :=
  avg (fun w : BitVec 64 => if height fl w ≠ 1 ∧ height fl w < fl (entry x) then 1 else 0)
def again (fl : ℚ → ℚ) : ℚ := avg (fun w : BitVec 64 => if height fl w = 1 then 1 else 0)

theorem avg_height (fl : ℚ → ℚ) (x : Nat) (a b c : ℚ) :
    avg (fun w : BitVec 64 => if height fl w = 1 then a else if height fl w < fl (entry x) then b else c)
      = again fl * a + chanceOf fl x * b + (1 - again fl - chanceOf fl x) * c := by
  have h : ∀ w : BitVec 64, (if height fl w = 1 then a else if height fl w < fl (entry x) then b else c)
      = (a - c) * (if height fl w = 1 then 1 else 0)
        + ((b - c) * (if height fl w ≠ 1 ∧ height fl w < fl (entry x) then 1 else 0) + c) := by
    intro w
    by_cases h1 : height fl w = 1
    · rw [if_pos h1, if_pos h1, if_neg (by tauto)]; ring
    · by_cases h2 : height fl w < fl (entry x)
      · rw [if_neg h1, if_pos h2, if_neg h1, if_pos ⟨h1, h2⟩]; ring
      · rw [if_neg h1, if_neg h2, if_neg h1, if_neg (by tauto)]; ring
  rw [avg_congr h, ← avg_add, ← avg_add, avg_scale, avg_scale, avg_const]
  unfold again chanceOf
  ring

theorem avg_sign (a b : ℚ) : avg (fun w : BitVec 64 => if w.toNat % 2 = 0 then a else b) = a / 2 + b / 2 := by
  rw [avg_word (fun i => if i % 2 = 0 then a else b)]
  have := sum_range_mod (fun i => if i = 0 then a else b) 2 (2 ^ 63)
  rw [show (2 : Nat) ^ 63 * 2 = 2 ^ 64 by norm_num] at this
  rw [this, Finset.sum_range_succ, Finset.sum_range_one]
  norm_num
  ring

section
variable (fl : ℚ → ℚ) (F : Int → List (BitVec 64) → ℚ)

def atIndex (n : Nat) : ℚ := mean n (fun ws => worth F (run fl .index ws))
def atHeight (n x : Nat) : ℚ := mean n (fun ws => worth F (run fl (.height x) ws))
def atSign (n x : Nat) : ℚ := mean n (fun ws => worth F (run fl (.sign x) ws))

theorem atIndex_zero : atIndex fl F 0 = 0 := by
  unfold atIndex mean
  exact avg_const _
theorem atHeight_zero (x : Nat) : atHeight fl F 0 x = 0 := avg_const _
theorem atSign_zero (x : Nat) : atSign fl F 0 x = 0 := avg_const _

theorem atIndex_succ (n : Nat) :
    atIndex fl F (n + 1) = redraw * atIndex fl F n + each * ∑ x ∈ Finset.range 129, atHeight fl F n x := by
  rw [← avg_index]
  unfold atIndex
  rw [mean_succ]
  refine avg_congr (fun w => ?_)
  simp only [run]
  split <;> rfl

theorem atHeight_succ (n x : Nat) :
    atHeight fl F (n + 1) x = again fl * atHeight fl F n x + chanceOf fl x * atSign fl F n x
      + (1 - again fl - chanceOf fl x) * atIndex fl F n := by
  rw [← avg_height]
  unfold atHeight
  rw [mean_succ]
  refine avg_congr (fun w => ?_)
  simp only [run]
  split
  · rfl
  · split <;> rfl

theorem atSign_succ (n x : Nat) :
    atSign fl F (n + 1) x = mean n (F (-(x : Int))) / 2 + mean n (F x) / 2 := by
  rw [← avg_sign]
  unfold atSign
  rw [mean_succ]
  refine avg_congr (fun w => ?_)
  simp only [run, worth]
  split <;> rfl
end

/-! ### Proportions -/

/-- The chances of all entries together. -/
def total (fl : ℚ → ℚ) : ℚ := ∑ x ∈ Finset.range 129, chanceOf fl x

/-- What remains to be spent after `n` words, from the start and summed over the indices, when `k j` is gained on success with
`j` words left. -/
def amount (fl : ℚ → ℚ) (k : Nat → ℚ) : Nat → ℚ × ℚ
  | 0 => (0, 0)
  | n + 1 => (redraw * (amount fl k n).1 + each * (amount fl k n).2,
      again fl * (amount fl k n).2 + (if n = 0 then 0 else k (n - 1)) + (129 * (1 - again fl) - total fl) * (amount fl k n).1)

theorem proportion (fl : ℚ → ℚ) (φ : Int → ℚ) (K : List (BitVec 64) → ℚ) (v : ℚ)
    (hv : ∑ x ∈ Finset.range 129, chanceOf fl x * (φ (-(x : Int)) / 2 + φ x / 2) = v) : ∀ n,
    atIndex fl (fun g ws => φ g * K ws) n = v * (amount fl (fun j => mean j K) n).1 ∧
    ∑ x ∈ Finset.range 129, atHeight fl (fun g ws => φ g * K ws) n x = v * (amount fl (fun j => mean j K) n).2 := by
  intro n
  induction n with
  | zero =>
    rw [atIndex_zero, amount]
    simp [atHeight_zero]
  | succ n ih =>
    rw [atIndex_succ, ih.1, ih.2, amount]
    refine ⟨by ring, ?_⟩
    have hs : ∀ x, atSign fl (fun g ws => φ g * K ws) n x
        = (if n = 0 then 0 else mean (n - 1) K) * (φ (-(x : Int)) / 2 + φ x / 2) := by
      intro x
      cases n with
      | zero => simp [atSign_zero]
      | succ n =>
        rw [atSign_succ, mean_scale, mean_scale]
        simp only [Nat.add_sub_cancel, if_neg (Nat.succ_ne_zero n)]
        ring
    have e : ∀ x ∈ Finset.range 129, atHeight fl (fun g ws => φ g * K ws) (n + 1) x
        = again fl * atHeight fl (fun g ws => φ g * K ws) n x
          + (if n = 0 then 0 else mean (n - 1) K) * (chanceOf fl x * (φ (-(x : Int)) / 2 + φ x / 2))
          + ((1 - again fl) * (v * (amount fl (fun j => mean j K) n).1)
            - (v * (amount fl (fun j => mean j K) n).1) * chanceOf fl x) := by
      intro x _
      rw [atHeight_succ, hs, ih.1]
      ring
    have hc : ∑ x ∈ Finset.range 129, (v * (amount fl (fun j => mean j K) n).1) * chanceOf fl x
        = v * (amount fl (fun j => mean j K) n).1 * total fl := by
      rw [← Finset.mul_sum]
      rfl
    rw [Finset.sum_congr rfl e, Finset.sum_add_distrib, Finset.sum_add_distrib, Finset.sum_sub_distrib, hc,
      ← Finset.mul_sum, ← Finset.mul_sum, hv, ih.2, Finset.sum_const, Finset.card_range, nsmul_eq_mul]
    push_cast
    ring

theorem amount_scale (fl : ℚ → ℚ) (c : ℚ) (k : Nat → ℚ) : ∀ n, amount fl (fun j => c * k j) n
    = (c * (amount fl k n).1, c * (amount fl k n).2) := by
  intro n
  induction n with
  | zero => simp [amount]
  | succ n ih =>
    rw [amount, amount, ih]
    refine Prod.ext ?_ ?_
    · simp only; ring
    · simp only
      split <;> ring

/-- The chance of a sample in every round, up to a common factor. -/
def half (fl : ℚ → ℚ) (g : Int) : ℚ :=
  if 128 < g.natAbs then 0 else if g = 0 then chanceOf fl 0 else chanceOf fl g.natAbs / 2

theorem half_eq (fl : ℚ → ℚ) (g : Int) :
    ∑ x ∈ Finset.range 129, chanceOf fl x * ((if -(x : Int) = g then 1 else 0) / 2 + (if (x : Int) = g then 1 else 0) / 2)
      = half fl g := by
  unfold half
  by_cases h : 128 < g.natAbs
  · rw [if_pos h]
    apply Finset.sum_eq_zero
    intro x hx
    rw [Finset.mem_range] at hx
    rw [if_neg (by omega), if_neg (by omega)]
    ring
  · rw [if_neg h, Finset.sum_eq_single g.natAbs]
    · by_cases h0 : g = 0
      · subst h0
        simp
        ring
      · rw [if_neg h0]
        rcases Int.natAbs_eq g with hg | hg
        · rw [if_neg (by omega), if_pos hg.symm]; ring
        · rw [if_pos hg.symm, if_neg (by omega)]; ring
    · intro x _ hx
      rw [if_neg (by omega), if_neg (by omega)]
      ring
    · intro hx
      rw [Finset.mem_range] at hx
      omega

/-! ### Bounds for the amounts -/

theorem chance_nonneg (fl : ℚ → ℚ) (x : Nat) : 0 ≤ chanceOf fl x := avg_nonneg (fun w => by split <;> norm_num)

theorem again_nonneg (fl : ℚ → ℚ) : 0 ≤ again fl := avg_nonneg (fun w => by split <;> norm_num)

theorem chance_again (fl : ℚ → ℚ) (x : Nat) : chanceOf fl x + again fl ≤ 1 := by
  unfold chanceOf again
  rw [avg_add]
  refine avg_le (fun w => ?_)
  by_cases h : height fl w = 1
  · rw [if_neg (by tauto), if_pos h]; norm_num
  · rw [if_neg h]
    split <;> norm_num

theorem total_nonneg (fl : ℚ → ℚ) : 0 ≤ total fl := Finset.sum_nonneg (fun x _ => chance_nonneg fl x)

theorem total_le (fl : ℚ → ℚ) : total fl ≤ 129 * (1 - again fl) := by
  unfold total
  refine (Finset.sum_le_sum (g := fun _ => 1 - again fl) (fun x _ => by linarith [chance_again fl x])).trans ?_
  rw [Finset.sum_const, Finset.card_range, nsmul_eq_mul]
  push_cast
  rfl

theorem amount_nonneg (fl : ℚ → ℚ) (k : Nat → ℚ) (hk : ∀ j, 0 ≤ k j) : ∀ n,
    0 ≤ (amount fl k n).1 ∧ 0 ≤ (amount fl k n).2 := by
  intro n
  induction n with
  | zero => simp [amount]
  | succ n ih =>
    rw [amount]
    have h1 := total_le fl
    have h2 := again_nonneg fl
    have h3 : 0 ≤ (if n = 0 then 0 else k (n - 1)) := by
      split
      · exact le_rfl
      · exact hk _
    have hr : (0 : ℚ) ≤ redraw := by norm_num [redraw]
    have he : (0 : ℚ) ≤ each := by norm_num [each]
    constructor
    · exact add_nonneg (mul_nonneg hr ih.1) (mul_nonneg he ih.2)
    · exact add_nonneg (add_nonneg (mul_nonneg h2 ih.2) h3) (mul_nonneg (by linarith) ih.1)

theorem amount_le (fl : ℚ → ℚ) (k : Nat → ℚ) (c : ℚ) (hc : 0 ≤ c) (hk : ∀ j, k j ≤ c) : ∀ n,
    total fl * (amount fl k n).1 ≤ c ∧ total fl * (amount fl k n).2 ≤ 129 * c := by
  intro n
  induction n with
  | zero => simp [amount]; exact hc
  | succ n ih =>
    rw [amount]
    have h0 := total_nonneg fl
    have h1 := total_le fl
    have h2 := again_nonneg fl
    have h3 : (if n = 0 then 0 else k (n - 1)) ≤ c := by
      split
      · exact hc
      · exact hk _
    have hr : (0 : ℚ) ≤ redraw := by norm_num [redraw]
    have he : (0 : ℚ) ≤ each := by norm_num [each]
    have hre := redraw_each
    constructor
    · have e1 := mul_le_mul_of_nonneg_left ih.1 hr
      have e2 := mul_le_mul_of_nonneg_left ih.2 he
      have : c = redraw * c + each * (129 * c) := by linear_combination (-c) * hre
      simp only
      linarith
    · have e1 := mul_le_mul_of_nonneg_left ih.2 h2
      have e2 := mul_le_mul_of_nonneg_left ih.1 (sub_nonneg.2 h1)
      have e3 := mul_le_mul_of_nonneg_left h3 h0
      simp only
      linarith

/-- The part of the tapes on which the sampler is not done after `n` words is at most this. -/
def late (n : Nat) : ℚ := 11 / 10 * (97 / 100) ^ n

theorem amount_ge (fl : ℚ → ℚ) (ht : 77 / 10 ≤ total fl) (k : Nat → ℚ) (hk : ∀ j, 0 ≤ k j) (c : ℚ) (hc : 0 ≤ c) (N : Nat)
    (hN : ∀ j, N ≤ j → c ≤ k j) : ∀ n,
    c * (1 - late n) ≤ total fl * (amount fl k (n + N)).1 ∧
    129 * c * (1 - 9695 / 10000 * late n) ≤ total fl * (amount fl k (n + N)).2 := by
  have h0 := total_nonneg fl
  have h1 := total_le fl
  have h2 := again_nonneg fl
  intro n
  induction n with
  | zero =>
    obtain ⟨a1, a2⟩ := amount_nonneg fl k hk (0 + N)
    have b1 := mul_nonneg h0 a1
    have b2 := mul_nonneg h0 a2
    simp only [late, pow_zero]
    constructor
    · refine le_trans ?_ b1
      nlinarith
    · refine le_trans ?_ b2
      nlinarith
  | succ n ih =>
    have hl : late (n + 1) = 97 / 100 * late n := by unfold late; rw [pow_succ]; ring
    have hl0 : 0 ≤ late n := by unfold late; positivity
    have hr : (0 : ℚ) ≤ redraw := by norm_num [redraw]
    have he : (0 : ℚ) ≤ each := by norm_num [each]
    have hre := redraw_each
    obtain ⟨a1, a2⟩ := amount_nonneg fl k hk (n + N)
    rw [show n + 1 + N = n + N + 1 by ring, amount, hl]
    constructor
    · have e1 := mul_le_mul_of_nonneg_left ih.1 hr
      have e2 := mul_le_mul_of_nonneg_left ih.2 he
      have e3 : redraw * (c * (1 - late n)) + each * (129 * c * (1 - 9695 / 10000 * late n))
          = c * (1 - (redraw + 129 * each * (9695 / 10000)) * late n) := by
        linear_combination c * hre
      have e4 : redraw + 129 * each * (9695 / 10000) ≤ 97 / 100 := by norm_num [redraw, each]
      have e5 := mul_le_mul_of_nonneg_left (mul_le_mul_of_nonneg_right e4 hl0) hc
      simp only
      linarith
    · by_cases hn : n = 0
      · subst hn
        have h3 : 0 ≤ (if 0 + N = 0 then 0 else k (0 + N - 1)) := by
          split
          · exact le_rfl
          · exact hk _
        have b2 : 0 ≤ total fl * (again fl * (amount fl k (0 + N)).2 + (if 0 + N = 0 then 0 else k (0 + N - 1))
            + (129 * (1 - again fl) - total fl) * (amount fl k (0 + N)).1) :=
          mul_nonneg h0 (add_nonneg (add_nonneg (mul_nonneg h2 a2) h3) (mul_nonneg (by linarith) a1))
        refine le_trans ?_ b2
        simp only [late, pow_zero]
        nlinarith
      · have h3 : c ≤ (if n + N = 0 then 0 else k (n + N - 1)) := by
          rw [if_neg (by omega)]
          exact hN _ (by omega)
        have e1 := mul_le_mul_of_nonneg_left ih.2 h2
        have e2 := mul_le_mul_of_nonneg_left ih.1 (sub_nonneg.2 h1)
        have e3 := mul_le_mul_of_nonneg_left h3 h0
        have e4 : 0 ≤ c * late n := mul_nonneg hc hl0
        have e5 : c * late n * (129 * again fl * (9695 / 10000) + 129 * (1 - again fl) - total fl)
            ≤ c * late n * (129 * (9695 / 10000 * (97 / 100))) := by
          refine mul_le_mul_of_nonneg_left ?_ e4
          linarith
        simp only
        linarith

/-! ### Rounding -/

theorem nearest_rel {fl : ℚ → ℚ} (hf : Nearest fl) {x : ℚ} (hx : 1 / 10 ^ 100 ≤ x) : |fl x - x| ≤ x / 2 ^ 52 := by
  have hx0 : 0 < x := lt_of_lt_of_le (by positivity) hx
  obtain ⟨e, he1, he2⟩ := exists_mem_Ico_zpow hx0 (by norm_num : (1 : ℚ) < 2)
  have he : -401 < e := by
    by_contra hc
    have : (2 : ℚ) ^ (e + 1) ≤ 2 ^ ((-200 : ℤ) + (-200)) := zpow_le_zpow_right₀ (by norm_num) (by omega)
    rw [zpow_add₀ (by norm_num) (-200)] at this
    have h2 : (2 : ℚ) ^ (-200 : ℤ) * 2 ^ (-200 : ℤ) < 1 / 10 ^ 100 := by
      have h3 : (2 : ℚ) ^ (-200 : ℤ) = 1 / 2 ^ 200 := by rw [zpow_neg, one_div]; norm_cast
      rw [h3]
      norm_num
    exact absurd (lt_of_lt_of_le he2 (this.trans h2.le)) (not_lt.2 hx)
  set q : Int := ⌊x * 2 ^ (52 - e)⌋ with hq
  have hz : (0 : ℚ) < 2 ^ (52 - e) := zpow_pos (by norm_num) _
  have hq1 : (q : ℚ) ≤ x * 2 ^ (52 - e) := Int.floor_le _
  have hq2 : x * 2 ^ (52 - e) < q + 1 := Int.lt_floor_add_one _
  have hup : x * 2 ^ (52 - e) < 2 ^ 53 := by
    have := mul_lt_mul_of_pos_right he2 hz
    rw [← zpow_add₀ (by norm_num)] at this
    rw [show e + 1 + (52 - e) = 53 by ring] at this
    exact_mod_cast this
  have hq0 : 0 ≤ q := by
    rw [hq]
    exact Int.floor_nonneg.2 (by positivity)
  have hq3 : |q| < 2 ^ 53 := by
    rw [abs_of_nonneg hq0]
    have : (q : ℚ) < 2 ^ 53 := lt_of_le_of_lt hq1 hup
    exact_mod_cast this
  have hy : Double (q / 2 ^ (52 - e)) := by
    by_cases h52 : e ≤ 52
    · obtain ⟨m, hm⟩ := Int.eq_ofNat_of_zero_le (by omega : 0 ≤ 52 - e)
      refine ⟨q, m, hq3, Or.inr ⟨by omega, ?_⟩⟩
      rw [hm]
      norm_cast
    · obtain ⟨m, hm⟩ := Int.eq_ofNat_of_zero_le (by omega : 0 ≤ e - 52)
      refine ⟨q, m, hq3, Or.inl ?_⟩
      rw [show (52 - e) = -(m : Int) by omega, zpow_neg, div_inv_eq_mul]
      norm_cast
  have hd := (hf x).2 _ hy
  have hxy : |x - q / 2 ^ (52 - e)| ≤ 1 / 2 ^ (52 - e) := by
    rw [abs_of_nonneg]
    · rw [sub_le_iff_le_add, ← add_div, le_div_iff₀ hz]
      linarith
    · rw [sub_nonneg, div_le_iff₀ hz]
      exact hq1
  have hlast : 1 / (2 : ℚ) ^ (52 - e) ≤ x / 2 ^ 52 := by
    rw [div_le_div_iff₀ hz (by positivity), zpow_sub₀ (by norm_num), mul_div_assoc']
    rw [le_div_iff₀ (zpow_pos (by norm_num) _), one_mul, mul_comm x]
    have : (2 : ℚ) ^ (52 : ℤ) = 2 ^ 52 := by norm_cast
    rw [this]
    nlinarith
  rw [abs_sub_comm]
  linarith

/-- Is the number below the bound? -/
def below (c : ℚ) (i : Nat) : ℚ := if (i : ℚ) < c then 1 else 0

theorem count_le (M : Nat) (c : ℚ) (hc : 0 ≤ c) : ∑ i ∈ Finset.range M, below c i ≤ c + 1 := by
  unfold below
  rw [Finset.sum_ite, Finset.sum_const, Finset.sum_const_zero, add_zero, nsmul_eq_mul, mul_one]
  have hs : (Finset.range M).filter (fun i : Nat => (i : ℚ) < c) ⊆ Finset.range ⌈c⌉₊ := by
    intro i hi
    rw [Finset.mem_filter] at hi
    rw [Finset.mem_range]
    exact Nat.lt_ceil.2 hi.2
  have h1 := Finset.card_le_card hs
  rw [Finset.card_range] at h1
  have h2 := (Nat.ceil_lt_add_one hc).le
  have h3 : ((((Finset.range M).filter (fun i : Nat => (i : ℚ) < c)).card : ℕ) : ℚ) ≤ (⌈c⌉₊ : ℚ) := by exact_mod_cast h1
  linarith

theorem le_count (M : Nat) (c : ℚ) (hc : c ≤ M) : c ≤ ∑ i ∈ Finset.range M, below c i := by
  unfold below
  rw [Finset.sum_ite, Finset.sum_const, Finset.sum_const_zero, add_zero, nsmul_eq_mul, mul_one]
  have hs : Finset.range ⌈c⌉₊ ⊆ (Finset.range M).filter (fun i : Nat => (i : ℚ) < c) := by
    intro i hi
    rw [Finset.mem_range] at hi
    have h1 : (i : ℚ) < c := Nat.lt_ceil.1 hi
    rw [Finset.mem_filter, Finset.mem_range]
    refine ⟨?_, h1⟩
    have : (i : ℚ) < M := lt_of_lt_of_le h1 hc
    exact_mod_cast this
  have h1 := Finset.card_le_card hs
  rw [Finset.card_range] at h1
  have h2 := Nat.le_ceil c
  have h3 : (⌈c⌉₊ : ℚ) ≤ ((((Finset.range M).filter (fun i : Nat => (i : ℚ) < c)).card : ℕ) : ℚ) := by exact_mod_cast h1
  linarith

/-- The height drawn with `k` is `k / 2^63` up to two roundings. -/
theorem height_near {fl : ℚ → ℚ} (hf : Nearest fl) (k : Nat) :
    (k : ℚ) / 2 ^ 63 * (1 - 1 / 2 ^ 50) ≤ fl (fl k / 2 ^ 63) ∧ fl (fl k / 2 ^ 63) ≤ (k : ℚ) / 2 ^ 63 * (1 + 1 / 2 ^ 50) := by
  by_cases hk : k = 0
  · subst hk
    have h0 : fl ((0 : Nat) : ℚ) = 0 := by
      have := hf.exact Monitor.double_zero
      simpa using this
    rw [h0]
    have h1 : fl (0 / 2 ^ 63) = 0 := by
      rw [zero_div]
      exact hf.exact Monitor.double_zero
    rw [h1]
    simp
  · have hk1 : (1 : ℚ) ≤ k := by exact_mod_cast Nat.one_le_iff_ne_zero.2 hk
    have h1 := abs_le.1 (nearest_rel hf (x := (k : ℚ)) (le_trans (by norm_num) hk1))
    have h2 := abs_le.1 (nearest_rel hf (x := fl k / 2 ^ 63) (by
      rw [le_div_iff₀ (by positivity)]
      have : (1 : ℚ) / 10 ^ 100 * 2 ^ 63 ≤ 1 / 2 := by norm_num
      linarith))
    constructor <;> nlinarith

theorem chance_le {fl : ℚ → ℚ} (hf : Nearest fl) {x : Nat} (h0 : 1 / 10 ^ 100 ≤ entry x) :
    chanceOf fl x ≤ entry x * (1 + 1 / 2 ^ 48) + 1 / 2 ^ 63 := by
  have ht := abs_le.1 (nearest_rel hf h0)
  have hp : 0 < entry x := lt_of_lt_of_le (by positivity) h0
  have h1 : chanceOf fl x ≤ avg (fun w : BitVec 64 => below (entry x * (1 + 1 / 2 ^ 48) * 2 ^ 63) (int63 w)) := by
    refine avg_mono (fun w => ?_)
    unfold below
    by_cases hw : height fl w ≠ 1 ∧ height fl w < fl (entry x)
    · rw [if_pos hw, if_pos]
      have := (height_near hf (int63 w)).1
      have h2 : (int63 w : ℚ) / 2 ^ 63 * (1 - 1 / 2 ^ 50) < entry x * (1 + 1 / 2 ^ 52) := by
        have := hw.2
        unfold height at this
        linarith
      rw [← div_lt_iff₀ (by positivity)]
      by_contra hc
      rw [not_lt] at hc
      nlinarith
    · rw [if_neg hw]
      split <;> norm_num
  refine h1.trans ?_
  rw [avg_int63 (below (entry x * (1 + 1 / 2 ^ 48) * 2 ^ 63)), div_le_iff₀ (by positivity)]
  refine (count_le _ _ (by positivity)).trans (le_of_eq ?_)
  ring

theorem le_chance {fl : ℚ → ℚ} (hf : Nearest fl) {x : Nat} (h0 : 1 / 10 ^ 100 ≤ entry x) (h1 : entry x ≤ 99 / 100) :
    entry x * (1 - 1 / 2 ^ 48) ≤ chanceOf fl x := by
  have ht := abs_le.1 (nearest_rel hf h0)
  have hp : 0 < entry x := lt_of_lt_of_le (by positivity) h0
  have h2 : avg (fun w : BitVec 64 => below (entry x * (1 - 1 / 2 ^ 48) * 2 ^ 63) (int63 w)) ≤ chanceOf fl x := by
    refine avg_mono (fun w => ?_)
    unfold below
    split
    · rename_i hw
      rw [← div_lt_iff₀ (by positivity)] at hw
      have h3 := (height_near hf (int63 w)).2
      have h4 : height fl w < entry x * (1 - 1 / 2 ^ 52) := by
        unfold height
        refine lt_of_le_of_lt h3 ?_
        nlinarith
      rw [if_pos]
      constructor
      · intro hc
        rw [hc] at h4
        nlinarith
      · linarith
    · split <;> norm_num
  refine le_trans ?_ h2
  rw [avg_int63 (below (entry x * (1 - 1 / 2 ^ 48) * 2 ^ 63)), le_div_iff₀ (by positivity)]
  refine le_count _ _ ?_
  push_cast
  nlinarith

theorem entries_ok : ∀ x < 129, 1 / 10 ^ 100 ≤ entry x ∧ entry x ≤ 99 / 100 := by
  decide +kernel

theorem entries_sum : 8 ≤ ∑ x ∈ Finset.range 129, entry x := by
  decide +kernel

theorem total_ge {fl : ℚ → ℚ} (hf : Nearest fl) : 77 / 10 ≤ total fl := by
  have : ∑ x ∈ Finset.range 129, entry x * (1 - 1 / 2 ^ 48) ≤ total fl := by
    refine Finset.sum_le_sum (fun x hx => ?_)
    obtain ⟨h1, h2⟩ := entries_ok x (Finset.mem_range.1 hx)
    exact le_chance hf h1 h2
  rw [← Finset.sum_mul] at this
  have h8 := entries_sum
  nlinarith

/-! ### The table and the Gaussian function -/

theorem rho_pow (x : Nat) : rho x = Real.exp (-(25 / 2048)) ^ (x ^ 2) := by
  unfold rho
  rw [← Real.exp_nat_mul]
  congr 1
  push_cast
  norm_num
  ring

theorem exp_low : (1138933306655968630 : ℝ) / 2 ^ 60 ≤ Real.exp (-(25 / 2048)) := by
  have h := abs_le.1 (Real.exp_bound (x := -(25 / 2048)) (by norm_num [abs_of_nonneg]) (n := 8) (by norm_num))
  have h1 := h.1
  simp only [Finset.sum_range_succ, Finset.sum_range_zero, Nat.factorial] at h1
  norm_num [abs_of_nonneg] at h1 ⊢
  linarith

theorem exp_high : Real.exp (-(25 / 2048)) ≤ (1138933306655968633 : ℝ) / 2 ^ 60 := by
  have h := abs_le.1 (Real.exp_bound (x := -(25 / 2048)) (by norm_num [abs_of_nonneg]) (n := 8) (by norm_num))
  have h1 := h.2
  simp only [Finset.sum_range_succ, Finset.sum_range_zero, Nat.factorial] at h1
  norm_num [abs_of_nonneg] at h1 ⊢
  linarith

set_option exponentiation.threshold 2000000 in
theorem table_check : ∀ x < 129, x ≠ 0 →
    (entry x).num.toNat * 2 ^ (60 * x ^ 2) * 1000000 ≤ 1000004 * 1138933306655968630 ^ (x ^ 2) * (entry x).den ∧
    999996 * 1138933306655968633 ^ (x ^ 2) * (entry x).den ≤ (entry x).num.toNat * 2 ^ (60 * x ^ 2) * 1000000 := by
  decide +kernel

theorem frac_le {n d a t k m : Nat} (hd : 0 < d) {T b : ℝ} (hT : T = n / d) (hb : b = (a : ℝ) / 2 ^ 60)
    (h : n * 2 ^ (60 * k) * m ≤ t * a ^ k * d) (hm : 0 < m) : T ≤ (t : ℝ) / m * b ^ k := by
  have h1 : (n : ℝ) * 2 ^ (60 * k) * m ≤ t * a ^ k * d := by exact_mod_cast h
  have hd' : (0 : ℝ) < d := by exact_mod_cast hd
  have hm' : (0 : ℝ) < m := by exact_mod_cast hm
  rw [hT, hb, div_pow, ← pow_mul, div_mul_div_comm, div_le_div_iff₀ hd' (by positivity)]
  nlinarith

theorem le_frac {n d a t k m : Nat} (hd : 0 < d) {T b : ℝ} (hT : T = n / d) (hb : b = (a : ℝ) / 2 ^ 60)
    (h : t * a ^ k * d ≤ n * 2 ^ (60 * k) * m) (hm : 0 < m) : (t : ℝ) / m * b ^ k ≤ T := by
  have h1 : (t : ℝ) * a ^ k * d ≤ n * 2 ^ (60 * k) * m := by exact_mod_cast h
  have hd' : (0 : ℝ) < d := by exact_mod_cast hd
  have hm' : (0 : ℝ) < m := by exact_mod_cast hm
  rw [hT, hb, div_pow, ← pow_mul, div_mul_div_comm, div_le_div_iff₀ (by positivity) hd']
  nlinarith

theorem entry_near (x : Nat) (h : x < 129) (h0 : x ≠ 0) :
    (1 - 4 / 1000000) * rho x ≤ (entry x : ℝ) ∧ (entry x : ℝ) ≤ (1 + 4 / 1000000) * rho x := by
  obtain ⟨h1, h2⟩ := table_check x h h0
  have hpos : 0 < entry x := lt_of_lt_of_le (by positivity) (entries_ok x h).1
  have hnum : 0 < (entry x).num := Rat.num_pos.2 hpos
  have hT : ((entry x : ℚ) : ℝ) = ((entry x).num.toNat : ℝ) / ((entry x).den : ℝ) := by
    have e1 : (((entry x).num.toNat : ℤ) : ℝ) = ((entry x).num : ℝ) := by rw [Int.toNat_of_nonneg hnum.le]
    have e2 : (((entry x).num.toNat : ℕ) : ℝ) = ((entry x).num : ℝ) := by rw [← e1]; norm_cast
    rw [e2]
    exact Rat.cast_def _
  rw [rho_pow]
  have e0 : (0 : ℝ) ≤ Real.exp (-(25 / 2048)) := (Real.exp_pos _).le
  constructor
  · have := le_frac (entry x).den_pos hT (b := ((1138933306655968633 : ℕ) : ℝ) / 2 ^ 60) rfl h2 (by norm_num)
    refine le_trans ?_ this
    have h3 := pow_le_pow_left₀ e0 (by exact_mod_cast exp_high :
      Real.exp (-(25 / 2048)) ≤ ((1138933306655968633 : ℕ) : ℝ) / 2 ^ 60) (x ^ 2)
    have h4 : (0 : ℝ) ≤ ((999996 : ℕ) : ℝ) / ((1000000 : ℕ) : ℝ) := by positivity
    have h5 := mul_le_mul_of_nonneg_left h3 h4
    refine le_trans (le_of_eq ?_) h5
    norm_num
  · have := frac_le (entry x).den_pos hT (b := ((1138933306655968630 : ℕ) : ℝ) / 2 ^ 60) rfl h1 (by norm_num)
    refine this.trans ?_
    have h3 := pow_le_pow_left₀ (by positivity) (by exact_mod_cast exp_low :
      ((1138933306655968630 : ℕ) : ℝ) / 2 ^ 60 ≤ Real.exp (-(25 / 2048))) (x ^ 2)
    have h4 : (0 : ℝ) ≤ ((1000004 : ℕ) : ℝ) / ((1000000 : ℕ) : ℝ) := by positivity
    have h5 := mul_le_mul_of_nonneg_left h3 h4
    refine le_trans h5 (le_of_eq ?_)
    norm_num

end Verif.Gauss
