import Verif.Props.Coins

/-! # Lemmas: how likely large noise and small multipliers are -/

namespace Verif.Coins
open Res Verif.Rand Verif.Rand.Spec Verif.Matrix Verif.Lwe Verif.Gauss Verif.Gauss.Spec Verif.Privacy Verif.Coins.Spec
open Verif.Fss Verif.Forge Verif.Monitor.Spec

/-! ### Weights of the samples -/

/-- The mean of a weight of one sample, not normalised. -/
def valueOf (fl : ℚ → ℚ) (φ : Int → ℚ) : ℚ :=
  ∑ x ∈ Finset.range 129, chanceOf fl x * (φ (-(x : Int)) / 2 + φ x / 2)

/-- The product of the weights of the samples. -/
def weights (φ : Nat → Int → ℚ) (gs : List Int) : ℚ := ∏ i ∈ Finset.range gs.length, φ i (gs.getD i 0)

theorem weights_cons (φ : Nat → Int → ℚ) (g : Int) (gs : List Int) :
    weights φ (g :: gs) = φ 0 g * weights (fun i => φ (i + 1)) gs := by
  unfold weights
  rw [List.length_cons, Finset.prod_range_succ', mul_comm]
  rfl

theorem samples_weigh (fl : ℚ → ℚ) : ∀ (l : Nat) (φ : Nat → Int → ℚ) (n : Nat),
    mean n (fun ws => weigh (weights φ) (gaussSamples fl l ws))
      = (∏ i ∈ Finset.range l, valueOf fl (φ i)) * amounts fl l n := by
  intro l
  induction l with
  | zero =>
    intro φ n
    have : ∀ ws, weigh (weights φ) (gaussSamples fl 0 ws) = 1 := fun ws => rfl
    rw [mean_congr n this, mean_const]
    simp [amounts]
  | succ l ih =>
    intro φ n
    have e : ∀ ws, weigh (weights φ) (gaussSamples fl (l + 1) ws)
        = worth (fun g rest => φ 0 g * weigh (weights (fun i => φ (i + 1))) (gaussSamples fl l rest)) (run fl .index ws) := by
      intro ws
      rw [gaussSamples, gaussSample_run]
      cases run fl .index ws with
      | ok r =>
        obtain ⟨g, rest⟩ := r
        simp only [ok_bind, worth]
        cases gaussSamples fl l rest with
        | ok r => simp only [ok_bind, weigh, weights_cons]
        | err m => simp [weigh]
        | crash m => simp [weigh]
      | err m => rfl
      | crash m => rfl
    rw [mean_congr n e]
    refine (proportion fl (φ 0) (fun ws => weigh (weights (fun i => φ (i + 1))) (gaussSamples fl l ws)) _ rfl n).1.trans ?_
    rw [show (fun j => mean j (fun ws => weigh (weights (fun i => φ (i + 1))) (gaussSamples fl l ws)))
      = fun j => (∏ i ∈ Finset.range l, valueOf fl (φ (i + 1))) * amounts fl l j from funext (ih _), amount_scale,
      Finset.prod_range_succ', amounts]
    unfold valueOf
    ring

theorem valueOf_nonneg (fl : ℚ → ℚ) {φ : Int → ℚ} (h : ∀ g, 0 ≤ φ g) : 0 ≤ valueOf fl φ := by
  refine Finset.sum_nonneg (fun x _ => mul_nonneg (chance_nonneg fl x) ?_)
  have := h (-(x : Int))
  have := h x
  positivity

theorem samples_weigh_le {fl : ℚ → ℚ} (hf : Nearest fl) (l : Nat) (φ : Nat → Int → ℚ) (n : Nat) (h : ∀ i g, 0 ≤ φ i g) (c : ℚ)
    (hc : ∀ i < l, valueOf fl (φ i) ≤ c * total fl) :
    mean n (fun ws => weigh (weights φ) (gaussSamples fl l ws)) ≤ c ^ l := by
  have ht : 0 < total fl := by linarith [total_ge hf]
  rw [samples_weigh]
  have h1 : ∏ i ∈ Finset.range l, valueOf fl (φ i) ≤ (c * total fl) ^ l := by
    rw [← Finset.card_range l, ← Finset.prod_const, Finset.card_range]
    exact Finset.prod_le_prod (fun i _ => valueOf_nonneg fl (h i)) (fun i hi => hc i (Finset.mem_range.1 hi))
  have h0 : 0 ≤ ∏ i ∈ Finset.range l, valueOf fl (φ i) := Finset.prod_nonneg (fun i _ => valueOf_nonneg fl (h i))
  calc (∏ i ∈ Finset.range l, valueOf fl (φ i)) * amounts fl l n
      ≤ (∏ i ∈ Finset.range l, valueOf fl (φ i)) * (1 / total fl ^ l) :=
        mul_le_mul_of_nonneg_left (amounts_le fl ht l n) h0
    _ ≤ (c * total fl) ^ l * (1 / total fl ^ l) := mul_le_mul_of_nonneg_right h1 (by positivity)
    _ = c ^ l := by rw [mul_pow]; field_simp

/-! ### The tail of a column -/

/-- The base of the weights. -/
def base : ℚ := 10 / 7

theorem tail_check : ∑ x ∈ Finset.range 129, (entry x * (1 + 1 / 2 ^ 48) + 1 / 2 ^ 63) * (((7 / 10 : ℚ) ^ x + (10 / 7) ^ x) / 2)
    * (7 / 10) ^ 83 ≤ 77 / 10 / 2 ^ 38 := by
  decide +kernel

/-- The weight of a sample in a column: `m` is the bit of the column, `up` the direction. -/
def tilt (up : Bool) (m : Nat) (g : Int) : ℚ := base ^ ((if up then (m : Int) * g else -((m : Int) * g)) - 83)

theorem tilt_pos (up : Bool) (m : Nat) (g : Int) : 0 < tilt up m g := zpow_pos (by norm_num [base]) _

theorem base_zpow_neg (x : Nat) : base ^ (-(x : Int)) = (7 / 10) ^ x := by
  rw [zpow_neg, zpow_natCast, ← inv_pow]
  norm_num [base]

theorem base_zpow (x : Nat) : base ^ (x : Int) = (10 / 7) ^ x := by
  rw [zpow_natCast]
  rfl

theorem tilt_value {fl : ℚ → ℚ} (hf : Nearest fl) (up : Bool) (m : Nat) (hm : m ≤ 1) :
    valueOf fl (tilt up m) ≤ 1 / 2 ^ 38 * total fl := by
  have ht := total_ge hf
  have hb : base ≠ 0 := by norm_num [base]
  have h83 : base ^ (-83 : Int) = (7 / 10) ^ 83 := base_zpow_neg 83
  rcases Nat.le_one_iff_eq_zero_or_eq_one.1 hm with rfl | rfl
  · have e : ∀ g, tilt up 0 g = (7 / 10) ^ 83 := by
      intro g
      unfold tilt
      simp only [Nat.cast_zero, zero_mul, neg_zero, ite_self, zero_sub]
      exact h83
    unfold valueOf
    simp only [e]
    rw [show ∑ x ∈ Finset.range 129, chanceOf fl x * ((7 / 10 : ℚ) ^ 83 / 2 + (7 / 10) ^ 83 / 2) = total fl * (7 / 10) ^ 83 by
      unfold total
      rw [Finset.sum_mul]
      refine Finset.sum_congr rfl (fun x _ => ?_)
      ring, mul_comm]
    refine mul_le_mul_of_nonneg_right ?_ (by linarith)
    norm_num
  · have e : ∀ x : Nat, tilt up 1 (-(x : Int)) / 2 + tilt up 1 x / 2 = (((7 / 10 : ℚ) ^ x + (10 / 7) ^ x) / 2) * (7 / 10) ^ 83 := by
      intro x
      unfold tilt
      cases up
      · simp only [Bool.false_eq_true, if_false, Nat.cast_one, one_mul, neg_neg]
        rw [sub_eq_add_neg, sub_eq_add_neg, zpow_add₀ hb, zpow_add₀ hb, base_zpow, base_zpow_neg, h83]
        ring
      · simp only [if_true, Nat.cast_one, one_mul]
        rw [sub_eq_add_neg, sub_eq_add_neg, zpow_add₀ hb, zpow_add₀ hb, base_zpow, base_zpow_neg, h83]
        ring
    have h1 : valueOf fl (tilt up 1) ≤ ∑ x ∈ Finset.range 129, (entry x * (1 + 1 / 2 ^ 48) + 1 / 2 ^ 63)
        * (((7 / 10 : ℚ) ^ x + (10 / 7) ^ x) / 2) * (7 / 10) ^ 83 := by
      refine Finset.sum_le_sum (fun x hx => ?_)
      rw [e, mul_assoc]
      exact mul_le_mul_of_nonneg_right (chance_le hf (entries_ok x (Finset.mem_range.1 hx)).1) (by positivity)
    have h2 := h1.trans tail_check
    refine h2.trans ?_
    rw [div_eq_mul_one_div, mul_comm]
    exact mul_le_mul_of_nonneg_left ht (by positivity)

theorem prod_zpow_sum (f : Nat → Int) (n : Nat) :
    ∏ i ∈ Finset.range n, base ^ f i = base ^ ∑ i ∈ Finset.range n, f i := by
  induction n with
  | zero => simp
  | succ n ih => rw [Finset.prod_range_succ, Finset.sum_range_succ, zpow_add₀ (by norm_num [base]), ih]

/-- The samples that make a column exceed `84` per row have weight at least one. -/
theorem one_le_tilts (up : Bool) (m : Nat → Nat) (hm : ∀ i, m i ≤ 1) (ν : Int → Int)
    (hν : ∀ g, g - 1 ≤ ν g ∧ ν g ≤ g) (gs : List Int) (l : Nat) (hl : gs.length = l)
    (h : 84 * (l : Int) ≤ (if up then ∑ r ∈ Finset.range l, ν (gs.getD r 0) * (m r : Int)
      else -∑ r ∈ Finset.range l, ν (gs.getD r 0) * (m r : Int))) :
    1 ≤ weights (fun i => tilt up (m i)) gs := by
  unfold weights tilt
  rw [hl, prod_zpow_sum]
  refine one_le_zpow₀ (by norm_num [base]) ?_
  have h84 : (84 : Int) * l = ∑ r ∈ Finset.range l, 84 := by simp [mul_comm]
  cases up
  · simp only [Bool.false_eq_true, if_false] at h ⊢
    rw [h84, ← Finset.sum_neg_distrib] at h
    have h1 := sub_nonneg.2 h
    rw [← Finset.sum_sub_distrib] at h1
    refine h1.trans (Finset.sum_le_sum (fun r _ => ?_))
    obtain ⟨n1, n2⟩ := hν (gs.getD r 0)
    rcases Nat.le_one_iff_eq_zero_or_eq_one.1 (hm r) with e | e <;> rw [e] <;> push_cast <;> omega
  · simp only [if_true] at h ⊢
    rw [h84] at h
    have h1 := sub_nonneg.2 h
    rw [← Finset.sum_sub_distrib] at h1
    refine h1.trans (Finset.sum_le_sum (fun r _ => ?_))
    obtain ⟨n1, n2⟩ := hν (gs.getD r 0)
    rcases Nat.le_one_iff_eq_zero_or_eq_one.1 (hm r) with e | e <;> rw [e] <;> push_cast <;> omega

/-! ### Chances of draws -/

open Classical in
/-- An event of the noise that is outweighed by a weight. -/
theorem part_noise_le (P : Past) (fl : ℚ → ℚ) (k n l : Nat) (hk : k ≤ 16) (A : List Int → Prop) (Φ : List Int → ℚ)
    (h0 : ∀ gs, 0 ≤ Φ gs) (h : ∀ gs, gs.length = l → A gs → 1 ≤ Φ gs) :
    Coins.Spec.part P fl k n l (fun r => ∃ c, r = ok c ∧ A c.noise)
      ≤ mean P.N (fun ws => weigh Φ (gaussSamples fl l ws)) := by
  have e := avg_draws P fl k n l hk (fun _ _ => 1) Φ
  rw [avg_const, one_mul] at e
  rw [← e]
  refine avg_mono (fun B => ?_)
  cases hd : draws P fl k n l B.1 B.2 with
  | ok c =>
    dsimp only
    rw [one_mul]
    split
    · rename_i hA
      obtain ⟨c', h1, h2⟩ := hA
      simp only [ok.injEq] at h1
      subst h1
      refine h _ ?_ h2
      rw [draws_eq P fl k n l hk] at hd
      obtain ⟨r, hr, hc⟩ := bind_eq_ok.1 hd
      simp only [ok.injEq] at hc
      rw [← hc]
      exact samples_length fl _ _ _ _ (show gaussSamples fl l _ = ok (r.1, r.2) from hr)
    · exact h0 _
  | err e => simp
  | crash e => simp

theorem part_column {fl : ℚ → ℚ} (hf : Nearest fl) (P : Past) (k n l : Nat) (hk : k ≤ 16) (up : Bool) (m : Nat → Nat)
    (hm : ∀ i, m i ≤ 1) (ν : Int → Int) (hν : ∀ g, g - 1 ≤ ν g ∧ ν g ≤ g) :
    Coins.Spec.part P fl k n l (fun r => ∃ c, r = ok c ∧
      84 * (l : Int) ≤ (if up then ∑ r ∈ Finset.range l, ν (c.noise.getD r 0) * (m r : Int)
        else -∑ r ∈ Finset.range l, ν (c.noise.getD r 0) * (m r : Int))) ≤ 1 / 2 ^ (38 * l) := by
  refine (part_noise_le P fl k n l hk (fun gs => 84 * (l : Int) ≤ (if up then ∑ r ∈ Finset.range l, ν (gs.getD r 0) * (m r : Int)
    else -∑ r ∈ Finset.range l, ν (gs.getD r 0) * (m r : Int))) (weights (fun i => tilt up (m i)))
    (fun gs => Finset.prod_nonneg (fun i _ => (tilt_pos _ _ _).le))
    (fun gs hl h => one_le_tilts up m hm ν hν gs l hl h)).trans ?_
  refine (samples_weigh_le hf l _ P.N (fun i g => (tilt_pos _ _ _).le) (1 / 2 ^ 38) (fun i _ => tilt_value hf up (m i) (hm i))).trans
    (le_of_eq ?_)
  rw [one_div_pow, ← pow_mul]

theorem avg_multiplier (k : Nat) (rest : Nat → Byte) (pos M : Nat) (hM : k ≤ M) (v : Nat)
    (hv : v < 256 ^ k) :
    avg (fun B : Fin M → Byte => if ofLE (keyStream (tape rest pos M B) pos k) = v then (1 : ℚ) else 0) = 1 / 2 ^ (8 * k) := by
  have h := avg_given (X := Byte) (M := M) (fun i => i < k) (fun i => (leBytes k v).getD i 0)
  have hc : ((Finset.range M).filter (fun i => i < k)).card = k := by
    rw [show (Finset.range M).filter (fun i => i < k) = Finset.range k by
      ext i
      simp only [Finset.mem_filter, Finset.mem_range]
      omega, Finset.card_range]
  rw [hc] at h
  have e : (1 / (Fintype.card Byte : ℚ)) ^ k = 1 / 2 ^ (8 * k) := by
    rw [show Fintype.card Byte = 2 ^ 8 from card_word 8, one_div, inv_pow, one_div, pow_mul 2 8]
    push_cast
    rfl
  rw [← e, ← h]
  refine avg_congr (fun B => if_congr ?_ rfl rfl)
  have h1 : ofLE (keyStream (tape rest pos M B) pos k) = v ↔ keyStream (tape rest pos M B) pos k = leBytes k v := by
    constructor
    · intro h
      refine ofLE_inj (by simp) ?_
      rw [h, ofLE_leBytes, Nat.mod_eq_of_lt hv]
    · intro h
      rw [h, ofLE_leBytes, Nat.mod_eq_of_lt hv]
  rw [h1, list_iff _ k (by simp) _ (leBytes_len _ _)]
  constructor
  · intro h i hi
    have := h i hi
    rwa [keyStream_getD _ _ _ _ hi, tape_at _ _ _ _ _ i.isLt] at this
  · intro h i hi
    rw [keyStream_getD _ _ _ _ hi, tape_at _ _ _ _ _ (by omega)]
    exact h ⟨i, by omega⟩ hi

theorem mean_done_le (fl : ℚ → ℚ) (l N : Nat) : mean N (fun ws => weigh (fun _ => 1) (gaussSamples fl l ws)) ≤ 1 := by
  refine avg_le (fun W => ?_)
  show weigh (fun _ => 1) (gaussSamples fl l (List.ofFn W)) ≤ 1
  unfold weigh
  split <;> norm_num

open Classical in
/-- The chance of a multiplier in a set. -/
theorem part_multiplier (P : Past) (fl : ℚ → ℚ) (k n l : Nat) (hk : k ≤ 16) (hM : k ≤ P.M) (X : Finset Nat)
    (hX : ∀ v ∈ X, v < 256 ^ k) :
    Coins.Spec.part P fl k n l (fun r => ∃ c, r = ok c ∧ multiplier k c ∈ X) ≤ X.card / 2 ^ (8 * k) := by
  have e := avg_draws P fl k n l hk (fun tb _ => if ofLE tb ∈ X then 1 else 0) (fun _ => 1)
  have h1 : avg (fun B : Fin P.M → Byte => if ofLE (keyStream (tape P.rest P.pos P.M B) P.pos k) ∈ X then (1 : ℚ) else 0)
      = X.card / 2 ^ (8 * k) := by
    have : ∀ B : Fin P.M → Byte, (if ofLE (keyStream (tape P.rest P.pos P.M B) P.pos k) ∈ X then (1 : ℚ) else 0)
        = ∑ v ∈ X, if ofLE (keyStream (tape P.rest P.pos P.M B) P.pos k) = v then 1 else 0 := by
      intro B
      rw [Finset.sum_ite_eq]
    rw [avg_congr this]
    have hs : avg (fun B : Fin P.M → Byte => ∑ v ∈ X, if ofLE (keyStream (tape P.rest P.pos P.M B) P.pos k) = v then (1 : ℚ) else 0)
        = ∑ v ∈ X, avg (fun B : Fin P.M → Byte => if ofLE (keyStream (tape P.rest P.pos P.M B) P.pos k) = v then (1 : ℚ) else 0) := by
      unfold avg
      rw [Finset.sum_comm, Finset.sum_div]
    rw [hs, Finset.sum_congr rfl (fun v hv => avg_multiplier k P.rest P.pos P.M hM v (hX v hv)), Finset.sum_const, nsmul_eq_mul]
    ring
  rw [h1] at e
  have h2 := mean_done_le fl l P.N
  refine le_trans ?_ (mul_le_of_le_one_right (by positivity) h2)
  rw [← e]
  refine avg_mono (fun B => ?_)
  cases hd : draws P fl k n l B.1 B.2 with
  | ok c =>
    dsimp only
    rw [mul_one]
    have ht : c.tBytes.length = k := by
      rw [draws_eq P fl k n l hk] at hd
      obtain ⟨r, hr, hc⟩ := bind_eq_ok.1 hd
      simp only [ok.injEq] at hc
      rw [← hc]
      simp
    have hm : multiplier k c = ofLE c.tBytes := by
      unfold multiplier
      rw [List.take_of_length_le (by omega)]
    refine le_of_eq (if_congr ?_ rfl rfl)
    simp only [ok.injEq, exists_eq_left', hm]
  | err e => simp
  | crash e => simp

open Classical in
/-- The union bound. -/
theorem part_union {ι : Type} (P : Past) (fl : ℚ → ℚ) (k n l : Nat) (A : Res Coins → Prop) (s : Finset ι)
    (E : ι → Res Coins → Prop) (h : ∀ B B', A (draws P fl k n l B B') → ∃ i ∈ s, E i (draws P fl k n l B B')) :
    Coins.Spec.part P fl k n l A ≤ ∑ i ∈ s, Coins.Spec.part P fl k n l (E i) := by
  have hs : ∑ i ∈ s, Coins.Spec.part P fl k n l (E i) = avg (fun B : (Fin P.M → Byte) × (Fin (8 * P.N) → Byte) =>
      ∑ i ∈ s, if E i (draws P fl k n l B.1 B.2) then (1 : ℚ) else 0) := by
    unfold Coins.Spec.part avg
    rw [Finset.sum_comm, Finset.sum_div]
  rw [hs]
  refine avg_mono (fun B => ?_)
  by_cases hA : A (draws P fl k n l B.1 B.2)
  · rw [if_pos hA]
    obtain ⟨i, hi, hE⟩ := h B.1 B.2 hA
    refine le_trans ?_ (Finset.single_le_sum (f := fun i => if E i (draws P fl k n l B.1 B.2) then (1 : ℚ) else 0)
      (fun j _ => by positivity) hi)
    rw [if_pos hE]
  · rw [if_neg hA]
    exact Finset.sum_nonneg (fun j _ => by positivity)

end Verif.Coins
