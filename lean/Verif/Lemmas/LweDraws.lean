import Verif.Lemmas.LweReal
import Verif.Lemmas.ReactionAmplify

/-! # Lemmas: noise for several queries from one generator, compared with independent noise -/

namespace Verif.LweDraws
open Res Verif.Rand Verif.Matrix Verif.Lwe Verif.Lwe.Spec Verif.Gauss Verif.Gauss.Spec Verif.Privacy Verif.Coins
  Verif.Coins.Spec Verif.Reaction Verif.LweReal Verif.LweReal.Spec Verif.Monitor.Spec

/-! ### Noise values as a finite type -/

/-- The noise value of a number below 257. -/
def val (a : Fin 257) : Int := (a.val : Int) - 128

/-- The noise values of one query. -/
def line {l : Nat} (x : Fin l → Fin 257) : List Int := List.ofFn (fun j => val (x j))

/-- The noise values of all queries. -/
def flat {r l : Nat} (x : Fin r → Fin l → Fin 257) : List Int :=
  List.ofFn (fun q : Fin (r * l) => val (x q.divNat q.modNat))

theorem val_inj {a b : Fin 257} (h : val a = val b) : a = b := by
  unfold val at h
  exact Fin.ext (by omega)

theorem val_surj (g : Int) (h : g.natAbs ≤ 128) : ∃ a, val a = g :=
  ⟨⟨(g + 128).toNat, by omega⟩, by unfold val; dsimp only; omega⟩

theorem line_inj {l : Nat} {x y : Fin l → Fin 257} (h : line x = line y) : x = y := by
  unfold line at h
  have := List.ofFn_injective h
  funext j
  exact val_inj (congrFun this j)

theorem line_surj (l : Nat) (gs : List Int) (hl : gs.length = l) (hb : ∀ g ∈ gs, g.natAbs ≤ 128) :
    ∃ x : Fin l → Fin 257, line x = gs := by
  subst hl
  have : ∀ j : Fin gs.length, ∃ a, val a = gs[j] := fun j => val_surj _ (hb _ (List.getElem_mem _))
  choose x hx using this
  refine ⟨x, ?_⟩
  unfold line
  rw [show (fun j => val (x j)) = fun j : Fin gs.length => gs[j] from funext hx]
  exact List.ofFn_getElem

theorem flat_length {r l : Nat} (x : Fin r → Fin l → Fin 257) : (flat x).length = r * l := by simp [flat]

theorem block_flat {r l : Nat} (x : Fin r → Fin l → Fin 257) (i : Fin r) : block l i (flat x) = line (x i) := by
  have hl := block_length l i r (flat x) i.isLt (flat_length x)
  apply List.ext_getElem
  · rw [hl]; simp [line]
  · intro j h1 h2
    have hj : j < l := by omega
    have e := block_getD l i j (flat x) hj
    rw [getD_get _ _ h1] at e
    rw [e]
    have hq : i.val * l + j < r * l := by
      have : (i.val + 1) * l ≤ r * l := Nat.mul_le_mul_right _ i.isLt
      rw [Nat.add_mul, Nat.one_mul] at this
      omega
    have e0 : (flat x).getD (i.val * l + j) 0 = val (x (⟨i.val * l + j, hq⟩ : Fin (r * l)).divNat
        (⟨i.val * l + j, hq⟩ : Fin (r * l)).modNat) := by
      unfold flat
      rw [getD_get _ _ (by simpa using hq), List.getElem_ofFn]
    have e3 : (line (x i))[j] = val (x i ⟨j, hj⟩) := by simp [line]
    rw [e0, e3]
    have e1 : (⟨i.val * l + j, hq⟩ : Fin (r * l)).divNat = i := by
      apply Fin.ext
      show (i.val * l + j) / l = i.val
      rw [Nat.mul_comm, Nat.mul_add_div (by omega), Nat.div_eq_of_lt hj, Nat.add_zero]
    have e2 : (⟨i.val * l + j, hq⟩ : Fin (r * l)).modNat = ⟨j, hj⟩ := by
      apply Fin.ext
      show (i.val * l + j) % l = j
      rw [Nat.mul_comm, Nat.mul_add_mod, Nat.mod_eq_of_lt hj]
    rw [e1, e2]

theorem flat_inj {r l : Nat} {x y : Fin r → Fin l → Fin 257} (h : flat x = flat y) : x = y := by
  funext i
  apply line_inj
  rw [← block_flat, ← block_flat, h]

theorem flat_surj (r l : Nat) (gs : List Int) (hl : gs.length = r * l) (hb : ∀ g ∈ gs, g.natAbs ≤ 128) :
    ∃ x : Fin r → Fin l → Fin 257, flat x = gs := by
  obtain ⟨y, hy⟩ := line_surj (r * l) gs hl hb
  refine ⟨fun i j => y (finProdFinEquiv (i, j)), ?_⟩
  rw [← hy]
  unfold flat line
  congr 1
  funext q
  exact congrArg (fun a => val (y a)) (finProdFinEquiv.apply_symm_apply q)

theorem flat_prod {r l : Nat} (q : Int → ℚ) (x : Fin r → Fin l → Fin 257) :
    ((flat x).map q).prod = ∏ i, ((line (x i)).map q).prod := by
  unfold flat line
  simp only [List.map_ofFn, List.prod_ofFn]
  rw [← Fintype.prod_prod_type (fun y : Fin r × Fin l => (q ∘ fun j => val (x y.1 j)) y.2)]
  exact Fintype.prod_equiv finProdFinEquiv.symm _ _ (fun _ => rfl)

/-! ### The ideal chances -/

theorem sum_val (q : Int → ℚ) : ∑ a : Fin 257, q (val a) = ∑ g ∈ Finset.Icc (-128 : Int) 128, q g := by
  refine Finset.sum_bij (fun a _ => val a) ?_ ?_ ?_ ?_
  · intro a _
    unfold val
    rw [Finset.mem_Icc]
    omega
  · intro a _ b _ h
    exact val_inj h
  · intro g hg
    rw [Finset.mem_Icc] at hg
    obtain ⟨a, ha⟩ := val_surj g (by omega)
    exact ⟨a, Finset.mem_univ _, ha⟩
  · intro a _; rfl

theorem sum_pi {X : Type} [Fintype X] [DecidableEq X] {r : Nat} (f : Fin r → X → ℚ) :
    ∑ x : Fin r → X, ∏ i, f i (x i) = ∏ i, ∑ a, f i a := by
  rw [Finset.prod_univ_sum, Fintype.piFinset_univ]

/-- The chance of the noise values `x` under independent draws from `q`. -/
def ideal (q : Int → ℚ) {r l : Nat} (x : Fin r → Fin l → Fin 257) : ℚ := ((flat x).map q).prod

theorem ideal_sum {q : Int → ℚ} (hq : ∑ g ∈ Finset.Icc (-128 : Int) 128, q g = 1) (r l : Nat) :
    ∑ x : Fin r → Fin l → Fin 257, ideal q x = 1 := by
  unfold ideal
  simp only [flat_prod]
  rw [sum_pi (fun (_ : Fin r) (y : Fin l → Fin 257) => ((line y).map q).prod)]
  refine Finset.prod_eq_one (fun i _ => ?_)
  have : ∀ y : Fin l → Fin 257, ((line y).map q).prod = ∏ j, q (val (y j)) := by
    intro y
    unfold line
    rw [List.map_ofFn, List.prod_ofFn]
    rfl
  simp only [this]
  rw [sum_pi (fun (_ : Fin l) (a : Fin 257) => q (val a))]
  refine Finset.prod_eq_one (fun j _ => ?_)
  rw [sum_val, hq]

theorem ideal_nonneg {q : Int → ℚ} (hq : ∀ g, 0 ≤ q g) {r l : Nat} (x : Fin r → Fin l → Fin 257) : 0 ≤ ideal q x := by
  unfold ideal
  refine List.prod_nonneg (fun a ha => ?_)
  obtain ⟨g, -, rfl⟩ := List.mem_map.1 ha
  exact hq g

/-- The average of `f` under independent draws from `q`. -/
def idealMean (q : Int → ℚ) (r l : Nat) (f : (Fin r → List Int) → ℚ) : ℚ :=
  ∑ x : Fin r → Fin l → Fin 257, ideal q x * f (fun i => line (x i))

/-! ### The chances of the sampler -/

theorem part_le {fl : ℚ → ℚ} (hf : Nearest fl) (gs : List Int) (N : Nat) :
    Gauss.Spec.part N (Yields fl gs) ≤ (gs.map (chanceFor fl)).prod := by
  have ht := total_ge hf
  have h := mul_le_mul_of_nonneg_left (amounts_le fl (by linarith) gs.length N) (prod_nonneg fl gs)
  rw [part_yields, show chanceFor fl = fun g => half fl g / total fl from rfl, prod_div]
  refine h.trans (le_of_eq ?_)
  ring

theorem part_ge {fl : ℚ → ℚ} (hf : Nearest fl) (gs : List Int) (c N : Nat) (hc : 4 ≤ c) (hN : c * gs.length ≤ N) :
    (1 - late c) ^ gs.length * (gs.map (chanceFor fl)).prod ≤ Gauss.Spec.part N (Yields fl gs) := by
  have h := mul_le_mul_of_nonneg_left (amounts_ge fl (total_ge hf) c hc gs.length N hN) (prod_nonneg fl gs)
  rw [part_yields, show chanceFor fl = fun g => half fl g / total fl from rfl, prod_div]
  refine le_trans (le_of_eq ?_) h
  ring

/-! ### Noise for all queries from the same words -/

/-- The average of `f` over the noise of `r` queries with `l` values each, drawn one after the other from `N` words; `0` if
the words do not suffice. -/
def sharedMean (fl : ℚ → ℚ) (r l N : Nat) (f : (Fin r → List Int) → ℚ) : ℚ :=
  Gauss.mean N (fun ws => weigh (fun gs => f (fun i => block l i gs)) (gaussSamples fl (r * l) ws))

open Classical in
theorem sharedMean_eq (fl : ℚ → ℚ) (r l N : Nat) (f : (Fin r → List Int) → ℚ) :
    sharedMean fl r l N f =
      ∑ x : Fin r → Fin l → Fin 257, Gauss.Spec.part N (Yields fl (flat x)) * f (fun i => line (x i)) := by
  have e : ∀ ws, weigh (fun gs => f (fun i => block l i gs)) (gaussSamples fl (r * l) ws) =
      ∑ x : Fin r → Fin l → Fin 257, f (fun i => line (x i)) * (if Yields fl (flat x) ws then (1 : ℚ) else 0) := by
    intro ws
    cases hg : gaussSamples fl (r * l) ws with
    | ok p =>
      obtain ⟨gs, rest⟩ := p
      obtain ⟨y, hy⟩ := flat_surj r l gs (samples_length fl _ _ _ _ hg) (samples_bound fl _ _ _ _ hg)
      rw [Finset.sum_eq_single y]
      · rw [if_pos ⟨rest, by rw [flat_length, hg, hy]⟩, mul_one]
        show f _ = f _
        congr 1
        funext i
        rw [← hy, block_flat]
      · intro x _ hx
        rw [if_neg, mul_zero]
        rintro ⟨rest', h⟩
        rw [flat_length, hg] at h
        simp only [ok.injEq, Prod.mk.injEq] at h
        exact hx (flat_inj (h.1.symm.trans hy.symm))
      · intro h
        exact absurd (Finset.mem_univ _) h
    | err m =>
      symm
      refine Finset.sum_eq_zero (fun x _ => ?_)
      rw [if_neg, mul_zero]
      rintro ⟨rest', h⟩
      rw [flat_length, hg] at h
      simp at h
    | crash m =>
      symm
      refine Finset.sum_eq_zero (fun x _ => ?_)
      rw [if_neg, mul_zero]
      rintro ⟨rest', h⟩
      rw [flat_length, hg] at h
      simp at h
  unfold sharedMean
  rw [mean_congr N e]
  unfold Gauss.mean
  rw [Reaction.avg_sum]
  refine Finset.sum_congr rfl (fun x _ => ?_)
  rw [Forge.avg_scale, mul_comm]
  rfl

theorem shared_le {fl : ℚ → ℚ} (hf : Nearest fl) (r l N : Nat) (f : (Fin r → List Int) → ℚ) (h0 : ∀ y, 0 ≤ f y) :
    sharedMean fl r l N f ≤ idealMean (chanceFor fl) r l f := by
  rw [sharedMean_eq]
  exact Finset.sum_le_sum (fun x _ => mul_le_mul_of_nonneg_right (part_le hf _ _) (h0 _))

theorem bernoulli (c : Nat) (hc : 4 ≤ c) (m : Nat) : 1 - m * late c ≤ (1 - late c) ^ m := by
  have h2 := one_add_mul_le_pow (a := -late c) (by linarith [late_le hc]) m
  rw [← sub_eq_add_neg] at h2
  linarith

theorem idealMean_le {fl : ℚ → ℚ} (hf : Nearest fl) (r l : Nat) (f : (Fin r → List Int) → ℚ) (h : ∀ y, 0 ≤ f y ∧ f y ≤ 1) :
    0 ≤ idealMean (chanceFor fl) r l f ∧ idealMean (chanceFor fl) r l f ≤ 1 := by
  have hq := C104_distribution hf
  constructor
  · exact Finset.sum_nonneg (fun x _ => mul_nonneg (ideal_nonneg hq.nonneg x) (h _).1)
  · rw [← ideal_sum hq.sum r l]
    refine Finset.sum_le_sum (fun x _ => ?_)
    have := mul_le_mul_of_nonneg_left (h (fun i => line (x i))).2 (ideal_nonneg hq.nonneg x)
    rwa [mul_one] at this

theorem scaled_ge {fl : ℚ → ℚ} (hf : Nearest fl) (r l c : Nat) (hc : 4 ≤ c) (f : (Fin r → List Int) → ℚ)
    (h : ∀ y, 0 ≤ f y ∧ f y ≤ 1) (p : (Fin r → Fin l → Fin 257) → ℚ)
    (hp : ∀ x, (1 - late c) ^ (r * l) * ideal (chanceFor fl) x ≤ p x) :
    idealMean (chanceFor fl) r l f - (r * l : Nat) * late c ≤ ∑ x, p x * f (fun i => line (x i)) := by
  have h1 : (1 - late c) ^ (r * l) * idealMean (chanceFor fl) r l f ≤ ∑ x, p x * f (fun i => line (x i)) := by
    unfold idealMean
    rw [Finset.mul_sum]
    refine Finset.sum_le_sum (fun x _ => ?_)
    rw [← mul_assoc]
    exact mul_le_mul_of_nonneg_right (hp x) (h _).1
  have h2 := idealMean_le hf r l f h
  have h3 := mul_le_mul_of_nonneg_right (bernoulli c hc (r * l)) h2.1
  have h4 : 0 ≤ ((r * l : Nat) : ℚ) * late c := by unfold late; positivity
  nlinarith [mul_le_mul_of_nonneg_left h2.2 h4]

theorem shared_ge {fl : ℚ → ℚ} (hf : Nearest fl) (r l c N : Nat) (hc : 4 ≤ c) (hN : c * (r * l) ≤ N)
    (f : (Fin r → List Int) → ℚ) (h : ∀ y, 0 ≤ f y ∧ f y ≤ 1) :
    idealMean (chanceFor fl) r l f - (r * l : Nat) * late c ≤ sharedMean fl r l N f := by
  rw [sharedMean_eq]
  refine scaled_ge hf r l c hc f h _ (fun x => ?_)
  have := part_ge hf (flat x) c N hc (by rw [flat_length]; exact hN)
  rwa [flat_length] at this

/-! ### Noise for each query from its own words -/

/-- The average of `f` over the noise of `r` queries, each drawn from its own `N` words. -/
def ownMean (fl : ℚ → ℚ) (r l N : Nat) (f : (Fin r → List Int) → ℚ) : ℚ :=
  avg (fun W : Fin r → Fin N → BitVec 64 => f (fun i => noiseFrom fl l (List.ofFn (W i))))

open Classical in
theorem own_part {fl : ℚ → ℚ} {r l : Nat} (N : Nat) (x : Fin r → Fin l → Fin 257) :
    avg (fun W : Fin r → Fin N → BitVec 64 => if ∀ i, Yields fl (line (x i)) (List.ofFn (W i)) then (1 : ℚ) else 0) =
      ∏ i, Gauss.Spec.part N (Yields fl (line (x i))) := by
  have e : ∀ W : Fin r → Fin N → BitVec 64, (if ∀ i, Yields fl (line (x i)) (List.ofFn (W i)) then (1 : ℚ) else 0) =
      ∏ i, (if Yields fl (line (x i)) (List.ofFn (W i)) then (1 : ℚ) else 0) := by
    intro W
    split
    · rename_i h
      symm
      exact Finset.prod_eq_one (fun i _ => if_pos (h i))
    · rename_i h
      push Not at h
      obtain ⟨i, hi⟩ := h
      symm
      exact Finset.prod_eq_zero (Finset.mem_univ i) (if_neg hi)
  rw [avg_congr e]
  exact avg_pi (fun i (B : Fin N → BitVec 64) => if Yields fl (line (x i)) (List.ofFn B) then (1 : ℚ) else 0)

theorem own_ge {fl : ℚ → ℚ} (hf : Nearest fl) (r l c N : Nat) (hc : 4 ≤ c) (hN : c * l ≤ N)
    (f : (Fin r → List Int) → ℚ) (h : ∀ y, 0 ≤ f y ∧ f y ≤ 1) :
    idealMean (chanceFor fl) r l f - (r * l : Nat) * late c ≤ ownMean fl r l N f := by
  classical
  have h1 : ∑ x : Fin r → Fin l → Fin 257, (∏ i, Gauss.Spec.part N (Yields fl (line (x i)))) * f (fun i => line (x i))
      ≤ ownMean fl r l N f := by
    have e : ∀ x : Fin r → Fin l → Fin 257, (∏ i, Gauss.Spec.part N (Yields fl (line (x i)))) * f (fun i => line (x i)) =
        avg (fun W : Fin r → Fin N → BitVec 64 => f (fun i => line (x i)) *
          (if ∀ i, Yields fl (line (x i)) (List.ofFn (W i)) then (1 : ℚ) else 0)) := by
      intro x
      rw [Forge.avg_scale, own_part, mul_comm]
    rw [Finset.sum_congr rfl (fun x _ => e x), ← Reaction.avg_sum]
    unfold ownMean
    refine avg_mono (fun W => ?_)
    by_cases hy : ∃ x : Fin r → Fin l → Fin 257, ∀ i, Yields fl (line (x i)) (List.ofFn (W i))
    · obtain ⟨y, hy⟩ := hy
      have key : ∀ x : Fin r → Fin l → Fin 257, (∀ i, Yields fl (line (x i)) (List.ofFn (W i))) → ∀ i,
          noiseFrom fl l (List.ofFn (W i)) = line (x i) := by
        intro x hx i
        obtain ⟨rest, hr⟩ := hx i
        rw [show (line (x i)).length = l by simp [line]] at hr
        unfold noiseFrom
        rw [hr]
      rw [Finset.sum_eq_single y]
      · rw [if_pos hy, mul_one]
        refine le_of_eq (congrArg f (funext fun i => ?_))
        exact (key y hy i).symm
      · intro x _ hx
        rw [if_neg, mul_zero]
        intro hx'
        refine hx (funext fun i => line_inj ?_)
        rw [← key x hx' i, key y hy i]
      · intro h
        exact absurd (Finset.mem_univ _) h
    · push Not at hy
      rw [Finset.sum_eq_zero]
      · exact (h _).1
      · intro x _
        rw [if_neg, mul_zero]
        intro hx
        obtain ⟨i, hi⟩ := hy x
        exact hi (hx i)
  refine le_trans ?_ h1
  refine scaled_ge hf r l c hc f h _ (fun x => ?_)
  have hl : ∀ i, (line (x i)).length = l := fun i => by simp [line]
  have h2 : ∏ i : Fin r, ((1 - late c) ^ l * ((line (x i)).map (chanceFor fl)).prod) ≤
      ∏ i, Gauss.Spec.part N (Yields fl (line (x i))) := by
    refine Finset.prod_le_prod (fun i _ => ?_) (fun i _ => ?_)
    · refine mul_nonneg (pow_nonneg (by linarith [late_le hc]) _) ?_
      refine List.prod_nonneg (fun a ha => ?_)
      obtain ⟨g, -, rfl⟩ := List.mem_map.1 ha
      exact (C104_distribution hf).nonneg g
    · have := part_ge hf (line (x i)) c N hc (by rw [hl]; exact hN)
      rwa [hl] at this
  refine le_trans (le_of_eq ?_) h2
  rw [Finset.prod_mul_distrib, Finset.prod_const, Finset.card_univ, Fintype.card_fin, ← pow_mul, Nat.mul_comm l r]
  unfold ideal
  rw [flat_prod]

theorem own_le {fl : ℚ → ℚ} (hf : Nearest fl) (r l c N : Nat) (hc : 4 ≤ c) (hN : c * l ≤ N)
    (f : (Fin r → List Int) → ℚ) (h : ∀ y, 0 ≤ f y ∧ f y ≤ 1) :
    ownMean fl r l N f ≤ idealMean (chanceFor fl) r l f + (r * l : Nat) * late c := by
  have h1 := own_ge hf r l c N hc hN (fun y => 1 - f y) (fun y => ⟨by linarith [(h y).2], by linarith [(h y).1]⟩)
  have h2 : ownMean fl r l N (fun y => 1 - f y) + ownMean fl r l N f = 1 := by
    unfold ownMean
    rw [avg_add]
    simp only [sub_add_cancel]
    exact avg_const _
  have h3 : idealMean (chanceFor fl) r l (fun y => 1 - f y) + idealMean (chanceFor fl) r l f = 1 := by
    unfold idealMean
    rw [← Finset.sum_add_distrib]
    refine Eq.trans ?_ (ideal_sum (C104_distribution hf).sum r l)
    refine Finset.sum_congr rfl (fun x _ => ?_)
    ring
  linarith

/-! ### The bytes of several queries -/

/-- The coins with multiplier bytes `τ`, secret bytes `σ` and noise `e`. -/
def coinsOf {k n r : Nat} (τ : Fin r → Fin k → Byte) (σ : Fin r → Fin (k * n) → Byte) (e : Fin r → List Int) : List Coins :=
  List.ofFn (fun i => ⟨List.ofFn (τ i), List.ofFn (σ i), e i⟩)

/-- The draws of `r` queries with multiplier bytes `τ`, secret bytes `σ` and words `ws`. -/
def madeMany (fl : ℚ → ℚ) (l : Nat) {k n r : Nat} (τ : Fin r → Fin k → Byte) (σ : Fin r → Fin (k * n) → Byte)
    (ws : List (BitVec 64)) : Res (List Coins) := do
  let g ← gaussSamples fl (r * l) ws
  ok (coinsOf τ σ (fun i => block l i g.1))

theorem offset_lt {s r i a : Nat} (hi : i < r) (ha : a < s) : i * s + a < r * s := by
  have : (i + 1) * s ≤ r * s := Nat.mul_le_mul_right _ hi
  rw [Nat.add_mul, Nat.one_mul] at this
  omega

theorem offset_inj {s i j a b : Nat} (ha : a < s) (hb : b < s) (h : i * s + a = j * s + b) : i = j ∧ a = b := by
  have h1 : (i * s + a) / s = i := by
    rw [Nat.mul_comm, Nat.mul_add_div (by omega), Nat.div_eq_of_lt ha, Nat.add_zero]
  have h2 : (j * s + b) / s = j := by
    rw [Nat.mul_comm, Nat.mul_add_div (by omega), Nat.div_eq_of_lt hb, Nat.add_zero]
  have h3 : i = j := by rw [← h1, h, h2]
  subst h3
  exact ⟨rfl, by omega⟩

/-- Averages over the generators are averages over multipliers, secrets and words. -/
theorem avg_many_eq (P : Past) (fl : ℚ → ℚ) (k n l r : Nat) (hk : k ≤ 16) (hM : r * stride k n ≤ P.M) (Φ : Res (List Coins) → ℚ) :
    avg (fun B : (Fin P.M → Byte) × (Fin (8 * P.N) → Byte) => Φ (do
        let (gs, _) ← gaussSamples fl (r * l)
          (List.ofFn (fun i : Fin P.N => servedWord (tape P.rest' (8 * P.m) (8 * P.N) B.2) bufSize (8 * P.m) i))
        ok (dealt k n l r (tape P.rest P.pos P.M B.1) P.pos gs)))
      = avg (fun x : ((Fin r → Fin k → Byte) × (Fin r → Fin (k * n) → Byte)) × (Fin P.N → BitVec 64) =>
          Φ (madeMany fl l x.1.1 x.1.2 (List.ofFn x.2))) := by
  have hs1 : ∀ a : Fin k, a.val < stride k n := fun a => by unfold stride; split <;> omega
  have hs2 : ∀ b : Fin (k * n), 16 + b.val < stride k n := fun b => by unfold stride; split <;> omega
  let e : (Fin r × Fin k) ⊕ (Fin r × Fin (k * n)) → Fin P.M := Sum.elim
    (fun y => ⟨y.1 * stride k n + y.2, lt_of_lt_of_le (offset_lt y.1.isLt (hs1 y.2)) hM⟩)
    (fun y => ⟨y.1 * stride k n + (16 + y.2), lt_of_lt_of_le (offset_lt y.1.isLt (hs2 y.2)) hM⟩)
  have he : Function.Injective e := by
    rintro (⟨i, a⟩ | ⟨i, a⟩) (⟨j, b⟩ | ⟨j, b⟩) h
    · have h' : i.val * stride k n + a.val = j.val * stride k n + b.val := congrArg Fin.val h
      obtain ⟨h1, h2⟩ := offset_inj (hs1 a) (hs1 b) h'
      rw [Fin.ext h1, Fin.ext h2]
    · have h' : i.val * stride k n + a.val = j.val * stride k n + (16 + b.val) := congrArg Fin.val h
      obtain ⟨h1, h2⟩ := offset_inj (hs1 a) (hs2 b) h'
      omega
    · have h' : i.val * stride k n + (16 + a.val) = j.val * stride k n + b.val := congrArg Fin.val h
      obtain ⟨h1, h2⟩ := offset_inj (hs2 a) (hs1 b) h'
      omega
    · have h' : i.val * stride k n + (16 + a.val) = j.val * stride k n + (16 + b.val) := congrArg Fin.val h
      obtain ⟨h1, h2⟩ := offset_inj (hs2 a) (hs2 b) h'
      rw [Fin.ext h1, show a = b from Fin.ext (by omega)]
  have h1 : ∀ B : (Fin P.M → Byte) × (Fin (8 * P.N) → Byte), Φ (do
        let (gs, _) ← gaussSamples fl (r * l)
          (List.ofFn (fun i : Fin P.N => servedWord (tape P.rest' (8 * P.m) (8 * P.N) B.2) bufSize (8 * P.m) i))
        ok (dealt k n l r (tape P.rest P.pos P.M B.1) P.pos gs))
      = Φ (madeMany fl l (fun i (a : Fin k) => B.1 (e (Sum.inl (i, a)))) (fun i (b : Fin (k * n)) => B.1 (e (Sum.inr (i, b))))
        (List.ofFn (fun i : Fin P.N => servedWord (tape P.rest' (8 * P.m) (8 * P.N) B.2) bufSize (8 * P.m) i))) := by
    intro B
    have hd : ∀ gs : List Int, dealt k n l r (tape P.rest P.pos P.M B.1) P.pos gs =
        coinsOf (fun i (a : Fin k) => B.1 (e (Sum.inl (i, a)))) (fun i (b : Fin (k * n)) => B.1 (e (Sum.inr (i, b))))
          (fun i : Fin r => block l i gs) := by
      intro gs
      unfold dealt coinsOf
      apply List.ext_getElem (by simp)
      intro i h1 h2
      have hi : i < r := by simpa using h1
      rw [List.getElem_map, List.getElem_range, List.getElem_ofFn]
      rw [keyStream_ofFn, keyStream_ofFn]
      have a1 : (fun a : Fin k => tape P.rest P.pos P.M B.1 (P.pos + i * stride k n + a)) =
          fun a => B.1 (e (Sum.inl (⟨i, hi⟩, a))) := by
        funext a
        rw [add_assoc]
        exact tape_at _ _ _ _ _ (lt_of_lt_of_le (offset_lt hi (hs1 a)) hM)
      have a2 : (fun b : Fin (k * n) => tape P.rest P.pos P.M B.1 (P.pos + i * stride k n + 16 + b)) =
          fun b => B.1 (e (Sum.inr (⟨i, hi⟩, b))) := by
        funext b
        rw [add_assoc, add_assoc]
        exact tape_at _ _ _ _ _ (lt_of_lt_of_le (offset_lt hi (hs2 b)) hM)
      rw [a1, a2]
      rfl
    unfold madeMany
    congr 1
    cases gaussSamples fl (r * l) (List.ofFn (fun i : Fin P.N => servedWord (tape P.rest' (8 * P.m) (8 * P.N) B.2) bufSize (8 * P.m) i)) with
    | ok g =>
      simp only [ok_bind]
      rw [hd]
    | err m => rfl
    | crash m => rfl
  rw [avg_congr h1]
  have h2 := avg_equiv (Equiv.prodCongr (Equiv.refl (Fin P.M → Byte))
    (Equiv.ofBijective _ (words_bijective P.rest' bufSize (8 * P.m) P.N (by decide))))
    (fun x : (Fin P.M → Byte) × (Fin P.N → BitVec 64) =>
      Φ (madeMany fl l (fun i (a : Fin k) => x.1 (e (Sum.inl (i, a)))) (fun i (b : Fin (k * n)) => x.1 (e (Sum.inr (i, b)))) (List.ofFn x.2)))
  refine Eq.trans (Eq.trans rfl h2) ?_
  rw [avg_prod (fun x : (Fin P.M → Byte) × (Fin P.N → BitVec 64) =>
      Φ (madeMany fl l (fun i (a : Fin k) => x.1 (e (Sum.inl (i, a)))) (fun i (b : Fin (k * n)) => x.1 (e (Sum.inr (i, b)))) (List.ofFn x.2))),
    avg_prod (fun x : ((Fin r → Fin k → Byte) × (Fin r → Fin (k * n) → Byte)) × (Fin P.N → BitVec 64) =>
          Φ (madeMany fl l x.1.1 x.1.2 (List.ofFn x.2)))]
  refine avg_congr (fun W => ?_)
  refine (avg_pick e he (fun y => Φ (madeMany fl l (fun i (a : Fin k) => y (Sum.inl (i, a)))
    (fun i (b : Fin (k * n)) => y (Sum.inr (i, b))) (List.ofFn W)))).trans ?_
  exact avg_equiv ((Equiv.sumArrowEquivProdArrow (Fin r × Fin k) (Fin r × Fin (k * n)) Byte).trans
      (Equiv.prodCongr (Equiv.curry (Fin r) (Fin k) Byte) (Equiv.curry (Fin r) (Fin (k * n)) Byte)))
    (fun y : (Fin r → Fin k → Byte) × (Fin r → Fin (k * n) → Byte) => Φ (madeMany fl l y.1 y.2 (List.ofFn W)))

/-! ### The draws of several queries and independent draws -/

/-- What a test makes of draws; `z` if they are not complete. -/
def judge (z : ℚ) (Φ : List Coins → ℚ) : Res (List Coins) → ℚ
  | ok cs => Φ cs
  | _ => z

/-- The average over independent draws, with `N` words for the noise of each query. -/
def ownAvg (fl : ℚ → ℚ) (k n l r N : Nat) (Φ : List Coins → ℚ) : ℚ :=
  avg (fun x : (Fin r → Fin k → Byte) × (Fin r → Sample k n N) =>
    Φ (coinsAll (fun τ => List.ofFn τ) (fun y : Sample k n N => List.ofFn y.1) (fun y => noiseFrom fl l (List.ofFn y.2)) x))

theorem ownAvg_eq (fl : ℚ → ℚ) (k n l r N : Nat) (Φ : List Coins → ℚ) : ownAvg fl k n l r N Φ =
    avg (fun x : (Fin r → Fin k → Byte) × (Fin r → Fin (k * n) → Byte) =>
      ownMean fl r l N (fun e => Φ (coinsOf x.1 x.2 e))) := by
  unfold ownAvg ownMean
  have h := avg_equiv (Equiv.prodCongr (Equiv.refl (Fin r → Fin k → Byte))
    (Equiv.arrowProdEquivProdArrow (Fin r) (fun _ => Fin (k * n) → Byte) (fun _ => Fin N → BitVec 64)))
    (fun x : (Fin r → Fin k → Byte) × ((Fin r → Fin (k * n) → Byte) × (Fin r → Fin N → BitVec 64)) =>
      Φ (coinsOf x.1 x.2.1 (fun i => noiseFrom fl l (List.ofFn (x.2.2 i)))))
  refine Eq.trans (Eq.trans rfl h) ?_
  rw [avg_prod', avg_prod']
  refine avg_congr (fun τ => ?_)
  rw [avg_prod']

/-- The average over the generators, counting incomplete draws as `0`. -/
def sharedAvg (fl : ℚ → ℚ) (k n l r N : Nat) (Φ : List Coins → ℚ) : ℚ :=
  avg (fun x : (Fin r → Fin k → Byte) × (Fin r → Fin (k * n) → Byte) =>
    sharedMean fl r l N (fun e => Φ (coinsOf x.1 x.2 e)))

theorem sharedAvg_eq (fl : ℚ → ℚ) (k n l r N : Nat) (Φ : List Coins → ℚ) : sharedAvg fl k n l r N Φ =
    avg (fun x : ((Fin r → Fin k → Byte) × (Fin r → Fin (k * n) → Byte)) × (Fin N → BitVec 64) =>
      judge 0 Φ (madeMany fl l x.1.1 x.1.2 (List.ofFn x.2))) := by
  rw [avg_prod']
  refine avg_congr (fun y => avg_congr (fun W => ?_))
  unfold madeMany
  dsimp only
  cases gaussSamples fl (r * l) (List.ofFn W) <;> rfl

/-- Draws from the generators are independent ones up to the chance that words are missing. -/
theorem shared_own {fl : ℚ → ℚ} (hf : Nearest fl) (k n l r N N' c : Nat) (hc : 4 ≤ c) (hN' : c * l ≤ N')
    (Φ : List Coins → ℚ) (h : ∀ y, 0 ≤ Φ y ∧ Φ y ≤ 1) :
    sharedAvg fl k n l r N Φ ≤ ownAvg fl k n l r N' Φ + (r * l : Nat) * late c := by
  rw [ownAvg_eq, ← avg_const (Ω := (Fin r → Fin k → Byte) × (Fin r → Fin (k * n) → Byte)) (((r * l : Nat) : ℚ) * late c), avg_add]
  refine avg_mono (fun x => ?_)
  have h1 := shared_le hf r l N (fun e => Φ (coinsOf x.1 x.2 e)) (fun e => (h _).1)
  have h2 := own_ge hf r l c N' hc hN' (fun e => Φ (coinsOf x.1 x.2 e)) (fun e => h _)
  linarith

theorem own_shared {fl : ℚ → ℚ} (hf : Nearest fl) (k n l r N N' c : Nat) (hc : 4 ≤ c) (hN' : c * l ≤ N')
    (hN : c * (r * l) ≤ N) (Φ : List Coins → ℚ) (h : ∀ y, 0 ≤ Φ y ∧ Φ y ≤ 1) :
    ownAvg fl k n l r N' Φ ≤ sharedAvg fl k n l r N Φ + 2 * ((r * l : Nat) * late c) := by
  rw [ownAvg_eq, ← avg_const (Ω := (Fin r → Fin k → Byte) × (Fin r → Fin (k * n) → Byte)) (2 * (((r * l : Nat) : ℚ) * late c)),
    sharedAvg, avg_add]
  refine avg_mono (fun x => ?_)
  have h1 := shared_ge hf r l c N hc hN (fun e => Φ (coinsOf x.1 x.2 e)) (fun e => h _)
  have h2 := own_le hf r l c N' hc hN' (fun e => Φ (coinsOf x.1 x.2 e)) (fun e => h _)
  linarith

/-- Two tests that agree on incomplete draws differ by no more than they differ on independent draws, up to the chance that
words are missing. -/
theorem judge_gap {fl : ℚ → ℚ} (hf : Nearest fl) (k n l r N N' c : Nat) (hc : 4 ≤ c) (hN' : c * l ≤ N')
    (hN : c * (r * l) ≤ N) (z : ℚ) (Φ Ψ : List Coins → ℚ) (h : ∀ y, 0 ≤ Φ y ∧ Φ y ≤ 1) (h' : ∀ y, 0 ≤ Ψ y ∧ Ψ y ≤ 1) :
    |avg (fun x : ((Fin r → Fin k → Byte) × (Fin r → Fin (k * n) → Byte)) × (Fin N → BitVec 64) =>
        judge z Φ (madeMany fl l x.1.1 x.1.2 (List.ofFn x.2))) -
      avg (fun x : ((Fin r → Fin k → Byte) × (Fin r → Fin (k * n) → Byte)) × (Fin N → BitVec 64) =>
        judge z Ψ (madeMany fl l x.1.1 x.1.2 (List.ofFn x.2)))| ≤
      |ownAvg fl k n l r N' Φ - ownAvg fl k n l r N' Ψ| + 3 * ((r * l : Nat) * late c) := by
  have e : ∀ Θ : List Coins → ℚ, avg (fun x : ((Fin r → Fin k → Byte) × (Fin r → Fin (k * n) → Byte)) × (Fin N → BitVec 64) =>
        judge z Θ (madeMany fl l x.1.1 x.1.2 (List.ofFn x.2))) = sharedAvg fl k n l r N Θ +
      avg (fun x : ((Fin r → Fin k → Byte) × (Fin r → Fin (k * n) → Byte)) × (Fin N → BitVec 64) =>
        judge z (fun _ => 0) (madeMany fl l x.1.1 x.1.2 (List.ofFn x.2))) := by
    intro Θ
    rw [sharedAvg_eq, avg_add]
    refine avg_congr (fun x => ?_)
    cases madeMany fl l x.1.1 x.1.2 (List.ofFn x.2) <;> simp [judge]
  rw [e Φ, e Ψ]
  have a1 := shared_own hf k n l r N N' c hc hN' Φ h
  have a2 := own_shared hf k n l r N N' c hc hN' hN Φ h
  have b1 := shared_own hf k n l r N N' c hc hN' Ψ h'
  have b2 := own_shared hf k n l r N N' c hc hN' hN Ψ h'
  have c1 := le_abs_self (ownAvg fl k n l r N' Φ - ownAvg fl k n l r N' Ψ)
  have c2 := neg_abs_le (ownAvg fl k n l r N' Φ - ownAvg fl k n l r N' Ψ)
  rw [abs_le]
  constructor <;> linarith

end Verif.LweDraws
