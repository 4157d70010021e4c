import Verif.Props.LweChance
import Verif.Props.AmplifyBound

/-! # C107: how often an honest amplified retrieval fails, and how often it returns the wrong bit -/

namespace Verif.Coins
open Res Verif.Rand Verif.Matrix Verif.Lwe Verif.Gauss Verif.Gauss.Spec Verif.Privacy Verif.Coins.Spec Verif.Monitor.Spec
open Verif.Votes

/-- C107: whatever the generators delivered before, whatever the database holds and whichever entry is asked for, a stored
zero is misread by the amplified client or rejected only if noise is too large, and a stored one is read as zero iff the
first and more than half of the multipliers are near zero, and accepted iff the first and more than half of them are not. -/
def C107_Statement : Prop :=
  ∀ fl : ℚ → ℚ, Nearest fl → ∀ (aesctr : List Byte → Nat → Byte) (P : Past) (t : Nat) (db : Db 32) (index : Nat),
    Published lwe32 aesctr 1100 db → 84 * db.numRows ≤ 2 ^ 31 → index < db.numRows * db.numColumns →
    2 * t + 1 < 2 ^ 32 → 8 + 4 * db.numColumns < 2 ^ 32 → (2 * t + 1) * 4416 ≤ P.M →
    Between (amplifiedPart P fl 1100 db.numRows t
        (AmplifiedWrong aesctr (paramsWithDatabaseSize db.numRows db.numColumns) db index))
      (if storedBit db.matrix (index / db.numColumns) (index % db.numColumns) = 0 then 0
        else firstAndMost t ((168 * db.numRows - 1) / 2 ^ 32))
      ((2 * t + 1) * db.numRows) ((2 * t + 1) * (2 * db.numColumns) / 2 ^ (38 * db.numRows)) P.N ∧
    Between (amplifiedPart P fl 1100 db.numRows t
        (AmplifiedFails aesctr (paramsWithDatabaseSize db.numRows db.numColumns) db index))
      (if storedBit db.matrix (index / db.numColumns) (index % db.numColumns) = 0 then 0
        else 1 - firstAndMost t (1 - (168 * db.numRows - 1) / 2 ^ 32))
      ((2 * t + 1) * db.numRows) ((2 * t + 1) * (2 * db.numColumns) / 2 ^ (38 * db.numRows)) P.N

/-- Decoding votes that are zero on the bad draws. -/
theorem decode_votes {V : Type} [Fintype V] [DecidableEq V] {t : Nat} (bad : Fin (2 * t + 1) → Finset V) (T : Fin (2 * t + 1) → V) :
    (Outvoted bad T → Ecc.decode (List.ofFn (fun k => if T k ∈ bad k then (0 : U32) else 1)) = ok 0) ∧
    (Outvoted (fun k => (bad k)ᶜ) T → Ecc.decode (List.ofFn (fun k => if T k ∈ bad k then (0 : U32) else 1)) = ok 1) ∧
    (¬ Outvoted bad T → ¬ Outvoted (fun k => (bad k)ᶜ) T →
      ∃ e, Ecc.decode (List.ofFn (fun k => if T k ∈ bad k then (0 : U32) else 1)) = err e) := by
  have hcount := count_ofFn (fun k => if T k ∈ bad k then (0 : U32) else 1)
  have hsucc : List.ofFn (fun k => if T k ∈ bad k then (0 : U32) else 1) =
      (if T 0 ∈ bad 0 then (0 : U32) else 1) :: List.ofFn (fun k : Fin (2 * t) =>
        if T k.succ ∈ bad k.succ then (0 : U32) else 1) := List.ofFn_succ
  have hdec := Ecc.decode_eq (if T 0 ∈ bad 0 then (0 : U32) else 1) (List.ofFn (fun k : Fin (2 * t) =>
        if T k.succ ∈ bad k.succ then (0 : U32) else 1))
  rw [← hsucc, List.length_ofFn] at hdec
  rw [hdec, hcount]
  have hf0 : Finset.univ.filter (fun k => (if T k ∈ bad k then (0 : U32) else 1) = 0) = Finset.univ.filter (fun k => T k ∈ bad k) := by
    ext k
    simp only [Finset.mem_filter, Finset.mem_univ, true_and]
    by_cases hk : T k ∈ bad k <;> simp [hk]
  have hf1 : Finset.univ.filter (fun k => (if T k ∈ bad k then (0 : U32) else 1) = 1) = Finset.univ.filter (fun k => T k ∈ (bad k)ᶜ) := by
    ext k
    simp only [Finset.mem_filter, Finset.mem_univ, true_and]
    by_cases hk : T k ∈ bad k <;> simp [hk]
  unfold Outvoted
  by_cases h0 : T 0 ∈ bad 0
  · simp only [h0, if_true, true_and, Finset.mem_compl, not_true_eq_false, false_and, false_imp_iff, not_false_iff, true_imp_iff]
    rw [hf0]
    refine ⟨fun h => if_pos (by omega), fun h => ⟨_, if_neg (by omega)⟩⟩
  · simp only [h0, if_false, false_and, false_imp_iff, true_and, not_false_iff, true_imp_iff, Finset.mem_compl]
    rw [hf1]
    simp only [Finset.mem_compl]
    refine ⟨fun h => if_pos (by omega), fun h => ⟨_, if_neg (by omega)⟩⟩

/-- The multipliers near zero of every base client, given the noise drawn. -/
def blinds (b : U32) (m : Nat → Nat) (R r : Nat) (gs : List Int) (k : Fin r) : Finset (Fin (2 ^ (8 * 4))) :=
  blind (k := 4) lwe32 b (blockNoise id m R k gs)

/-- With small noise the amplified retrieval decodes votes that depend on the stored bit and the multipliers alone. -/
theorem amplified_small (aesctr : List Byte → Nat → Byte) (p : Params) (db : Db 32) (hp : Published lwe32 aesctr p.n db)
    (hpar : ParamsFor p db) (index t pos : Nat) (hidx : index < db.numRows * db.numColumns) (hB : p.b.toNat = 84 * db.numRows)
    (hb : 84 * db.numRows ≤ 2 ^ 31) (ht : 2 * t + 1 < 2 ^ 32) (hC : 8 + 4 * db.numColumns < 2 ^ 32)
    (ks : Nat → Byte) (gs : List Int) (hl : gs.length = (2 * t + 1) * db.numRows) (hn : ∀ g ∈ gs, |g| ≤ 128)
    (hs : Small id (fun j i => storedBit db.matrix i j) db.numRows (2 * t + 1) db.numColumns gs) :
    amplifyRetrieve aesctr p db.numColumns db.digest (dealt 4 p.n db.numRows (2 * t + 1) ks pos gs) index (amplifyAnswerBytes db)
      = Ecc.decode (List.ofFn (fun k => if multipliers 4 p.n (2 * t + 1) ks pos k
          ∈ (if storedBit db.matrix (index / db.numColumns) (index % db.numColumns) = 0 then Finset.univ
            else blinds p.b (fun i => storedBit db.matrix i (index % db.numColumns)) db.numRows (2 * t + 1) gs k)
          then (0 : U32) else 1)) := by
  have hC0 : 0 < db.numColumns := hp.fits.2.2.1
  have hpos : 0 < db.numRows := Nat.pos_of_ne_zero (fun h => by rw [h] at hidx; omega)
  set R := db.numRows with hR
  have hlist : dealt 4 p.n R (2 * t + 1) ks pos gs = List.ofFn (fun k : Fin (2 * t + 1) =>
      (⟨keyStream ks (pos + k * stride 4 p.n) 4, keyStream ks (pos + k * stride 4 p.n + 16) (4 * p.n),
        (gs.drop (k * R)).take R⟩ : Coins)) := by
    unfold dealt
    rw [List.ofFn_eq_map, ← List.map_coe_finRange_eq_range, List.map_map]
    rfl
  have hcn : ∀ (k : Fin (2 * t + 1)) j, columnNoise (fun r => ((gs.drop (k * R)).take R).getD r 0) db.matrix R j
      = blockNoise id (fun i => storedBit db.matrix i j) R k gs := fun k j => rfl
  have hmem : ∀ c ∈ dealt 4 p.n R (2 * t + 1) ks pos gs, ∃ k : Fin (2 * t + 1), c =
      (⟨keyStream ks (pos + k * stride 4 p.n) 4, keyStream ks (pos + k * stride 4 p.n + 16) (4 * p.n),
        (gs.drop (k * R)).take R⟩ : Coins) := by
    intro c hc
    rw [hlist] at hc
    obtain ⟨k, rfl⟩ := (List.mem_ofFn' _ _).mp hc
    exact ⟨k, rfl⟩
  have hcol : ∀ (k : Fin (2 * t + 1)) j, j < db.numColumns →
      |columnNoise (fun r => ((gs.drop (k * R)).take R).getD r 0) db.matrix R j| < p.b.toNat := by
    intro k j hj
    have := hs k k.isLt j hj
    rw [hcn, hB]
    push_cast
    exact this
  rw [retrieve_of_reps aesctr p db _ (by rw [hlist]; simp) (by rw [hlist]; simpa using ht)
    (fun c hc => by
      obtain ⟨k, rfl⟩ := hmem c hc
      refine ⟨hp.valid, hpar, hp.digest, hp.fits, ?_, fun g hg => hn g (List.mem_of_mem_drop (List.mem_of_mem_take hg))⟩
      have : (k + 1) * R ≤ (2 * t + 1) * R := Nat.mul_le_mul_right _ k.isLt
      rw [Nat.add_mul, Nat.one_mul] at this
      simp only [List.length_take, List.length_drop]
      omega) index hidx (by omega) (by omega) hC (fun c hc => by
      obtain ⟨k, rfl⟩ := hmem c hc
      exact hcol k)]
  rw [hlist, List.map_ofFn]
  congr 1
  congr 1
  funext k
  show honestBit p db _ _ _ = _
  unfold honestBit verdict
  have hr : lwe32.inRange p.b (BitVec.ofInt 32 (blockNoise id (fun i => storedBit db.matrix i (index % db.numColumns)) R k gs)) = true := by
    have h := hcol k (index % db.numColumns) (Nat.mod_lt _ hC0)
    rw [hcn] at h
    have := abs_lt.1 h
    exact ((good32 p.b (by omega)).range _).2 ⟨_, by omega, by omega, rfl⟩
  have hcoin : coinT lwe32 ⟨keyStream ks (pos + k * stride 4 p.n) 4, keyStream ks (pos + k * stride 4 p.n + 16) (4 * p.n),
        (gs.drop (k * R)).take R⟩ = BitVec.ofNat 32 (multipliers 4 p.n (2 * t + 1) ks pos k).val := by
    rw [multipliers_val]
    unfold coinT
    show BitVec.ofNat 32 (ofLE ((keyStream ks (pos + k * stride 4 p.n) 4).take 4)) = _
    rw [List.take_of_length_le (by simp)]
  rw [hcoin]
  unfold seen
  rw [show columnNoise (fun r => id (((gs.drop (k * R)).take R).getD r 0)) db.matrix db.numRows (index % db.numColumns)
    = blockNoise id (fun i => storedBit db.matrix i (index % db.numColumns)) R k gs from rfl]
  rcases bit_cases (w := 32) hp.valid.bin (index / db.numColumns) (index % db.numColumns) with ⟨e1, e2⟩ | ⟨e1, e2⟩
  · rw [e1, e2, mul_zero, add_zero, if_pos hr, if_pos rfl, if_pos (Finset.mem_univ _)]
  · rw [e1, e2, mul_one, if_neg (show ¬ ((1 : Nat) = 0) by norm_num)]
    refine if_congr ?_ rfl rfl
    unfold blinds blind
    rw [Finset.mem_filter]
    exact ⟨fun h => ⟨Finset.mem_univ _, h⟩, And.right⟩

/-- The multipliers in a set made of those near zero, given the noise drawn. -/
def votesOf {t : Nat} (Z : (Fin (2 * t + 1) → Finset (Fin (2 ^ (8 * 4)))) → Finset (Fin (2 * t + 1) → Fin (2 ^ (8 * 4))))
    (b : U32) (m : Nat → Nat) (R : Nat) : Res (List Int × List (BitVec 64)) → Finset (Fin (2 * t + 1) → Fin (2 ^ (8 * 4)))
  | ok r => Z (blinds b m R (2 * t + 1) r.1)
  | _ => ∅

open Classical in
/-- Both bounds for an event that, with small noise, means that a one is stored and the multipliers are in a set made of
those near zero. -/
theorem amplified_between {fl : ℚ → ℚ} (hf : Nearest fl) (P : Past) (n t : Nat) (db : Db 32) (hv : db.Valid)
    (A : Res (List Coins) → Prop) (b : U32) (hb : b.toNat = 84 * db.numRows) (hR : 84 * db.numRows ≤ 2 ^ 31) (hpos : 0 < db.numRows)
    (j bit : Nat) (Z : (Fin (2 * t + 1) → Finset (Fin (2 ^ (8 * 4)))) → Finset (Fin (2 * t + 1) → Fin (2 ^ (8 * 4)))) (z : Nat)
    (hz : ∀ bad : Fin (2 * t + 1) → Finset (Fin (2 ^ (8 * 4))), (∀ k, (bad k).card = 168 * db.numRows - 1) → (Z bad).card = z)
    (hM : (2 * t + 1) * stride 4 n ≤ P.M) (hA' : ∀ r, A r → ∃ cs, r = ok cs)
    (hA : ∀ (B : Fin P.M → Byte) gs, gs.length = (2 * t + 1) * db.numRows → (∀ g ∈ gs, |g| ≤ 128) →
      Small id (fun j i => storedBit db.matrix i j) db.numRows (2 * t + 1) db.numColumns gs →
      (A (ok (dealt 4 n db.numRows (2 * t + 1) (tape P.rest P.pos P.M B) P.pos gs)) ↔
        bit ≠ 0 ∧ multipliers 4 n (2 * t + 1) (tape P.rest P.pos P.M B) P.pos ∈
          Z (blinds b (fun i => storedBit db.matrix i j) db.numRows (2 * t + 1) gs))) :
    Between (amplifiedPart P fl n db.numRows t A) (if bit = 0 then 0 else (z : ℚ) / (2 ^ 32) ^ (2 * t + 1))
      ((2 * t + 1) * db.numRows) ((2 * t + 1) * (2 * db.numColumns) / 2 ^ (38 * db.numRows)) P.N := by
  set R := db.numRows with hRdef
  set C := db.numColumns with hC
  have hm : ∀ j i, storedBit db.matrix i j ≤ 1 := fun j i => by
    rcases bit_cases (w := 32) hv.bin i j with h | h <;> omega
  have hT := fair_multipliers 4 n (2 * t + 1) (by norm_num) P.rest P.pos P.M hM
  let D : (Fin P.M → Byte) → List (BitVec 64) → Res (List Coins) := fun B ws => do
    let r ← gaussSamples fl ((2 * t + 1) * R) ws
    ok (dealt 4 n R (2 * t + 1) (tape P.rest P.pos P.M B) P.pos r.1)
  have hpart : amplifiedPart P fl n R t A
      = avg (fun x : (Fin P.M → Byte) × (Fin P.N → BitVec 64) => if A (D x.1 (List.ofFn x.2)) then (1 : ℚ) else 0) := by
    rw [← avg_words P D]
    unfold amplifiedPart
    refine avg_congr (fun B => ?_)
    rw [amplifiedDraws_eq]
  have hcardV : (Fintype.card (Fin (2 * t + 1) → Fin (2 ^ (8 * 4))) : ℚ) = (2 ^ 32) ^ (2 * t + 1) := by
    rw [Fintype.card_fun, Fintype.card_fin, Fintype.card_fin, Nat.cast_pow, Nat.cast_pow]
    rfl
  let Y : (Fin P.N → BitVec 64) → Finset (Fin (2 * t + 1) → Fin (2 ^ (8 * 4))) := fun W =>
    votesOf Z b (fun i => storedBit db.matrix i j) R (gaussSamples fl ((2 * t + 1) * R) (List.ofFn W))
  have hYok : ∀ W gs rest, gaussSamples fl ((2 * t + 1) * R) (List.ofFn W) = ok (gs, rest) →
      Y W = Z (blinds b (fun i => storedBit db.matrix i j) R (2 * t + 1) gs) := by
    intro W gs rest h
    show votesOf Z b (fun i => storedBit db.matrix i j) R (gaussSamples fl ((2 * t + 1) * R) (List.ofFn W)) = _
    rw [h]
    rfl
  have hblind : ∀ gs k, (blinds b (fun i => storedBit db.matrix i j) R (2 * t + 1) gs k).card = 168 * R - 1 := by
    intro gs k
    have h := blind_card (k := 4) (S := lwe32) (good32 b (by omega)) (by rw [hb]; omega)
      (blockNoise id (fun i => storedBit db.matrix i j) R k gs)
    unfold blinds
    rw [h, hb]
    omega
  have hYcard : ∀ W gs rest, gaussSamples fl ((2 * t + 1) * R) (List.ofFn W) = ok (gs, rest) → (Y W).card = z :=
    fun W gs rest h => by rw [hYok W gs rest h, hz _ (hblind gs)]
  have key : ∀ (B : Fin P.M → Byte) (W : Fin P.N → BitVec 64) gs rest,
      gaussSamples fl ((2 * t + 1) * R) (List.ofFn W) = ok (gs, rest) →
      Small id (fun j i => storedBit db.matrix i j) R (2 * t + 1) C gs →
      (A (D B (List.ofFn W)) ↔ bit ≠ 0 ∧ multipliers 4 n (2 * t + 1) (tape P.rest P.pos P.M B) P.pos ∈ Y W) := by
    intro B W gs rest h hs
    have hD : D B (List.ofFn W) = ok (dealt 4 n R (2 * t + 1) (tape P.rest P.pos P.M B) P.pos gs) := by
      show (do let r ← gaussSamples fl ((2 * t + 1) * R) (List.ofFn W); _) = _
      rw [h]
      rfl
    rw [hD, hYok W gs rest h]
    refine hA B gs (samples_length fl _ _ _ _ h) (fun g hg => ?_) hs
    have := samples_bound fl _ _ _ _ h g hg
    rw [Int.abs_eq_natAbs]
    exact_mod_cast this
  have hrare : (((2 * t + 1 : Nat) : ℚ) * (2 * (C : ℚ)) / 2 ^ (38 * R)) = (2 * t + 1) * (2 * C) / 2 ^ (38 * R) := by
    push_cast
    rfl
  constructor
  · rw [hpart]
    have hle := mean_large hf P.N R (2 * t + 1) C (fun j i => storedBit db.matrix i j) hm id (fun g => ⟨by simp, by simp⟩)
    rw [hrare] at hle
    refine le_trans (cond_le (fun B => multipliers 4 n (2 * t + 1) (tape P.rest P.pos P.M B) P.pos) hT
      (fun B W => A (D B (List.ofFn W)))
      (fun W => ∃ gs rest, gaussSamples fl ((2 * t + 1) * R) (List.ofFn W) = ok (gs, rest) ∧
        ¬ Small id (fun j i => storedBit db.matrix i j) R (2 * t + 1) C gs)
      (fun W => if bit = 0 then ∅ else Y W) (if bit = 0 then 0 else z) (fun W _ => ?_) (fun B W hW hF => ?_))
      (add_le_add ?_ hle)
    · split
      · simp
      · cases hg : gaussSamples fl ((2 * t + 1) * R) (List.ofFn W) with
        | ok r => exact (hYcard W r.1 r.2 hg).le
        | err e =>
          show (votesOf Z b (fun i => storedBit db.matrix i j) R (gaussSamples fl ((2 * t + 1) * R) (List.ofFn W))).card ≤ _
          rw [hg]
          simp [votesOf]
        | crash e =>
          show (votesOf Z b (fun i => storedBit db.matrix i j) R (gaussSamples fl ((2 * t + 1) * R) (List.ofFn W))).card ≤ _
          rw [hg]
          simp [votesOf]
    · obtain ⟨c, hc⟩ := hA' _ hF
      obtain ⟨r, hr, -⟩ := bind_eq_ok.1 hc
      have hs : Small id (fun j i => storedBit db.matrix i j) R (2 * t + 1) C r.1 := by
        by_contra h
        exact hW ⟨r.1, r.2, hr, h⟩
      obtain ⟨h1, h2⟩ := (key B W r.1 r.2 hr hs).1 hF
      rw [if_neg h1]
      exact h2
    · rw [hcardV]
      split <;> simp
  · intro c hc hN
    split
    · rw [zero_mul]
      exact avg_nonneg (fun B => by positivity)
    · rename_i h1
      rw [hpart]
      have hge := mean_small hf P.N R (2 * t + 1) C c hc hN (fun j i => storedBit db.matrix i j) hm id (fun g => ⟨by simp, by simp⟩)
      rw [hrare] at hge
      have hc2 := cond_ge (fun B => multipliers 4 n (2 * t + 1) (tape P.rest P.pos P.M B) P.pos) hT
        (fun B W => A (D B (List.ofFn W)))
        (fun W : Fin P.N → BitVec 64 => ∃ gs rest, gaussSamples fl ((2 * t + 1) * R) (List.ofFn W) = ok (gs, rest) ∧
          Small id (fun j i => storedBit db.matrix i j) R (2 * t + 1) C gs)
        Y z (fun W ⟨gs, rest, h, _⟩ => (hYcard W gs rest h).ge)
        (fun B W ⟨gs, rest, h, hs⟩ hmem => (key B W gs rest h hs).2 ⟨h1, hmem⟩)
      rw [hcardV] at hc2
      refine le_trans (mul_le_mul_of_nonneg_left ?_ (by positivity)) hc2
      refine le_trans (le_of_eq ?_) hge
      push_cast
      ring

theorem outvoted_part (t β : Nat) (hβ : β ≤ 2 ^ 32) :
    ((∑ m ∈ Finset.range (t + 1), (2 * t).choose (t + m) * (β ^ (t + m + 1) * (2 ^ 32 - β) ^ (t - m)) : Nat) : ℚ)
      / (2 ^ 32) ^ (2 * t + 1) = firstAndMost t (β / 2 ^ 32) := by
  unfold firstAndMost
  rw [Nat.cast_sum, Finset.sum_div, Finset.mul_sum]
  refine Finset.sum_congr rfl (fun m hm => ?_)
  rw [Finset.mem_range] at hm
  have hc : ((2 ^ 32 - β : Nat) : ℚ) = 2 ^ 32 - β := by
    rw [Nat.cast_sub hβ]
    push_cast
    rfl
  rw [Nat.cast_mul, Nat.cast_mul, Nat.cast_pow, Nat.cast_pow, hc]
  have h1 : (1 : ℚ) - β / 2 ^ 32 = (2 ^ 32 - β) / 2 ^ 32 := by
    rw [sub_div, div_self (by positivity)]
  rw [h1, div_pow, div_pow, show 2 * t + 1 = (t + m) + (t - m) + 1 by omega, pow_succ ((2 : ℚ) ^ 32), pow_add ((2 : ℚ) ^ 32),
    pow_succ (β : ℚ)]
  generalize ((2 : ℚ) ^ 32) = N
  by_cases hN : N = 0
  · rw [hN]
    simp
  · field_simp

theorem C107_holds : C107_Statement := by
  classical
  intro fl hf aesctr P t db index hp hR hi ht hC hM
  have hpos : 0 < db.numRows := Nat.pos_of_ne_zero (fun h => by rw [h] at hi; omega)
  have hb : (paramsWithDatabaseSize db.numRows db.numColumns).b.toNat = 84 * db.numRows := computeB_toNat _ (by omega)
  have hM' : (2 * t + 1) * stride 4 1100 ≤ P.M := by
    have : stride 4 1100 = 4416 := by decide
    rw [this]
    exact hM
  have hβ : ((168 * db.numRows - 1 : Nat) : ℚ) = 168 * db.numRows - 1 := by
    rw [Nat.cast_sub (by omega)]
    push_cast
    rfl
  have hcard : Fintype.card (Fin (2 ^ (8 * 4))) = 2 ^ 32 := by rw [Fintype.card_fin]
  -- what the retrieval returns with small noise
  have hzero : ∀ (B : Fin P.M → Byte) gs, gs.length = (2 * t + 1) * db.numRows → (∀ g ∈ gs, |g| ≤ 128) →
      Small id (fun j i => storedBit db.matrix i j) db.numRows (2 * t + 1) db.numColumns gs →
      storedBit db.matrix (index / db.numColumns) (index % db.numColumns) = 0 →
      amplifyRetrieve aesctr (paramsWithDatabaseSize db.numRows db.numColumns) db.numColumns db.digest
        (dealt 4 1100 db.numRows (2 * t + 1) (tape P.rest P.pos P.M B) P.pos gs) index (amplifyAnswerBytes db) = ok 0 := by
    intro B gs hl hn hs h0
    have e := amplified_small aesctr (paramsWithDatabaseSize db.numRows db.numColumns) db hp ⟨rfl, rfl, rfl⟩
      index t P.pos hi hb hR ht hC (tape P.rest P.pos P.M B) gs hl hn hs
    rw [h0] at e
    simp only [if_true] at e
    refine e.trans ?_
    refine (decode_votes (fun _ => Finset.univ) (multipliers 4 1100 (2 * t + 1) (tape P.rest P.pos P.M B) P.pos)).1
      ⟨Finset.mem_univ _, ?_⟩
    simp only [Finset.mem_univ, Finset.filter_true, Finset.card_univ, Fintype.card_fin]
    omega
  have hone : ∀ (B : Fin P.M → Byte) gs, gs.length = (2 * t + 1) * db.numRows → (∀ g ∈ gs, |g| ≤ 128) →
      Small id (fun j i => storedBit db.matrix i j) db.numRows (2 * t + 1) db.numColumns gs →
      storedBit db.matrix (index / db.numColumns) (index % db.numColumns) = 1 →
      amplifyRetrieve aesctr (paramsWithDatabaseSize db.numRows db.numColumns) db.numColumns db.digest
        (dealt 4 1100 db.numRows (2 * t + 1) (tape P.rest P.pos P.M B) P.pos gs) index (amplifyAnswerBytes db)
      = Ecc.decode (List.ofFn (fun k => if multipliers 4 1100 (2 * t + 1) (tape P.rest P.pos P.M B) P.pos k
          ∈ blinds (paramsWithDatabaseSize db.numRows db.numColumns).b (fun i => storedBit db.matrix i (index % db.numColumns))
            db.numRows (2 * t + 1) gs k then (0 : U32) else 1)) := by
    intro B gs hl hn hs h1
    have e := amplified_small aesctr (paramsWithDatabaseSize db.numRows db.numColumns) db hp ⟨rfl, rfl, rfl⟩
      index t P.pos hi hb hR ht hC (tape P.rest P.pos P.M B) gs hl hn hs
    rw [h1] at e
    simp only [if_neg (show ¬ ((1 : Nat) = 0) by norm_num)] at e
    exact e
  constructor
  · have h := amplified_between hf P 1100 t db hp.valid
      (AmplifiedWrong aesctr (paramsWithDatabaseSize db.numRows db.numColumns) db index) _ hb hR hpos
      (index % db.numColumns) (storedBit db.matrix (index / db.numColumns) (index % db.numColumns))
      (fun bad => Finset.univ.filter (Outvoted bad)) _
      (fun bad hbad => by rw [card_outvoted_eq bad _ hbad, hcard]) hM' (fun r ⟨cs, _, h, _⟩ => ⟨cs, h⟩)
      (fun B gs hl hn hs => by
        rw [Finset.mem_filter]
        unfold AmplifiedWrong
        rcases bit_cases (w := 32) hp.valid.bin (index / db.numColumns) (index % db.numColumns) with ⟨e1, -⟩ | ⟨e1, -⟩
        · have e := hzero B gs hl hn hs e1
          rw [e1]
          refine iff_of_false ?_ (fun h => h.1 rfl)
          rintro ⟨cs, v, h1, h2, h3⟩
          cases h1
          rw [e] at h2
          cases h2
          exact h3 rfl
        · have e := hone B gs hl hn hs e1
          rw [e1]
          obtain ⟨d0, d1, d2⟩ := decode_votes (blinds (paramsWithDatabaseSize db.numRows db.numColumns).b
            (fun i => storedBit db.matrix i (index % db.numColumns)) db.numRows (2 * t + 1) gs)
            (multipliers 4 1100 (2 * t + 1) (tape P.rest P.pos P.M B) P.pos)
          constructor
          · rintro ⟨cs, v, h1, h2, h3⟩
            cases h1
            rw [e] at h2
            refine ⟨by norm_num, Finset.mem_univ _, ?_⟩
            by_contra h4
            by_cases h5 : Outvoted (fun k => (blinds (paramsWithDatabaseSize db.numRows db.numColumns).b
              (fun i => storedBit db.matrix i (index % db.numColumns)) db.numRows (2 * t + 1) gs k)ᶜ)
              (multipliers 4 1100 (2 * t + 1) (tape P.rest P.pos P.M B) P.pos)
            · rw [d1 h5] at h2
              cases h2
              exact h3 rfl
            · obtain ⟨er, he⟩ := d2 h4 h5
              rw [he] at h2
              cases h2
          · rintro ⟨-, -, h⟩
            exact ⟨_, 0, rfl, e.trans (d0 h), by decide⟩)
    rw [outvoted_part t _ (by omega), hβ] at h
    exact h
  · have h := amplified_between hf P 1100 t db hp.valid
      (AmplifiedFails aesctr (paramsWithDatabaseSize db.numRows db.numColumns) db index) _ hb hR hpos
      (index % db.numColumns) (storedBit db.matrix (index / db.numColumns) (index % db.numColumns))
      (fun bad => (Finset.univ.filter (Outvoted (fun k => (bad k)ᶜ)))ᶜ) _
      (fun bad hbad => by
        rw [Finset.card_compl, card_outvoted_eq (fun k => (bad k)ᶜ) (2 ^ 32 - (168 * db.numRows - 1))
          (fun k => by rw [Finset.card_compl, hbad, hcard]), hcard, Fintype.card_fun, hcard, Fintype.card_fin])
      hM' (fun r ⟨cs, h, _⟩ => ⟨cs, h⟩)
      (fun B gs hl hn hs => by
        rw [Finset.mem_compl, Finset.mem_filter]
        unfold AmplifiedFails
        rcases bit_cases (w := 32) hp.valid.bin (index / db.numColumns) (index % db.numColumns) with ⟨e1, -⟩ | ⟨e1, -⟩
        · have e := hzero B gs hl hn hs e1
          rw [e1]
          refine iff_of_false ?_ (fun h => h.1 rfl)
          rintro ⟨cs, h1, h2⟩
          cases h1
          exact h2 e
        · have e := hone B gs hl hn hs e1
          rw [e1]
          obtain ⟨d0, d1, d2⟩ := decode_votes (blinds (paramsWithDatabaseSize db.numRows db.numColumns).b
            (fun i => storedBit db.matrix i (index % db.numColumns)) db.numRows (2 * t + 1) gs)
            (multipliers 4 1100 (2 * t + 1) (tape P.rest P.pos P.M B) P.pos)
          constructor
          · rintro ⟨cs, h1, h2⟩
            cases h1
            refine ⟨by norm_num, fun h => h2 (e.trans (d1 h.2))⟩
          · rintro ⟨-, h⟩
            refine ⟨_, rfl, ?_⟩
            have h5 : ¬ Outvoted (fun k => (blinds (paramsWithDatabaseSize db.numRows db.numColumns).b
              (fun i => storedBit db.matrix i (index % db.numColumns)) db.numRows (2 * t + 1) gs k)ᶜ)
              (multipliers 4 1100 (2 * t + 1) (tape P.rest P.pos P.M B) P.pos) := fun h' => h ⟨Finset.mem_univ _, h'⟩
            by_cases h4 : Outvoted (blinds (paramsWithDatabaseSize db.numRows db.numColumns).b
              (fun i => storedBit db.matrix i (index % db.numColumns)) db.numRows (2 * t + 1) gs)
              (multipliers 4 1100 (2 * t + 1) (tape P.rest P.pos P.M B) P.pos)
            · rw [e, d0 h4]
              decide
            · obtain ⟨er, he⟩ := d2 h4 h5
              rw [e, he]
              exact fun h => by cases h)
    have hle : (∑ m ∈ Finset.range (t + 1), (2 * t).choose (t + m) * ((2 ^ 32 - (168 * db.numRows - 1)) ^ (t + m + 1) *
        (2 ^ 32 - (2 ^ 32 - (168 * db.numRows - 1))) ^ (t - m))) ≤ (2 ^ 32) ^ (2 * t + 1) := by
      have hex : ∃ bad : Fin (2 * t + 1) → Finset (Fin (2 ^ (8 * 4))), ∀ k, (bad k).card = 2 ^ 32 - (168 * db.numRows - 1) :=
        ⟨fun _ => (blind (k := 4) lwe32 (paramsWithDatabaseSize db.numRows db.numColumns).b 0)ᶜ, fun k => by
          rw [Finset.card_compl, hcard, blind_card (k := 4) (S := lwe32) (good32 _ (by omega)) (by rw [hb]; omega) 0, hb]
          omega⟩
      obtain ⟨bad, hbad⟩ := hex
      have := card_outvoted_eq bad _ hbad
      rw [hcard] at this
      rw [← this]
      refine (Finset.card_le_univ _).trans (le_of_eq ?_)
      rw [Fintype.card_fun, hcard, Fintype.card_fin]
    rw [Nat.cast_sub hle, sub_div, outvoted_part t _ (by omega)] at h
    have e1 : (((2 ^ 32) ^ (2 * t + 1) : Nat) : ℚ) / (2 ^ 32) ^ (2 * t + 1) = 1 := by
      rw [Nat.cast_pow, Nat.cast_pow, Nat.cast_ofNat]
      exact div_self (by positivity)
    have e2 : ((2 ^ 32 - (168 * db.numRows - 1) : Nat) : ℚ) / 2 ^ 32 = 1 - (168 * db.numRows - 1) / 2 ^ 32 := by
      rw [Nat.cast_sub (by omega), hβ, sub_div, Nat.cast_pow, Nat.cast_ofNat, div_self (by positivity)]
    rw [e1, e2] at h
    exact h

theorem choose_symm_sum (t : Nat) (p : ℚ) (hp : 0 ≤ p) (hp1 : p ≤ 1) :
    ∑ m ∈ Finset.range (t + 1), ((2 * t).choose (t + m) : ℚ) * (p ^ (t + m) * (1 - p) ^ (t - m)) ≤ 1 := by
  have h := add_pow p (1 - p) (2 * t)
  rw [add_sub_cancel, one_pow] at h
  rw [show 2 * t + 1 = t + (t + 1) by ring, Finset.sum_range_add] at h
  have e : ∑ m ∈ Finset.range (t + 1), ((2 * t).choose (t + m) : ℚ) * (p ^ (t + m) * (1 - p) ^ (t - m))
      = ∑ x ∈ Finset.range (t + 1), p ^ (t + x) * (1 - p) ^ (2 * t - (t + x)) * ((2 * t).choose (t + x)) := by
    refine Finset.sum_congr rfl (fun m _ => ?_)
    rw [show 2 * t - (t + m) = t - m by omega]
    ring
  rw [e]
  refine le_trans ?_ h.ge
  refine le_add_of_nonneg_left (Finset.sum_nonneg (fun x _ => ?_))
  have : 0 ≤ 1 - p := by linarith
  positivity

theorem first_le (t : Nat) (p : ℚ) (hp : 0 ≤ p) (hp1 : p ≤ 1) : firstAndMost t p ≤ p :=
  mul_le_of_le_one_right hp (choose_symm_sum t p hp hp1)

/-- C107: repeating does not make an honest retrieval succeed more often. Whatever the number of repetitions, reading a one
fails at least as often as the first multiplier is near zero, because the decoder considers the first vote only. -/
theorem C107_not_more_available {fl : ℚ → ℚ} (hf : Nearest fl) (aesctr : List Byte → Nat → Byte) (P : Past) (t : Nat) (db : Db 32)
    (index c : Nat) (hp : Published lwe32 aesctr 1100 db) (hR : 84 * db.numRows ≤ 2 ^ 31)
    (hi : index < db.numRows * db.numColumns) (ht : 2 * t + 1 < 2 ^ 32) (hC : 8 + 4 * db.numColumns < 2 ^ 32)
    (hM : (2 * t + 1) * 4416 ≤ P.M) (hc : 4 ≤ c) (hN : c * ((2 * t + 1) * db.numRows) ≤ P.N)
    (h1 : storedBit db.matrix (index / db.numColumns) (index % db.numColumns) ≠ 0) :
    (168 * db.numRows - 1) / 2 ^ 32 * (1 - ((2 * t + 1) * db.numRows : Nat) * (11 / 10 * (97 / 100) ^ c)
        - (2 * t + 1) * (2 * db.numColumns) / 2 ^ (38 * db.numRows))
      ≤ amplifiedPart P fl 1100 db.numRows t (AmplifiedFails aesctr (paramsWithDatabaseSize db.numRows db.numColumns) db index) := by
  have h := (C107_holds fl hf aesctr P t db index hp hR hi ht hC hM).2.2 c hc hN
  rw [if_neg h1] at h
  have hpos : 0 < db.numRows := Nat.pos_of_ne_zero (fun h => by rw [h] at hi; omega)
  have hq1 : (1 : ℚ) ≤ db.numRows := by exact_mod_cast hpos
  have hq2 : (84 : ℚ) * db.numRows ≤ 2 ^ 31 := by exact_mod_cast hR
  have p0 : (0 : ℚ) ≤ (168 * db.numRows - 1) / 2 ^ 32 := div_nonneg (by linarith) (by positivity)
  have p1 : (168 * db.numRows - 1 : ℚ) / 2 ^ 32 ≤ 1 := by
    rw [div_le_one (by positivity)]
    linarith
  by_cases hs : (0 : ℚ) ≤ 1 - ((2 * t + 1) * db.numRows : Nat) * (11 / 10 * (97 / 100) ^ c)
        - (2 * t + 1) * (2 * db.numColumns) / 2 ^ (38 * db.numRows)
  · refine le_trans (mul_le_mul_of_nonneg_right ?_ hs) h
    have := first_le t (1 - (168 * db.numRows - 1) / 2 ^ 32) (by linarith) (by linarith)
    linarith
  · push Not at hs
    exact (mul_nonpos_of_nonneg_of_nonpos p0 hs.le).trans (avg_nonneg (fun B => by
      split <;> norm_num))

/-- The hypotheses can be met, with two errors to be corrected: a database of 1024 rows and columns. A one read from it is
taken for a zero less than once in a trillion times, but the retrieval fails as often as an unamplified one. -/
example (aesctr : List Byte → Nat → Byte) (data : List Byte) (hd : data.length = 1024 * 1024 / 8 + 1) (P : Past)
    (hM : 5 * 4416 ≤ P.M) (hN : 700 * (5 * 1024) ≤ P.N) :
    ∃ db fl, createRandomBinary lwe32 aesctr 1100 data 1024 1024 = ok db ∧ Nearest fl ∧
      (storedBit db.matrix (777 / 1024) (777 % 1024) ≠ 0 →
        1 / 25000 < amplifiedPart P fl 1100 1024 2 (AmplifiedFails aesctr (paramsWithDatabaseSize 1024 1024) db 777) ∧
        amplifiedPart P fl 1100 1024 2 (AmplifiedWrong aesctr (paramsWithDatabaseSize 1024 1024) db 777) < 1 / 10 ^ 12) := by
  obtain ⟨fl, hf⟩ := Monitor.nearest_exists
  obtain ⟨db, h1, h2, h3, h4, h5, -⟩ := C30_random_database aesctr 1100 1024 1024 data hd (by unfold FitsInt; norm_num)
  have hp : Published lwe32 aesctr 1100 db := ⟨h2, h5, by rw [h3, h4]; unfold FitsInt; norm_num⟩
  have rare : (((2 * (2 : Nat) + 1) * (2 * (1024 : Nat)) / 2 ^ (38 * 1024) : ℚ)) ≤ 5 * (2 * 1024) / 2 ^ 76 := by
    have : ((2 * (2 : Nat) + 1) * (2 * (1024 : Nat)) : ℚ) = 5 * (2 * 1024) := by norm_num
    rw [this]
    exact div_le_div_of_nonneg_left (by norm_num) (by norm_num) (pow_le_pow_right₀ (by norm_num) (by norm_num))
  refine ⟨db, fl, h1, hf, fun hne => ?_⟩
  constructor
  · have h := C107_not_more_available hf aesctr P 2 db 777 700 hp (by rw [h3]; norm_num) (by rw [h3, h4]; norm_num) (by norm_num)
      (by rw [h4]; norm_num) hM (by norm_num) (by rw [h3]; exact hN) (by rw [h4]; exact hne)
    rw [h3, h4] at h
    refine lt_of_lt_of_le ?_ h
    refine lt_of_lt_of_le ?_ (mul_le_mul_of_nonneg_left (sub_le_sub_left rare _) (by norm_num))
    have h4 : ((97 : ℚ) / 100) ^ 700 ≤ (1 / 20) ^ 7 := by
      rw [show 700 = 100 * 7 from rfl, pow_mul]
      exact pow_le_pow_left₀ (by positivity) (by norm_num) 7
    refine lt_of_lt_of_le ?_ (mul_le_mul_of_nonneg_left (sub_le_sub_right (sub_le_sub_left
      (mul_le_mul_of_nonneg_left (mul_le_mul_of_nonneg_left h4 (by norm_num)) (by norm_num)) _) _) (by norm_num))
    norm_num
  · have h := (C107_holds fl hf aesctr P 2 db 777 hp (by rw [h3]; norm_num) (by rw [h3, h4]; norm_num) (by norm_num)
      (by rw [h4]; norm_num) hM).1.1
    rw [h3, h4, if_neg hne] at h
    refine (h.trans (add_le_add_right rare _)).trans_lt ?_
    unfold firstAndMost
    simp only [Finset.sum_range_succ, Finset.sum_range_zero]
    norm_num [Nat.choose]

end Verif.Coins
