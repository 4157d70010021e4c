import Verif.Lemmas.AmplifyBound
import Verif.Model.Local
import Mathlib.Tactic.NormNum

/-! # C78: how likely amplified retrieval accepts a wrong bit, over the client's multipliers

The number of repetitions is chosen by the driver from a table that scripts/integrity_amplification.py computes for an
error of 2^-64 as the smallest `t` with `ε^(t+1) ≤ 2^-64`. -/

namespace Verif.Lwe
open Res Verif.Matrix Verif.Utils Finset Verif.Votes

/-- The full claim: with the number of repetitions the driver uses for a database length, a server whose deviations do not
depend on the multipliers makes the client accept a wrong bit with probability at most `2^-64`. -/
def C78_Statement : Prop :=
  ∀ (aesctr : List Byte → Nat → Byte) (dbLen t : Nat), Local.tECC dbLen = some t →
    ∀ (db : Db 32) (base : Fin (2 * t + 1) → Coins),
      (db.numRows, db.numColumns) = Layout.calculateNumRowsAndColumns dbLen true →
      (∀ k, Setup lwe32 aesctr (paramsWithDatabaseSize db.numRows db.numColumns) db (base k)) →
      (∀ k l, l < db.numColumns →
        |columnNoise (fun r => (base k).noise.getD r 0) db.matrix db.numRows l| < 84 * db.numRows) →
      ∀ (i j : Nat) (δ : Fin (2 * t + 1) → U32), i < db.numRows → j < db.numColumns →
        ProbAtMost 64 {T | Forged aesctr (paramsWithDatabaseSize db.numRows db.numColumns) db base i j δ T}

theorem pow_shift (β N t s : Nat) (h : β ≤ N) (h1 : t < s) (h2 : s ≤ 2 * t + 1) :
    β ^ s * N ^ (2 * t + 1 - s) ≤ β ^ (t + 1) * N ^ t := by
  obtain ⟨d, rfl⟩ : ∃ d, s = t + 1 + d := ⟨s - (t + 1), by omega⟩
  have e : N ^ t = N ^ d * N ^ (2 * t + 1 - (t + 1 + d)) := by
    rw [← pow_add]
    congr 1
    omega
  rw [e, pow_add, mul_assoc]
  exact Nat.mul_le_mul_left _ (Nat.mul_le_mul_right _ (Nat.pow_le_pow_left h d))

/-- C78, a stored zero: the deviation alone decides which repetitions can go wrong, so the script's formula holds, with all
`2^32` words as multipliers: at most `(2B-1)^(t+1)·(2^32)^t` of the `(2^32)^(2t+1)` choices let the client accept a one. -/
theorem C78_stored_zero {t : Nat} (aesctr : List Byte → Nat → Byte) (p : Params) (db : Db 32)
    (base : Fin (2 * t + 1) → Coins) (hs : ∀ k, Setup lwe32 aesctr p db (base k)) (i j : Nat) (hi : i < db.numRows)
    (hj : j < db.numColumns) (hB : 0 < p.b.toNat) (δ : Fin (2 * t + 1) → U32) (h0 : storedBit db.matrix i j = 0) :
    {T | Forged aesctr p db base i j δ T}.ncard ≤ (2 * p.b.toNat - 1) ^ (t + 1) * (2 ^ 32) ^ t := by
  by_cases hbig : 2 * p.b.toNat - 1 ≤ 2 ^ 32
  · by_cases hS : t < (univ.filter (fun k => inRange32 p.b (residue db (base k) j (δ k)) = false)).card
    · have hsub : {T | Forged aesctr p db base i j δ T} ⊆
          ((univ.filter (fun T : Draws (2 * t + 1) => ∀ k ∈ univ.filter (fun k =>
            inRange32 p.b (residue db (base k) j (δ k)) = false),
              T k ∈ nearMinus p.b (residue db (base k) j (δ k))) : Finset (Draws (2 * t + 1))) :
                Set (Draws (2 * t + 1))) := by
        intro T hT
        rw [mem_coe, mem_filter]
        refine ⟨mem_univ _, fun k hk => ?_⟩
        rcases forged_votes aesctr p db base hs i j hi hj hB δ T hT with ⟨-, -, h⟩ | ⟨h, -⟩
        · exact h k (mem_filter.mp hk).2
        · omega
      refine (Set.ncard_le_ncard hsub (Finset.finite_toSet _)).trans ?_
      rw [Set.ncard_coe_finset]
      refine (card_hit_le _ _ (fun k => (nearMinus_card p.b _).trans_le (near_zero_card p.b hB).1) _).trans ?_
      rw [Fintype.card_fin]
      refine pow_shift _ _ t _ hbig hS ?_
      exact (card_le_univ _).trans (le_of_eq (Fintype.card_fin _))
    · have hempty : {T | Forged aesctr p db base i j δ T} = ∅ := by
        rw [Set.eq_empty_iff_forall_notMem]
        intro T hT
        rcases forged_votes aesctr p db base hs i j hi hj hB δ T hT with ⟨-, h, -⟩ | ⟨h, -⟩
        · exact hS h
        · omega
      rw [hempty, Set.ncard_empty]
      exact Nat.zero_le _
  · have h1 : {T | Forged aesctr p db base i j δ T}.ncard ≤ (2 ^ 32) ^ (2 * t + 1) := by
      refine (Set.ncard_le_ncard (Set.subset_univ _) Set.finite_univ).trans ?_
      rw [Set.ncard_univ, Nat.card_eq_fintype_card, Fintype.card_fun, Fintype.card_fin, Fintype.card_fin]
    refine h1.trans ?_
    rw [show 2 * t + 1 = (t + 1) + t by omega, pow_add]
    exact Nat.mul_le_mul_right _ (Nat.pow_le_pow_left (by omega) _)

/-- C78, for every database, bound `B`, radius `t` and deviations: of the `(2^32)^(2t+1)` choices of the multipliers at most
`C(2t,t)·(2B-1)^(t+1)·(2^32)^t` let the client accept a wrong bit. -/
theorem C78_forgery_bound {t : Nat} (aesctr : List Byte → Nat → Byte) (p : Params) (db : Db 32)
    (base : Fin (2 * t + 1) → Coins) (hs : ∀ k, Setup lwe32 aesctr p db (base k)) (i j : Nat) (hi : i < db.numRows)
    (hj : j < db.numColumns) (hB : 0 < p.b.toNat) (δ : Fin (2 * t + 1) → U32) :
    {T | Forged aesctr p db base i j δ T}.ncard ≤
      (2 * t).choose t * ((2 * p.b.toNat - 1) ^ (t + 1) * (2 ^ 32) ^ t) := by
  rcases bit_cases (w := 32) (hs 0).valid.bin i j with ⟨h0, -⟩ | ⟨h1, -⟩
  · refine (C78_stored_zero aesctr p db base hs i j hi hj hB δ h0).trans ?_
    exact Nat.le_mul_of_pos_left _ (Nat.choose_pos (by omega))
  · have hsub : {T | Forged aesctr p db base i j δ T} ⊆
        ((univ.filter (Outvoted (fun k => nearPlus p.b (residue db (base k) j (δ k)))) : Finset (Draws (2 * t + 1))) :
          Set (Draws (2 * t + 1))) := by
      intro T hT
      rw [mem_coe, mem_filter]
      refine ⟨mem_univ _, ?_⟩
      rcases forged_votes aesctr p db base hs i j hi hj hB δ T hT with ⟨h, -⟩ | ⟨-, h⟩
      · omega
      · exact h
    refine (Set.ncard_le_ncard hsub (Finset.finite_toSet _)).trans ?_
    rw [Set.ncard_coe_finset]
    have := card_outvoted_le (fun k => nearPlus p.b (residue db (base k) j (δ k))) (2 * p.b.toNat - 1)
      (fun k => (nearPlus_card p.b _).trans_le (near_zero_card p.b hB).1)
    rwa [Fintype.card_fin] at this

/-- C78, exact for the honest server: with noise within the bound a stored zero is never misread, and a stored one is read
as zero for exactly this many of the `(2^32)^(2t+1)` choices of the multipliers, because a multiplier next to zero makes a
repetition return zero. The script's formula leaves out the binomial coefficient. -/
theorem C78_honest_exact {t : Nat} (ht : 2 * t + 1 < 2 ^ 32) (aesctr : List Byte → Nat → Byte) (p : Params) (db : Db 32)
    (base : Fin (2 * t + 1) → Coins) (hs : ∀ k, Setup lwe32 aesctr p db (base k)) (index : Nat)
    (hidx : index < db.numRows * db.numColumns) (hB : 0 < p.b.toNat) (hB' : p.b.toNat ≤ 2 ^ 31)
    (hR : 8 + 4 * db.numRows < 2 ^ 32) (hC : 8 + 4 * db.numColumns < 2 ^ 32)
    (hcol : ∀ k, ∀ l, l < db.numColumns →
      |columnNoise (fun r => (base k).noise.getD r 0) db.matrix db.numRows l| < p.b.toNat) :
    {T | Misread aesctr p db base index T}.ncard =
      if storedBit db.matrix (index / db.numColumns) (index % db.numColumns) = 0 then 0
      else ∑ m ∈ range (t + 1), (2 * t).choose (t + m) *
        ((2 * p.b.toNat - 1) ^ (t + m + 1) * (2 ^ 32 - (2 * p.b.toNat - 1)) ^ (t - m)) := by
  have hC0 : 0 < db.numColumns := (hs 0).fits.2.2.1
  rcases bit_cases (w := 32) (hs 0).valid.bin (index / db.numColumns) (index % db.numColumns) with ⟨h0, -⟩ | ⟨h1, -⟩
  · rw [if_pos h0]
    have hempty : {T | Misread aesctr p db base index T} = ∅ := by
      rw [Set.eq_empty_iff_forall_notMem]
      intro T hT
      have hf := forged_of_misread ht aesctr p db base hs index hidx hB hR hC hcol T hT
      rcases forged_votes aesctr p db base hs _ _ ((Nat.div_lt_iff_lt_mul hC0).mpr hidx) (Nat.mod_lt _ hC0) hB _ T hf with
        ⟨-, h, -⟩ | ⟨h, -⟩
      · have : univ.filter (fun k => inRange32 p.b (residue db (base k) (index % db.numColumns) 0) = false) = ∅ := by
          rw [filter_eq_empty_iff]
          intro k _ hk
          have hn := abs_lt.mp (hcol k (index % db.numColumns) (Nat.mod_lt _ hC0))
          have : lwe32.inRange p.b (residue db (base k) (index % db.numColumns) 0) = true :=
            ((good32 p.b hB).range _).mpr ⟨columnNoise (fun r => (base k).noise.getD r 0) db.matrix db.numRows
              (index % db.numColumns), by omega, by omega, BitVec.add_zero _⟩
          have hir : lwe32.inRange = inRange32 := rfl
          rw [hir, hk] at this
          cases this
        rw [this, card_empty] at h
        omega
      · omega
    rw [hempty, Set.ncard_empty]
  · rw [if_neg (by omega)]
    have heq : {T | Misread aesctr p db base index T} =
        ((univ.filter (Outvoted (fun k => nearPlus p.b (residue db (base k) (index % db.numColumns) 0))) :
          Finset (Draws (2 * t + 1))) : Set (Draws (2 * t + 1))) := by
      ext T
      rw [mem_coe, mem_filter]
      exact (misread_iff ht aesctr p db base hs index hidx hB hR hC hcol h1 T).trans ⟨fun h => ⟨mem_univ _, h⟩, And.right⟩
    rw [heq, Set.ncard_coe_finset]
    have := card_outvoted_eq (fun k => nearPlus p.b (residue db (base k) (index % db.numColumns) 0)) (2 * p.b.toNat - 1)
      (fun k => (nearPlus_card p.b _).trans ((near_zero_card p.b hB).2 hB'))
    rwa [Fintype.card_fin] at this

theorem default_b (R C : Nat) (h : 84 * R < 2 ^ 32) : (paramsWithDatabaseSize R C).b.toNat = 84 * R := by
  show (computeB R).toNat = _
  unfold computeB
  rw [BitVec.toNat_ofNat]
  omega

theorem shape_8192 : Layout.calculateNumRowsAndColumns 8192 true = (91, 91) := by decide +kernel
theorem shape_8388608 : Layout.calculateNumRowsAndColumns 8388608 true = (2897, 2897) := by decide +kernel
theorem shape_8589934592 : Layout.calculateNumRowsAndColumns 8589934592 true = (92682, 92682) := by decide +kernel

/-- C78 holds for the smallest length of the table, whatever is stored. -/
theorem C78_smallest_partial (aesctr : List Byte → Nat → Byte) (t : Nat) (ht : Local.tECC 8192 = some t) (db : Db 32)
    (base : Fin (2 * t + 1) → Coins)
    (hd : (db.numRows, db.numColumns) = Layout.calculateNumRowsAndColumns 8192 true)
    (hs : ∀ k, Setup lwe32 aesctr (paramsWithDatabaseSize db.numRows db.numColumns) db (base k)) (i j : Nat)
    (δ : Fin (2 * t + 1) → U32) (hi : i < db.numRows) (hj : j < db.numColumns) :
    ProbAtMost 64 {T | Forged aesctr (paramsWithDatabaseSize db.numRows db.numColumns) db base i j δ T} := by
  rw [shape_8192, Prod.mk.injEq] at hd
  have hb := default_b db.numRows db.numColumns (by omega)
  have := C78_forgery_bound aesctr _ db base hs i j hi hj (by omega) δ
  rw [hb] at this
  have ht' : t = 3 := by simpa [Local.tECC] using ht.symm
  unfold ProbAtMost
  refine (Nat.mul_le_mul_right _ this).trans ?_
  subst ht'
  rw [hd.1]
  norm_num [Nat.choose]

/-- C78 holds for every length of the table where the stored bit is zero. For the largest length the setting is never
met, since the kernels count its positions in C `int`s (C36). -/
theorem C78_stored_zero_partial (aesctr : List Byte → Nat → Byte) (dbLen t : Nat) (ht : Local.tECC dbLen = some t)
    (db : Db 32) (base : Fin (2 * t + 1) → Coins)
    (hd : (db.numRows, db.numColumns) = Layout.calculateNumRowsAndColumns dbLen true)
    (hs : ∀ k, Setup lwe32 aesctr (paramsWithDatabaseSize db.numRows db.numColumns) db (base k)) (i j : Nat)
    (δ : Fin (2 * t + 1) → U32) (hi : i < db.numRows) (hj : j < db.numColumns) (h0 : storedBit db.matrix i j = 0) :
    ProbAtMost 64 {T | Forged aesctr (paramsWithDatabaseSize db.numRows db.numColumns) db base i j δ T} := by
  have key : ∀ R, (db.numRows, db.numColumns) = (R, R) → 84 * R < 2 ^ 32 →
      (2 * (84 * R) - 1) ^ (t + 1) * (2 ^ 32) ^ t * 2 ^ 64 ≤ (2 ^ 32) ^ (2 * t + 1) →
      ProbAtMost 64 {T | Forged aesctr (paramsWithDatabaseSize db.numRows db.numColumns) db base i j δ T} := by
    intro R hR hR' hnum
    rw [Prod.mk.injEq] at hR
    have hb := default_b db.numRows db.numColumns (by omega)
    have := C78_stored_zero aesctr _ db base hs i j hi hj (by omega) δ h0
    rw [hb] at this
    unfold ProbAtMost
    refine (Nat.mul_le_mul_right _ this).trans ?_
    rw [hR.1]
    exact hnum
  unfold Local.tECC at ht
  split at ht
  · next h =>
    cases ht
    rw [h, shape_8192] at hd
    exact key 91 hd (by norm_num) (by norm_num)
  · split at ht
    · next h =>
      cases ht
      rw [h, shape_8388608] at hd
      exact key 2897 hd (by norm_num) (by norm_num)
    · split at ht
      · next h =>
        cases ht
        rw [h, shape_8589934592] at hd
        exact key 92682 hd (by norm_num) (by norm_num)
      · cases ht

/-- A database of 2^23 bits with a stored one and repetitions without noise. -/
theorem setting_8388608 (aesctr : List Byte → Nat → Byte) :
    ∃ db : Db 32, db.numRows = 2897 ∧ db.numColumns = 2897 ∧ storedBit db.matrix 0 0 = 1 ∧
      Setup lwe32 aesctr (paramsWithDatabaseSize 2897 2897) db ⟨[], [], List.replicate 2897 0⟩ := by
  obtain ⟨db, -, hv, hr, hc, hg, hbits⟩ := C30_random_database aesctr 1100 2897 2897
    (List.replicate (2897 * 2897 / 8 + 1) 1) (by rw [List.length_replicate]) (by decide)
  refine ⟨db, hr, hc, ?_, hv, ⟨hr.symm, hc.symm, rfl⟩, hg, by rw [hr, hc]; decide, by rw [List.length_replicate, hr], ?_⟩
  · rw [hbits 0 0 (by omega) (by omega)]
    rw [show (0 * 2897 + 0) / 8 = 0 from rfl, List.replicate_succ]
    rfl
  · intro g hg
    rw [List.eq_of_mem_replicate hg]
    decide

/-- The same for the smallest length. -/
example (aesctr : List Byte → Nat → Byte) : Local.tECC 8192 = some 3 ∧
    ∃ db : Db 32, (db.numRows, db.numColumns) = Layout.calculateNumRowsAndColumns 8192 true ∧
      Setup lwe32 aesctr (paramsWithDatabaseSize db.numRows db.numColumns) db ⟨[], [], List.replicate 91 1⟩ := by
  refine ⟨rfl, ?_⟩
  obtain ⟨⟨db, h, h1, h2⟩, -⟩ := setup_exists aesctr 91 91 (List.replicate (91 * 91 / 8 + 1) 1)
    (by rw [List.length_replicate]) (by decide) (by decide) ⟨[], [], List.replicate 91 1⟩ (by rw [List.length_replicate])
    (fun g hg => by rw [List.eq_of_mem_replicate hg]; decide)
  exact ⟨db, by rw [shape_8192, h1, h2], by rw [h1, h2]; exact h⟩

theorem no_noise (db : Db 32) (n l : Nat) :
    columnNoise (fun r => (List.replicate n (0 : Int)).getD r 0) db.matrix db.numRows l = 0 := by
  unfold columnNoise
  refine sum_eq_zero fun r _ => ?_
  have : (List.replicate n (0 : Int)).getD r 0 = 0 := by
    rw [List.getD, List.getElem?_replicate]
    split <;> rfl
  show (List.replicate n (0 : Int)).getD r 0 * _ = 0
  rw [this, zero_mul]

/-- C78 is false of the code for the second length of the table: reading a stored one from an honest server goes wrong with
probability above `2^-60`, because the multipliers are drawn from all words and the four repetitions that must fail
together with the first one can be any of eight. -/
theorem C78_honest_misread (aesctr : List Byte → Nat → Byte) :
    ∃ (db : Db 32) (base : Fin (2 * 4 + 1) → Coins), Local.tECC 8388608 = some 4 ∧
      (db.numRows, db.numColumns) = Layout.calculateNumRowsAndColumns 8388608 true ∧
      (∀ k, Setup lwe32 aesctr (paramsWithDatabaseSize db.numRows db.numColumns) db (base k)) ∧
      (∀ k l, columnNoise (fun r => (base k).noise.getD r 0) db.matrix db.numRows l = 0) ∧
      ¬ ProbAtMost 60 {T | Misread aesctr (paramsWithDatabaseSize db.numRows db.numColumns) db base 0 T} := by
  obtain ⟨db, hr, hc, h1, hs⟩ := setting_8388608 aesctr
  have hb := default_b 2897 2897 (by norm_num)
  refine ⟨db, fun _ => ⟨[], [], List.replicate 2897 0⟩, rfl, by rw [shape_8388608, hr, hc],
    fun _ => by rw [hr, hc]; exact hs, fun _ l => no_noise db 2897 l, ?_⟩
  have he := C78_honest_exact (t := 4) (by norm_num) aesctr (paramsWithDatabaseSize 2897 2897) db
    (fun _ => ⟨[], [], List.replicate 2897 0⟩) (fun _ => hs) 0 (by rw [hr, hc]; norm_num) (by rw [hb]; norm_num)
    (by rw [hb]; norm_num) (by rw [hr]; norm_num) (by rw [hc]; norm_num)
    (fun _ l _ => by rw [no_noise, hb]; norm_num)
  rw [Nat.zero_div, Nat.zero_mod, h1, if_neg (by norm_num), hb] at he
  unfold ProbAtMost
  rw [hr, hc, he]
  norm_num [Finset.sum_range_succ, Nat.choose]

/-- C78 fails: the honest exchange above is a forgery without any deviation. -/
theorem C78_refuted : ¬ C78_Statement := by
  intro h
  obtain ⟨db, base, ht, hd, hs, hn, hbad⟩ := C78_honest_misread (fun _ _ => 0)
  have hd' := hd
  rw [shape_8388608, Prod.mk.injEq] at hd'
  have hb := default_b db.numRows db.numColumns (by omega)
  have := h (fun _ _ => 0) 8388608 4 ht db base hd hs (fun k l _ => by rw [hn]; simp; omega) 0 0 (fun _ => 0) (by omega)
    (by omega)
  apply hbad
  unfold ProbAtMost at this ⊢
  have hsub : {T | Misread (fun _ _ => 0) (paramsWithDatabaseSize db.numRows db.numColumns) db base 0 T} ⊆
      {T | Forged (fun _ _ => 0) (paramsWithDatabaseSize db.numRows db.numColumns) db base 0 0 (fun _ => 0) T} := by
    intro T hT
    have := forged_of_misread (t := 4) (by norm_num) _ _ db base hs 0 (by rw [hd'.1, hd'.2]; norm_num)
      (by rw [hb, hd'.1]; norm_num) (by omega) (by omega) (fun k l _ => by rw [hn, hb]; simp; omega) T hT
    rwa [Nat.zero_div, Nat.zero_mod] at this
  have hle := Set.ncard_le_ncard hsub (Set.toFinite _)
  refine (Nat.mul_le_mul hle (le_refl (2 ^ 60))).trans (le_trans ?_ this)
  exact Nat.mul_le_mul_left _ (by norm_num)

/-- One more pair of repetitions meets `2^-64` for the second length of the table, whatever is stored. -/
theorem C78_five_suffice (aesctr : List Byte → Nat → Byte) (db : Db 32) (base : Fin (2 * 5 + 1) → Coins)
    (hd : (db.numRows, db.numColumns) = Layout.calculateNumRowsAndColumns 8388608 true)
    (hs : ∀ k, Setup lwe32 aesctr (paramsWithDatabaseSize db.numRows db.numColumns) db (base k)) (i j : Nat)
    (δ : Fin (2 * 5 + 1) → U32) (hi : i < db.numRows) (hj : j < db.numColumns) :
    ProbAtMost 64 {T | Forged aesctr (paramsWithDatabaseSize db.numRows db.numColumns) db base i j δ T} := by
  rw [shape_8388608, Prod.mk.injEq] at hd
  have hb := default_b db.numRows db.numColumns (by omega)
  have := C78_forgery_bound aesctr _ db base hs i j hi hj (by omega) δ
  rw [hb] at this
  unfold ProbAtMost
  refine (Nat.mul_le_mul_right _ this).trans ?_
  rw [hd.1]
  norm_num [Nat.choose]

/-- The hypotheses can be met for the second length of the table. For the third they cannot. -/
example (aesctr : List Byte → Nat → Byte) : ∃ db : Db 32, db.numRows = 2897 ∧ storedBit db.matrix 0 0 = 1 ∧
    ¬ FitsInt 1100 92682 92682 ∧ ∀ k : Fin (2 * 5 + 1), Setup lwe32 aesctr (paramsWithDatabaseSize 2897 2897) db
      ((fun _ => ⟨[], [], List.replicate 2897 0⟩ : Fin (2 * 5 + 1) → Coins) k) := by
  obtain ⟨db, h1, -, h3, h4⟩ := setting_8388608 aesctr
  exact ⟨db, h1, h3, by decide, fun _ => h4⟩

end Verif.Lwe
