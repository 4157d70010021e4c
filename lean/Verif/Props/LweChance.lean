import Verif.Lemmas.Draws

/-! # C106: how often an honest lattice retrieval fails -/

namespace Verif.Coins
open Res Verif.Rand Verif.Matrix Verif.Lwe Verif.Gauss Verif.Gauss.Spec Verif.Privacy Verif.Coins.Spec Verif.Monitor.Spec

/-- C106: whatever the generators delivered before, whatever the database holds and whichever entry is asked for, the part
of the random bytes with which an honest retrieval goes wrong is at most `2·columns/2^(38·rows)` when the stored bit is
zero. When it is one, it is `(168·rows - 1)/2^32` for the 32-bit client and `(168·rows + 1)/2^128` for the 128-bit client,
up to the same term and to the chance that `c` random words per noise value do not suffice. -/
def C106_Statement : Prop :=
  ∀ fl : ℚ → ℚ, Nearest fl → ∀ (aesctr : List Byte → Nat → Byte) (P : Past),
    (∀ (db : Db 32) (index : Nat), Published lwe32 aesctr 1100 db → 84 * db.numRows ≤ 2 ^ 31 →
      index < db.numRows * db.numColumns → 5000 ≤ P.M →
      Between (part P fl 4 1100 db.numRows (Fails lwe32 aesctr (paramsWithDatabaseSize db.numRows db.numColumns) db index))
        (if storedBit db.matrix (index / db.numColumns) (index % db.numColumns) = 0 then 0
          else (168 * db.numRows - 1) / 2 ^ 32) db.numRows (2 * db.numColumns / 2 ^ (38 * db.numRows)) P.N) ∧
    ∀ (db : Db 128) (index : Nat), Published lwe128 aesctr 4800 db → 84 * db.numRows < 2 ^ 32 - 1 →
      index < db.numRows * db.numColumns → 80000 ≤ P.M →
      Between (part P fl 16 4800 db.numRows (Fails lwe128 aesctr (paramsWithDatabaseSize128 db.numRows db.numColumns) db index))
        (if storedBit db.matrix (index / db.numColumns) (index % db.numColumns) = 0 then 0
          else (168 * db.numRows + 1) / 2 ^ 128) db.numRows (2 * db.numColumns / 2 ^ (38 * db.numRows)) P.N

open Classical in
/-- Served words are as good as random words. -/
theorem avg_words (P : Past) {α : Type} (D : (Fin P.M → Byte) → List (BitVec 64) → α) (A : α → Prop) :
    avg (fun B : (Fin P.M → Byte) × (Fin (8 * P.N) → Byte) =>
      if A (D B.1 (List.ofFn (fun i : Fin P.N => servedWord (tape P.rest' (8 * P.m) (8 * P.N) B.2) bufSize (8 * P.m) i)))
        then (1 : ℚ) else 0)
    = avg (fun x : (Fin P.M → Byte) × (Fin P.N → BitVec 64) => if A (D x.1 (List.ofFn x.2)) then (1 : ℚ) else 0) :=
  avg_equiv (Equiv.prodCongr (Equiv.refl (Fin P.M → Byte))
    (Equiv.ofBijective _ (words_bijective P.rest' bufSize (8 * P.m) P.N (by decide))))
    (fun x : (Fin P.M → Byte) × (Fin P.N → BitVec 64) => if A (D x.1 (List.ofFn x.2)) then (1 : ℚ) else 0)

/-- The multipliers with which a stored one is read as zero when the noise is `x`. -/
def blind {k : Nat} (S : Scheme (8 * k)) (b : U32) (x : Int) : Finset (Fin (2 ^ (8 * k))) :=
  Finset.univ.filter (fun v => S.inRange b (BitVec.ofInt (8 * k) x + BitVec.ofNat (8 * k) v.val) = true)

theorem blind_card {k : Nat} {S : Scheme (8 * k)} {lo hi : Int} {nz : Int → Int} {b : U32} (G : Good S lo hi nz b)
    (h : lo + hi + 1 ≤ 2 ^ (8 * k)) (x : Int) : (blind S b x).card = (hi + lo + 1).toNat := by
  have : blind S b x = (Finset.Icc (-lo) hi).image (fun y => (BitVec.ofInt (8 * k) (y - x)).toFin) := by
    ext v
    simp only [blind, Finset.mem_filter, Finset.mem_univ, true_and, Finset.mem_image, Finset.mem_Icc]
    rw [G.range]
    have hv : BitVec.ofNat (8 * k) v.val = BitVec.ofFin v := by
      apply BitVec.eq_of_toNat_eq
      rw [BitVec.toNat_ofNat, BitVec.toNat_ofFin, Nat.mod_eq_of_lt v.isLt]
    constructor
    · rintro ⟨y, h1, h2, h3⟩
      refine ⟨y, ⟨h1, h2⟩, ?_⟩
      rw [sub_eq_add_neg, BitVec.ofInt_add, ← h3, BitVec.ofInt_neg, hv]
      rw [show BitVec.ofInt (8 * k) x + BitVec.ofFin v + -BitVec.ofInt (8 * k) x = BitVec.ofFin v by ring]
    · rintro ⟨y, ⟨h1, h2⟩, h3⟩
      refine ⟨y, h1, h2, ?_⟩
      rw [hv, ← h3]
      rw [show BitVec.ofFin (BitVec.ofInt (8 * k) (y - x)).toFin = BitVec.ofInt (8 * k) (y - x) from rfl, ← BitVec.ofInt_add]
      congr 1
      ring
  rw [this, Finset.card_image_of_injOn, Int.card_Icc]
  · congr 1
    ring
  · intro y hy z hz he
    simp only [Finset.coe_Icc, Set.mem_Icc] at hy hz
    have h1 : BitVec.ofInt (8 * k) (y - x) = BitVec.ofInt (8 * k) (z - x) := congrArg BitVec.ofFin he
    have h2 := congrArg BitVec.toNat h1
    rw [BitVec.toNat_ofInt, BitVec.toNat_ofInt] at h2
    have hp : (0 : Int) < ((2 ^ (8 * k) : Nat) : Int) := by positivity
    have h3 : (y - x) % ((2 ^ (8 * k) : Nat) : Int) = (z - x) % ((2 ^ (8 * k) : Nat) : Int) := by
      have a1 := Int.emod_nonneg (y - x) hp.ne'
      have a2 := Int.emod_nonneg (z - x) hp.ne'
      omega
    have h4 := Int.emod_emod_of_dvd (y - x) (dvd_refl ((2 ^ (8 * k) : Nat) : Int))
    have h5 : ((2 ^ (8 * k) : Nat) : Int) ∣ y - z := by
      have := Int.ModEq.dvd (show (y - x) ≡ (z - x) [ZMOD ((2 ^ (8 * k) : Nat) : Int)] from h3)
      rw [show (z - x) - (y - x) = -(y - z) by ring] at this
      exact (dvd_neg.1 this)
    have h6 : |y - z| < ((2 ^ (8 * k) : Nat) : Int) := by
      rw [abs_lt]
      push_cast
      constructor <;> omega
    have := Int.eq_zero_of_abs_lt_dvd h5 h6
    omega

/-- With small noise an honest retrieval is accepted for every multiplier, and goes wrong iff a one is stored and the
multiplier is next to the negated noise. -/
theorem retrieve_small {k : Nat} {S : Scheme (8 * k)} (hS : S.k = k) {lo hi : Int} {nz : Int → Int} (aesctr : List Byte → Nat → Byte)
    (p : Params) (G : Good S lo hi nz p.b) (db : Db (8 * k)) (coins : Coins) (hs : Setup S aesctr p db coins)
    (index : Nat) (hidx : index < db.numRows * db.numColumns)
    (hcol : ∀ j, j < db.numColumns →
      -lo ≤ columnNoise (fun r => nz (coins.noise.getD r 0)) db.matrix db.numRows j ∧
      columnNoise (fun r => nz (coins.noise.getD r 0)) db.matrix db.numRows j ≤ hi)
    (v : Fin (2 ^ (8 * k))) (hv : multiplier k coins = v.val) :
    retrieve S aesctr p db.numColumns db.digest coins index (answerBytes S db)
        ≠ ok (BitVec.ofNat 32 (storedBit db.matrix (index / db.numColumns) (index % db.numColumns)))
      ↔ storedBit db.matrix (index / db.numColumns) (index % db.numColumns) ≠ 0 ∧
        v ∈ blind S p.b (columnNoise (fun r => nz (coins.noise.getD r 0)) db.matrix db.numRows (index % db.numColumns)) := by
  have hC : 0 < db.numColumns := hs.fits.2.2.1
  have ht : coinT S coins = BitVec.ofNat (8 * k) v.val := by
    rw [← hv]
    unfold coinT multiplier
    rw [hS]
  have hr : ∀ j, j < db.numColumns →
      S.inRange p.b (BitVec.ofInt (8 * k) (columnNoise (fun r => nz (coins.noise.getD r 0)) db.matrix db.numRows j)) = true :=
    fun j hj => (G.range _).2 ⟨_, (hcol j hj).1, (hcol j hj).2, rfl⟩
  rw [(retrieve_exact aesctr p G db coins hs index hidx).1 (fun j hj => by
    unfold seen
    rcases bit_cases (w := 8 * k) hs.valid.bin (index / db.numColumns) j with ⟨-, e⟩ | ⟨-, e⟩
    · left
      rw [e, mul_zero, add_zero]
      exact hr j hj
    · right
      rw [e, mul_one, add_sub_cancel_right]
      exact hr j hj), ht]
  unfold seen verdict
  rcases bit_cases (w := 8 * k) hs.valid.bin (index / db.numColumns) (index % db.numColumns) with ⟨e1, e2⟩ | ⟨e1, e2⟩
  · rw [e1, e2, mul_zero, add_zero, if_pos (hr _ (Nat.mod_lt _ hC))]
    simp
  · rw [e1, e2, mul_one]
    simp only [blind, Finset.mem_filter, Finset.mem_univ, true_and, ne_eq, one_ne_zero, not_false_iff]
    split
    · rename_i h
      exact iff_of_true (by simp) h
    · rename_i h
      exact iff_of_false (by simp) h

/-- The multipliers with which a stored one is read as zero, given the noise drawn. -/
def blindOf {k : Nat} (S : Scheme (8 * k)) (b : U32) (nz : Int → Int) (m : Nat → Nat) (R : Nat) :
    Res (List Int × List (BitVec 64)) → Finset (Fin 1 → Fin (2 ^ (8 * k)))
  | ok r => Finset.univ.filter (fun V : Fin 1 → Fin (2 ^ (8 * k)) => V 0 ∈ blind S b (blockNoise nz m R 0 r.1))
  | _ => ∅

open Classical in
/-- Both bounds, for either scheme. -/
theorem fails_between {fl : ℚ → ℚ} (hf : Nearest fl) (aesctr : List Byte → Nat → Byte) (P : Past) {k : Nat} (hk : k ≤ 16)
    {S : Scheme (8 * k)} (hS : S.k = k) {lo hi : Int} {nz : Int → Int} (p : Params) (G : Good S lo hi nz p.b)
    (hnz : ∀ g, g - 1 ≤ nz g ∧ nz g ≤ g) (db : Db (8 * k)) (hp : Published S aesctr p.n db) (hpar : ParamsFor p db)
    (index : Nat) (hidx : index < db.numRows * db.numColumns)
    (hb : ∀ x : Int, |x| < 84 * (db.numRows : Int) → -lo ≤ x ∧ x ≤ hi) (hfit : lo + hi + 1 ≤ 2 ^ (8 * k))
    (hM : stride k p.n ≤ P.M) :
    Between (part P fl k p.n db.numRows (Fails S aesctr p db index))
      (if storedBit db.matrix (index / db.numColumns) (index % db.numColumns) = 0 then 0
          else ((hi + lo + 1).toNat : ℚ) / 2 ^ (8 * k)) db.numRows (2 * db.numColumns / 2 ^ (38 * db.numRows)) P.N := by
  set R := db.numRows with hR
  set C := db.numColumns with hC
  have hC0 : 0 < C := hp.fits.2.2.1
  have hm : ∀ j i, storedBit db.matrix i j ≤ 1 := fun j i => by
    rcases bit_cases (w := 8 * k) hp.valid.bin i j with h | h <;> omega
  have hT := fair_multipliers k p.n 1 hk P.rest P.pos P.M (by omega)
  -- the draws as a function of bytes and words
  let D : (Fin P.M → Byte) → List (BitVec 64) → Res Coins := fun B ws => do
    let r ← gaussSamples fl R ws
    ok ⟨keyStream (tape P.rest P.pos P.M B) P.pos k, keyStream (tape P.rest P.pos P.M B) (P.pos + 16) (k * p.n), r.1⟩
  have hpart : part P fl k p.n R (Fails S aesctr p db index)
      = avg (fun x : (Fin P.M → Byte) × (Fin P.N → BitVec 64) => if Fails S aesctr p db index (D x.1 (List.ofFn x.2)) then (1 : ℚ) else 0) := by
    rw [← avg_words P D]
    unfold Coins.Spec.part
    refine avg_congr (fun B => ?_)
    rw [draws_eq P fl k p.n R hk]
  have hcardV : (Fintype.card (Fin 1 → Fin (2 ^ (8 * k))) : ℚ) = 2 ^ (8 * k) := by
    rw [Fintype.card_fun, Fintype.card_fin, Fintype.card_fin, pow_one]
    push_cast
    rfl
  let Y : (Fin P.N → BitVec 64) → Finset (Fin 1 → Fin (2 ^ (8 * k))) := fun W =>
    blindOf S p.b nz (fun i => storedBit db.matrix i (index % C)) R (gaussSamples fl R (List.ofFn W))
  have hYcard : ∀ W gs rest, gaussSamples fl R (List.ofFn W) = ok (gs, rest) → (Y W).card = (hi + lo + 1).toNat := by
    intro W gs rest h
    show (blindOf S p.b nz (fun i => storedBit db.matrix i (index % C)) R (gaussSamples fl R (List.ofFn W))).card = _
    rw [h]
    unfold blindOf
    dsimp only
    rw [← blind_card G hfit (blockNoise nz (fun i => storedBit db.matrix i (index % C)) R 0 gs)]
    refine Finset.card_bij' (fun V _ => V 0) (fun v _ => fun _ => v) ?_ ?_ ?_ ?_
    · intro V hV
      exact (Finset.mem_filter.1 hV).2
    · intro v hv
      exact Finset.mem_filter.2 ⟨Finset.mem_univ _, hv⟩
    · intro V _
      funext i
      rw [Subsingleton.elim i 0]
    · intro v _
      rfl
  -- what happens with small noise
  have key : ∀ (B : Fin P.M → Byte) (W : Fin P.N → BitVec 64) gs rest, gaussSamples fl R (List.ofFn W) = ok (gs, rest) →
      Small nz (fun j i => storedBit db.matrix i j) R 1 C gs →
      (Fails S aesctr p db index (D B (List.ofFn W)) ↔
        storedBit db.matrix (index / C) (index % C) ≠ 0 ∧ multipliers k p.n 1 (tape P.rest P.pos P.M B) P.pos ∈ Y W) := by
    intro B W gs rest h hs
    have hl := samples_length fl _ _ _ _ h
    have hblock : ∀ j, blockNoise nz (fun i => storedBit db.matrix i j) R 0 gs
        = columnNoise (fun r => nz (gs.getD r 0)) db.matrix R j := by
      intro j
      unfold blockNoise columnNoise
      refine Finset.sum_congr rfl (fun x hx => ?_)
      rw [block_getD _ _ _ _ (Finset.mem_range.1 hx), Nat.zero_mul, Nat.zero_add]
    have hD : D B (List.ofFn W) = ok ⟨keyStream (tape P.rest P.pos P.M B) P.pos k,
        keyStream (tape P.rest P.pos P.M B) (P.pos + 16) (k * p.n), gs⟩ := by
      show (do let r ← gaussSamples fl R (List.ofFn W); _) = _
      rw [h]
      rfl
    have hY : multipliers k p.n 1 (tape P.rest P.pos P.M B) P.pos ∈ Y W ↔
        multipliers k p.n 1 (tape P.rest P.pos P.M B) P.pos 0
          ∈ blind S p.b (columnNoise (fun r => nz (gs.getD r 0)) db.matrix R (index % C)) := by
      show multipliers k p.n 1 (tape P.rest P.pos P.M B) P.pos
        ∈ blindOf S p.b nz (fun i => storedBit db.matrix i (index % C)) R (gaussSamples fl R (List.ofFn W)) ↔ _
      rw [h]
      unfold blindOf
      dsimp only
      rw [Finset.mem_filter, hblock]
      exact ⟨fun h => h.2, fun h => ⟨Finset.mem_univ _, h⟩⟩
    rw [hD, hY]
    have hn : ∀ g ∈ gs, |g| ≤ 128 := by
      intro g hg
      have := samples_bound fl _ _ _ _ h g hg
      rw [Int.abs_eq_natAbs]
      exact_mod_cast this
    have hv : multiplier k ⟨keyStream (tape P.rest P.pos P.M B) P.pos k,
        keyStream (tape P.rest P.pos P.M B) (P.pos + 16) (k * p.n), gs⟩
          = (multipliers k p.n 1 (tape P.rest P.pos P.M B) P.pos 0).val := by
      rw [multipliers_val]
      unfold multiplier
      rw [List.take_of_length_le (by simp)]
      simp
    have hret := retrieve_small hS aesctr p G db ⟨keyStream (tape P.rest P.pos P.M B) P.pos k,
        keyStream (tape P.rest P.pos P.M B) (P.pos + 16) (k * p.n), gs⟩
      ⟨hp.valid, hpar, hp.digest, hp.fits, hl, hn⟩ index hidx (fun j hj => by
        refine hb _ ?_
        have := hs 0 (by omega) j hj
        rwa [hblock] at this) _ hv
    rw [← hret]
    unfold Fails
    constructor
    · rintro ⟨c, h1, h2⟩
      simp only [ok.injEq] at h1
      rw [h1]
      exact h2
    · intro h1
      exact ⟨_, rfl, h1⟩
  constructor
  · -- at most
    rw [hpart]
    have hle := mean_large hf P.N R 1 C (fun j i => storedBit db.matrix i j) hm nz hnz
    rw [Nat.one_mul] at hle
    have hone : (((1 : Nat) : ℚ) * (2 * (C : ℚ)) / 2 ^ (38 * R)) = 2 * C / 2 ^ (38 * R) := by
      rw [Nat.cast_one, one_mul]
    rw [hone] at hle
    refine le_trans (cond_le (fun B => multipliers k p.n 1 (tape P.rest P.pos P.M B) P.pos) hT
      (fun B W => Fails S aesctr p db index (D B (List.ofFn W)))
      (fun W => ∃ gs rest, gaussSamples fl R (List.ofFn W) = ok (gs, rest) ∧ ¬ Small nz (fun j i => storedBit db.matrix i j) R 1 C gs)
      (fun W => if storedBit db.matrix (index / C) (index % C) = 0 then ∅ else Y W)
      (if storedBit db.matrix (index / C) (index % C) = 0 then 0 else (hi + lo + 1).toNat) (fun W _ => ?_) (fun B W hW hF => ?_))
      (add_le_add ?_ hle)
    · split
      · simp
      · cases hg : gaussSamples fl R (List.ofFn W) with
        | ok r => exact (hYcard W r.1 r.2 hg).le
        | err e =>
          show (blindOf S p.b nz (fun i => storedBit db.matrix i (index % C)) R (gaussSamples fl R (List.ofFn W))).card ≤ _
          rw [hg]
          simp [blindOf]
        | crash e =>
          show (blindOf S p.b nz (fun i => storedBit db.matrix i (index % C)) R (gaussSamples fl R (List.ofFn W))).card ≤ _
          rw [hg]
          simp [blindOf]
    · obtain ⟨c, hc, -⟩ := id hF
      obtain ⟨r, hr, -⟩ := bind_eq_ok.1 hc
      have hs : Small nz (fun j i => storedBit db.matrix i j) R 1 C r.1 := by
        by_contra h
        exact hW ⟨r.1, r.2, hr, h⟩
      obtain ⟨h1, h2⟩ := (key B W r.1 r.2 hr hs).1 hF
      rw [if_neg h1]
      exact h2
    · rw [hcardV]
      split <;> simp
  · -- at least
    intro c hc hN
    split
    · rw [zero_mul]
      exact avg_nonneg (fun B => by positivity)
    · rename_i h1
      rw [hpart]
      have hge := mean_small hf P.N R 1 C c hc (by rw [Nat.one_mul]; exact hN) (fun j i => storedBit db.matrix i j) hm nz hnz
      rw [Nat.one_mul] at hge
      have hc2 := cond_ge (fun B => multipliers k p.n 1 (tape P.rest P.pos P.M B) P.pos) hT
        (fun B W => Fails S aesctr p db index (D B (List.ofFn W)))
        (fun W : Fin P.N → BitVec 64 => ∃ gs rest, gaussSamples fl R (List.ofFn W) = ok (gs, rest) ∧ Small nz (fun j i => storedBit db.matrix i j) R 1 C gs)
        Y (hi + lo + 1).toNat (fun W ⟨gs, rest, h, _⟩ => (hYcard W gs rest h).ge)
        (fun B W ⟨gs, rest, h, hs⟩ hmem => (key B W gs rest h hs).2 ⟨h1, hmem⟩)
      rw [hcardV] at hc2
      refine le_trans (mul_le_mul_of_nonneg_left ?_ (by positivity)) hc2
      refine le_trans (le_of_eq ?_) hge
      push_cast
      ring

theorem computeB_toNat (R : Nat) (h : 84 * R < 2 ^ 32) : (computeB R).toNat = 84 * R := by
  unfold computeB
  rw [BitVec.toNat_ofNat, Nat.mod_eq_of_lt (by omega)]
  omega

theorem C106_holds : C106_Statement := by
  intro fl hf aesctr P
  constructor
  · intro db index hp hR hi hM
    have hb : (paramsWithDatabaseSize db.numRows db.numColumns).b.toNat = 84 * db.numRows := computeB_toNat _ (by omega)
    have hpos : 0 < db.numRows := Nat.pos_of_ne_zero (fun h => by rw [h] at hi; omega)
    have h := fails_between (k := 4) (S := lwe32) hf aesctr P (by omega) rfl (paramsWithDatabaseSize db.numRows db.numColumns)
      (good32 _ (by rw [hb]; omega)) (fun g => ⟨by simp, by simp⟩) db hp ⟨rfl, rfl, rfl⟩ index hi
      (fun x hx => by rw [hb]; have := abs_lt.1 hx; omega) (by rw [hb]; omega)
      (by show stride 4 1100 ≤ P.M; simp [stride]; omega)
    have e : (((84 * db.numRows : Nat) : Int) - 1 + (((84 * db.numRows : Nat) : Int) - 1) + 1).toNat = 168 * db.numRows - 1 := by omega
    rw [hb, e, Nat.cast_sub (by omega)] at h
    push_cast at h
    exact h
  · intro db index hp hR hi hM
    have hb : (paramsWithDatabaseSize128 db.numRows db.numColumns).b.toNat = 84 * db.numRows := computeB_toNat _ (by omega)
    have h := fails_between (k := 16) (S := lwe128) hf aesctr P (by omega) rfl (paramsWithDatabaseSize128 db.numRows db.numColumns)
      (good128 _ (by rw [hb]; omega)) (fun g => by unfold noise128; split <;> omega) db hp ⟨rfl, rfl, rfl⟩ index hi
      (fun x hx => by rw [hb]; have := abs_lt.1 hx; omega) (by rw [hb]; omega)
      (by show stride 16 4800 ≤ P.M; simp [stride]; omega)
    have e : (((84 * db.numRows : Nat) : Int) - 1 + (((84 * db.numRows : Nat) : Int) + 1) + 1).toNat = 168 * db.numRows + 1 := by omega
    rw [hb, e] at h
    push_cast at h
    exact h

/-- C106 for the 32-bit client on every database made from random bytes. -/
theorem C106_random_database {fl : ℚ → ℚ} (hf : Nearest fl) (aesctr : List Byte → Nat → Byte) (P : Past) (R C index : Nat)
    (data : List Byte) (hd : data.length = R * C / 8 + 1) (hR : 84 * R ≤ 2 ^ 31) (hi : index < R * C)
    (hfit : FitsInt 1100 R C) (hM : 5000 ≤ P.M) :
    ∃ db, createRandomBinary lwe32 aesctr 1100 data R C = ok db ∧
      Between (part P fl 4 1100 R (Fails lwe32 aesctr (paramsWithDatabaseSize R C) db index))
        (if storedBit db.matrix (index / C) (index % C) = 0 then 0 else (168 * R - 1) / 2 ^ 32) R (2 * C / 2 ^ (38 * R)) P.N := by
  obtain ⟨db, h1, h2, h3, h4, h5, -⟩ := C30_random_database aesctr 1100 R C data hd hfit
  subst h3 h4
  exact ⟨db, h1, (C106_holds fl hf aesctr P).1 db index ⟨h2, h5, hfit⟩ hR hi hM⟩

/-- C106 for the 128-bit client on every database made from random bytes. -/
theorem C106_random_database128 {fl : ℚ → ℚ} (hf : Nearest fl) (aesctr : List Byte → Nat → Byte) (P : Past) (R C index : Nat)
    (data : List Byte) (hd : data.length = R * C / 8 + 1) (hR : 84 * R < 2 ^ 32 - 1) (hi : index < R * C)
    (hfit : FitsInt 4800 R C) (hM : 80000 ≤ P.M) :
    ∃ db, createRandomBinary lwe128 aesctr 4800 data R C = ok db ∧
      Between (part P fl 16 4800 R (Fails lwe128 aesctr (paramsWithDatabaseSize128 R C) db index))
        (if storedBit db.matrix (index / C) (index % C) = 0 then 0 else (168 * R + 1) / 2 ^ 128) R (2 * C / 2 ^ (38 * R)) P.N := by
  obtain ⟨db, h1, h2, h3, h4, h5, -⟩ := C32_random_database aesctr 4800 R C data hd hfit
  subst h3 h4
  exact ⟨db, h1, (C106_holds fl hf aesctr P).2 db index ⟨h2, h5, hfit⟩ hR hi hM⟩

theorem rare_small : (2 * (1024 : Nat) / 2 ^ (38 * 1024) : ℚ) ≤ 2 * 1024 / 2 ^ 38 := by
  rw [Nat.cast_ofNat]
  exact div_le_div_of_nonneg_left (by norm_num) (by norm_num) (pow_le_pow_right₀ (by norm_num) (by norm_num))

/-- The hypotheses can be met: a database of 1024 rows and columns. Reading a one from it with the 32-bit client fails
about once in 25000 times. -/
example (aesctr : List Byte → Nat → Byte) (data : List Byte) (hd : data.length = 1024 * 1024 / 8 + 1) (P : Past)
    (hM : 5000 ≤ P.M) (hN : 700 * 1024 ≤ P.N) :
    ∃ db fl, createRandomBinary lwe32 aesctr 1100 data 1024 1024 = ok db ∧ Nearest fl ∧
      (storedBit db.matrix (777 / 1024) (777 % 1024) ≠ 0 →
        1 / 25000 < part P fl 4 1100 1024 (Fails lwe32 aesctr (paramsWithDatabaseSize 1024 1024) db 777) ∧
        part P fl 4 1100 1024 (Fails lwe32 aesctr (paramsWithDatabaseSize 1024 1024) db 777) < 1 / 24900) := by
  obtain ⟨fl, hf⟩ := Monitor.nearest_exists
  obtain ⟨db, h1, h2, h3⟩ := C106_random_database hf aesctr P 1024 1024 777 data hd (by norm_num) (by norm_num)
    (by unfold FitsInt; norm_num) hM
  refine ⟨db, fl, h1, hf, fun hne => ?_⟩
  rw [if_neg hne] at h2 h3
  constructor
  · refine lt_of_lt_of_le ?_ (h3 700 (by norm_num) hN)
    refine lt_of_lt_of_le ?_ (mul_le_mul_of_nonneg_left (sub_le_sub_left rare_small _) (by norm_num))
    have h4 : ((97 : ℚ) / 100) ^ 700 ≤ (1 / 20) ^ 7 := by
      rw [show 700 = 100 * 7 from rfl, pow_mul]
      exact pow_le_pow_left₀ (by positivity) (by norm_num) 7
    refine lt_of_lt_of_le ?_ (mul_le_mul_of_nonneg_left (sub_le_sub_right (sub_le_sub_left
      (mul_le_mul_of_nonneg_left (mul_le_mul_of_nonneg_left h4 (by norm_num)) (by norm_num)) _) _) (by norm_num))
    norm_num
  · refine (h2.trans (add_le_add_right rare_small _)).trans_lt ?_
    norm_num

end Verif.Coins
