import Verif.Lemmas.LweAdversary

/-! # C30, C31, C32 (LWE retrieval), C48 (same matrix), C56 (malformed LWE queries) -/

namespace Verif.Lwe
open Res Verif.Matrix Verif.Utils Finset

variable {w : Nat}

/-- Over the wire, for any scheme. -/
theorem retrieve_honest {S : Scheme w} {lo hi : Int} {nz : Int → Int} (aesctr : List Byte → Nat → Byte)
    (p : Params) (G : Good S lo hi nz p.b) (db : Db w) (coins : Coins) (hs : Setup S aesctr p db coins)
    (index : Nat) (hidx : index < db.numRows * db.numColumns)
    (hcol : ∀ k, k < db.numColumns →
      -lo ≤ columnNoise (fun r => nz (coins.noise.getD r 0)) db.matrix db.numRows k ∧
      columnNoise (fun r => nz (coins.noise.getD r 0)) db.matrix db.numRows k ≤ hi)
    (hfar : ¬ Within (lo + hi) (coinT S coins)) :
    retrieve S aesctr p db.numColumns db.digest coins index (answerBytes S db)
      = ok (BitVec.ofNat 32 (storedBit db.matrix (index / db.numColumns) (index % db.numColumns))) := by
  have hC : 0 < db.numColumns := hs.fits.2.2.1
  have hrow : index / db.numColumns < db.numRows := by
    rw [Nat.div_lt_iff_lt_mul hC]; exact hidx
  have hcolj : index % db.numColumns < db.numColumns := Nat.mod_lt _ hC
  obtain ⟨st, q, h, h1, h2, ⟨rq, cq, -, rh, ch, -⟩, h3⟩ := reconstruct_honest aesctr p G db hs.valid hs.params
    hs.digest hs.fits coins hs.noiseLen hs.noise _ _ hrow hcolj hcol hfar
  obtain ⟨-, f2, f3, f4, f5, f6, -⟩ := hs.fits
  obtain ⟨qb, hqb⟩ := G.enc q
  obtain ⟨hb, hhb⟩ := G.enc h
  have w1 := G.wire q (by omega) (by omega)
  have w2 := G.wire h (by omega) (by omega)
  rw [hqb, ok_bind] at w1
  rw [hhb, ok_bind] at w2
  unfold retrieve queryBytes
  rw [if_neg (by omega), h1, ok_bind]
  dsimp only
  rw [hqb, ok_bind, ok_bind]
  dsimp only
  unfold answerBytes
  rw [w1, ok_bind, h2, ok_bind, hhb, ok_bind]
  unfold reconstructBytes
  rw [w2, ok_bind, h3]

theorem not_within32 {t : U32} {B : Nat} (hB : 0 < B) (h1 : 2 * B ≤ t.toNat) (h2 : t.toNat + 2 * B ≤ 2 ^ 32) :
    ¬ Within ((B : Int) - 1 + ((B : Int) - 1)) t := by
  rintro ⟨y, hy, he⟩
  have hy' := abs_le.mp hy
  have := congrArg BitVec.toNat he
  rw [BitVec.toNat_ofInt] at this
  omega

theorem not_within128 {t : U128} {B : Nat} (h1 : 2 * B < t.toNat) (h2 : t.toNat + 2 * B < 2 ^ 128) :
    ¬ Within ((B : Int) + 1 + ((B : Int) - 1)) t := by
  rintro ⟨y, hy, he⟩
  have hy' := abs_le.mp hy
  have := congrArg BitVec.toNat he
  rw [BitVec.toNat_ofInt] at this
  omega

theorem coinT32 (coins : Coins) : (coinT lwe32 coins).toNat = multiplier 4 coins % 2 ^ 32 := by
  unfold coinT multiplier
  rw [BitVec.toNat_ofNat]
  rfl

theorem coinT128 (coins : Coins) : (coinT lwe128 coins).toNat = multiplier 16 coins % 2 ^ 128 := by
  unfold coinT multiplier
  rw [BitVec.toNat_ofNat]
  rfl

theorem multiplier_lt (k : Nat) (coins : Coins) : multiplier k coins < 256 ^ k := by
  unfold multiplier
  refine lt_of_lt_of_le (ofLE_lt _) (Nat.pow_le_pow_right (by omega) ?_)
  rw [List.length_take]
  omega

/-! ### C30 -/

/-- C30: the complete 32-bit retrieval over the wire, with an honest server, returns the stored bit whenever every
column's accumulated noise is below `B` and the multiplier is at distance at least `2B` from zero. -/
theorem C30_honest_retrieval (aesctr : List Byte → Nat → Byte) (p : Params) (db : Db 32) (coins : Coins)
    (hs : Setup lwe32 aesctr p db coins) (index : Nat) (hidx : index < db.numRows * db.numColumns)
    (hB : 0 < p.b.toNat)
    (hcol : ∀ k, k < db.numColumns →
      |columnNoise (fun r => coins.noise.getD r 0) db.matrix db.numRows k| < p.b.toNat)
    (h1 : 2 * p.b.toNat ≤ multiplier 4 coins) (h2 : multiplier 4 coins + 2 * p.b.toNat ≤ 2 ^ 32) :
    retrieve lwe32 aesctr p db.numColumns db.digest coins index (answerBytes lwe32 db)
      = ok (BitVec.ofNat 32 (storedBit db.matrix (index / db.numColumns) (index % db.numColumns))) := by
  have ht : (coinT lwe32 coins).toNat = multiplier 4 coins := by
    rw [coinT32]; omega
  refine retrieve_honest aesctr p (good32 p.b hB) db coins hs index hidx ?_
    (not_within32 hB (by omega) (by omega))
  intro k hk
  have := abs_lt.mp (hcol k hk)
  simp only [id]
  omega

/-- C30: databases made from random bytes are valid, hold the bits of those bytes, and are published with their
digest. -/
theorem C30_random_database (aesctr : List Byte → Nat → Byte) (n R C : Nat) (data : List Byte)
    (hd : data.length = R * C / 8 + 1) (hf : FitsInt n R C) :
    ∃ db, createRandomBinary lwe32 aesctr n data R C = ok db ∧ db.Valid ∧ db.numRows = R ∧ db.numColumns = C ∧
      digest lwe32 aesctr n db.matrix db.numRows = ok db.digest ∧
      ∀ i j, i < R → j < C →
        storedBit db.matrix i j = ((data.getD ((i * C + j) / 8) 0).toNat / 2 ^ ((i * C + j) % 8)) % 2 := by
  obtain ⟨m, h1, r1, c1, w1, b1, e1⟩ := fillBits_spec data R C (by omega)
  obtain ⟨g, hg, -⟩ := C36_binaryMul_partial (seedMatrix aesctr 32 4 seedMatrixA n R) m (seedMatrix_wf _ _ _ _ _) w1 b1
    r1.symm (by rw [c1]; exact hf)
  have hg' : digest lwe32 aesctr n m R = ok g := hg
  refine ⟨⟨m, R, C, g⟩, ?_, ⟨w1, b1, r1, c1⟩, rfl, rfl, hg', ?_⟩
  · unfold createRandomBinary
    rw [h1, ok_bind, hg', ok_bind]
  · intro i j hi hj
    unfold storedBit
    rw [e1 i j hi hj]
    simp only [BitVec.toNat_and, BitVec.toNat_ushiftRight, Nat.shiftRight_eq_div_pow,
      show (1 : Byte).toNat = 1 from rfl, Nat.and_one_is_mod]

/-- C30, the default client on a freshly created database, from the random bytes to the returned bit. -/
theorem C30_end_to_end (aesctr : List Byte → Nat → Byte) (R C : Nat) (data : List Byte) (coins : Coins)
    (hd : data.length = R * C / 8 + 1) (hf : FitsInt 1100 R C) (hR : 84 * R < 2 ^ 32)
    (hl : coins.noise.length = R) (hno : ∀ g ∈ coins.noise, |g| ≤ 128) (index : Nat) (hidx : index < R * C)
    (hcol : ∀ k, k < C → |∑ r ∈ range R, coins.noise.getD r 0 *
      (((data.getD ((r * C + k) / 8) 0).toNat / 2 ^ ((r * C + k) % 8) % 2 : Nat) : Int)| < 84 * R)
    (h1 : 168 * R ≤ multiplier 4 coins) (h2 : multiplier 4 coins + 168 * R ≤ 2 ^ 32) :
    ∃ db, createRandomBinary lwe32 aesctr 1100 data R C = ok db ∧
      retrieve lwe32 aesctr (paramsWithDatabaseSize R C) C db.digest coins index (answerBytes lwe32 db)
        = ok (BitVec.ofNat 32 ((data.getD (index / 8) 0).toNat / 2 ^ (index % 8) % 2)) := by
  obtain ⟨db, hdb, hv, hr, hc, hg, hbits⟩ := C30_random_database aesctr 1100 R C data hd hf
  have hb : (paramsWithDatabaseSize R C).b.toNat = 84 * R := by
    show (computeB R).toNat = _
    unfold computeB
    rw [BitVec.toNat_ofNat]
    omega
  have hs : Setup lwe32 aesctr (paramsWithDatabaseSize R C) db coins :=
    ⟨hv, ⟨hr.symm, hc.symm, rfl⟩, hg, by rw [hr, hc]; exact hf, by omega, hno⟩
  have hC : 0 < C := hf.2.2.1
  refine ⟨db, hdb, ?_⟩
  have := C30_honest_retrieval aesctr (paramsWithDatabaseSize R C) db coins hs index (by rw [hr, hc]; exact hidx)
    (by rw [hb]; have := hf.2.1; omega) (fun k hk => ?_) (by rw [hb]; omega) (by rw [hb]; omega)
  · rw [hc] at this
    rw [this, hbits _ _ (by rw [Nat.div_lt_iff_lt_mul hC]; exact hidx) (Nat.mod_lt _ hC)]
    rw [Nat.div_add_mod' index C]
  · rw [hb]
    have hk' : k < C := by omega
    have := hcol k hk'
    unfold columnNoise
    rw [hr]
    rw [Finset.sum_congr rfl (fun r hr => by rw [hbits r k (by simpa using hr) hk'])]
    push_cast at this ⊢
    exact this

/-- A two-by-one database `[1, 0]`, small noise and `t = 2^31`: the hypotheses above can be met. -/
example : ∃ (data : List Byte) (coins : Coins), data.length = 2 * 1 / 8 + 1 ∧ FitsInt 1100 2 1 ∧
    coins.noise.length = 2 ∧ (∀ g ∈ coins.noise, |g| ≤ 128) ∧ 168 * 2 ≤ multiplier 4 coins ∧
    multiplier 4 coins + 168 * 2 ≤ 2 ^ 32 ∧ coins.noise.getD 0 0 = 5 ∧
    (data.getD 0 0).toNat / 2 ^ 0 % 2 = 1 ∧ (data.getD 0 0).toNat / 2 ^ 1 % 2 = 0 := by
  refine ⟨[1], ⟨[0, 0, 0, 128], [], [5, -7]⟩, ?_⟩
  decide

/-! What an honest exchange returns in all cases, also outside the hypotheses of C30. -/

/-- The decision loop either returns or rejects. -/
theorem decide_total (S : Scheme w) (b : U32) (t : BitVec w) (d : Mat w) (m : Nat) (hl : m ≤ d.data.length) :
    (∃ outs, forLoop m (fun i outs => decide1 S b t d i outs) (List.replicate m 0) = ok outs) ∨
      forLoop m (fun i outs => decide1 S b t d i outs) (List.replicate m 0) = err "REJECT" := by
  have key : ∀ n, n ≤ m → (∃ outs, forLoop n (fun i outs => decide1 S b t d i outs) (List.replicate m 0) = ok outs ∧
      outs.length = m) ∨
      forLoop n (fun i outs => decide1 S b t d i outs) (List.replicate m 0) = err "REJECT" := by
    intro n hn
    induction n with
    | zero => exact Or.inl ⟨_, rfl, by simp⟩
    | succ n ih =>
      rcases ih (by omega) with ⟨outs, h1, h2⟩ | h
      · rw [forLoop_succ, h1, ok_bind]
        unfold decide1
        rw [get_of_lt d n (by omega), ok_bind]
        split
        · exact Or.inl ⟨_, setAt_of_lt (by omega), by simpa using h2⟩
        · split
          · exact Or.inl ⟨_, setAt_of_lt (by omega), by simpa using h2⟩
          · exact Or.inr rfl
      · rw [forLoop_succ, h]
        exact Or.inr rfl
  rcases key m (le_refl m) with ⟨outs, h, -⟩ | h
  · exact Or.inl ⟨outs, h⟩
  · exact Or.inr h

/-- The value an honest client sees in column `k` after an honest answer. -/
def seen (w : Nat) (nz : Int → Int) (t : BitVec w) (db : Db w) (coins : Coins) (i k : Nat) : BitVec w :=
  BitVec.ofInt w (columnNoise (fun r => nz (coins.noise.getD r 0)) db.matrix db.numRows k) + t * bitAs w db.matrix i k

/-- An honest exchange accepts iff every column value is next to 0 or `t`, and then reads the queried column as zero
iff its value is next to 0. -/
theorem retrieve_exact {S : Scheme w} {lo hi : Int} {nz : Int → Int} (aesctr : List Byte → Nat → Byte)
    (p : Params) (G : Good S lo hi nz p.b) (db : Db w) (coins : Coins) (hs : Setup S aesctr p db coins)
    (index : Nat) (hidx : index < db.numRows * db.numColumns) :
    ((∀ k, k < db.numColumns →
        S.inRange p.b (seen w nz (coinT S coins) db coins (index / db.numColumns) k) = true ∨
        S.inRange p.b (seen w nz (coinT S coins) db coins (index / db.numColumns) k - coinT S coins) = true) →
      retrieve S aesctr p db.numColumns db.digest coins index (answerBytes S db) =
        ok (verdict S p.b (seen w nz (coinT S coins) db coins (index / db.numColumns) (index % db.numColumns)))) ∧
    ((∃ k, k < db.numColumns ∧
        ¬ S.inRange p.b (seen w nz (coinT S coins) db coins (index / db.numColumns) k) = true ∧
        ¬ S.inRange p.b (seen w nz (coinT S coins) db coins (index / db.numColumns) k - coinT S coins) = true) →
      retrieve S aesctr p db.numColumns db.digest coins index (answerBytes S db) = err "REJECT") := by
  have hC : 0 < db.numColumns := hs.fits.2.2.1
  have hrow : index / db.numColumns < db.numRows := by
    rw [Nat.div_lt_iff_lt_mul hC]; exact hidx
  have hcolj : index % db.numColumns < db.numColumns := Nat.mod_lt _ hC
  obtain ⟨st, q, h, std, h1, h2, h3, h4, h5, h6, h7, -, rq, cq, wq, rh, ch, wh, rs, cs, ws, hval⟩ :=
    honest_values aesctr p G db hs.valid hs.params hs.digest hs.fits coins hs.noiseLen hs.noise
      (index / db.numColumns) (index % db.numColumns) hrow
  obtain ⟨-, f2, f3, f4, f5, f6, -⟩ := hs.fits
  obtain ⟨qb, hqb⟩ := G.enc q
  obtain ⟨hb, hhb⟩ := G.enc h
  have w1 := G.wire q (by omega) (by omega)
  have w2 := G.wire h (by omega) (by omega)
  rw [hqb, ok_bind] at w1
  rw [hhb, ok_bind] at w2
  have hret : retrieve S aesctr p db.numColumns db.digest coins index (answerBytes S db) =
      reconstruct S p st h := by
    unfold retrieve queryBytes
    rw [if_neg (by omega), h1, ok_bind]
    dsimp only
    rw [hqb, ok_bind, ok_bind]
    dsimp only
    unfold answerBytes
    rw [w1, ok_bind, h2, ok_bind, hhb, ok_bind]
    unfold reconstructBytes
    rw [w2, ok_bind]
  rw [hret]
  obtain ⟨d, hdd, rd, cd, wd, ed⟩ := sub_spec h std (by omega) (by omega) wh ws
  have hm : p.m = db.numColumns := hs.params.m
  have hseen : ∀ k, k < db.numColumns →
      d.data.getD k 0 = seen w nz (coinT S coins) db coins (index / db.numColumns) k := by
    intro k hk
    have e := ed 0 k (by omega) (by omega)
    rw [hval k hk, data_entry] at e
    exact e
  have hlen : p.m ≤ d.data.length := by rw [wd, rd, cd, rh, ch, hm]; omega
  constructor
  · intro hall
    obtain ⟨outs, ho, hol, hoe⟩ := decide_spec S p.b st.t d p.m hlen (fun k hk => by
      rw [hseen k (by omega), h4]; exact hall k (by omega))
    unfold reconstruct
    rw [h3, ok_bind, hdd, ok_bind, ho, ok_bind, h6, idx_getD 0 (by omega), hoe _ (by omega), hseen _ hcolj]
  · rintro ⟨k, hk, n1, n2⟩
    rcases decide_total S p.b st.t d p.m hlen with ⟨outs, ho⟩ | ho
    · obtain ⟨-, h9⟩ := decide_ok S p.b st.t d p.m outs ho
      have := (h9 k (by omega)).2.2
      rw [hseen k hk, h4] at this
      tauto
    · unfold reconstruct
      rw [h3, ok_bind, hdd, ok_bind, ho]
      rfl

/-- Fact about C30: the default bound `B` (84 per row) does not cover the range of the sampler (128 per row). With
all samples at the upper end and a column of ones, the honest server's answer is rejected whatever the queried
position, for almost all multipliers. So the noise hypothesis of C30 is a probabilistic assumption, not a
consequence of C38. -/
theorem C30_sampler_range_exceeds_bound (aesctr : List Byte → Nat → Byte) (R C : Nat) (db : Db 32) (coins : Coins)
    (hs : Setup lwe32 aesctr (paramsWithDatabaseSize R C) db coins) (hr : db.numRows = R)
    (hmax : ∀ r, r < R → coins.noise.getD r 0 = 128) (k : Nat) (hk : k < db.numColumns)
    (hones : ∀ r, r < R → storedBit db.matrix r k = 1) (h212 : multiplier 4 coins + 212 * R ≤ 2 ^ 32)
    (index : Nat) (hidx : index < db.numRows * db.numColumns) :
    retrieve lwe32 aesctr (paramsWithDatabaseSize R C) db.numColumns db.digest coins index (answerBytes lwe32 db)
      = err "REJECT" := by
  have hR : 0 < R := hr ▸ hs.fits.2.1
  have hb : (paramsWithDatabaseSize R C).b.toNat = 84 * R := by
    show (computeB R).toNat = _
    unfold computeB
    rw [BitVec.toNat_ofNat]
    omega
  have hC : 0 < db.numColumns := hs.fits.2.2.1
  have hrow : index / db.numColumns < R := by
    rw [← hr, Nat.div_lt_iff_lt_mul hC]; exact hidx
  refine (retrieve_exact aesctr _ (good32 _ (by rw [hb]; omega)) db coins hs index hidx).2 ⟨k, hk, ?_⟩
  have hnoise : columnNoise (fun r => id (coins.noise.getD r 0)) db.matrix db.numRows k = 128 * R := by
    unfold columnNoise
    have hsum : ∀ r ∈ range db.numRows,
        id (coins.noise.getD r 0) * (storedBit db.matrix r k : Int) = 128 := by
      intro r hr'
      have hlt : r < R := by rw [← hr]; simpa using hr'
      rw [hones r hlt, id_eq, hmax r hlt]
      rfl
    rw [Finset.sum_congr rfl hsum, Finset.sum_const, card_range, hr]
    simp [mul_comm]
  have hbit : bitAs 32 db.matrix (index / db.numColumns) k = 1 := by
    rcases bit_cases (w := 32) hs.valid.bin (index / db.numColumns) k with ⟨h, -⟩ | ⟨-, h⟩
    · rw [hones _ hrow] at h; omega
    · exact h
  have hseen : seen 32 id (coinT lwe32 coins) db coins (index / db.numColumns) k
      = BitVec.ofInt 32 (128 * R) + coinT lwe32 coins := by
    unfold seen
    rw [hnoise, hbit, mul_one]
  rw [hseen, add_sub_cancel_right]
  have ht := coinT32 coins
  have hnat : (BitVec.ofInt 32 (128 * R)).toNat = 128 * R := by
    rw [BitVec.toNat_ofInt]; omega
  have hsum : (BitVec.ofInt 32 (128 * R) + coinT lwe32 coins).toNat = 128 * R + multiplier 4 coins := by
    rw [BitVec.toNat_add, hnat, ht]
    omega
  have hneg : (-(paramsWithDatabaseSize R C).b).toNat = 2 ^ 32 - 84 * R := by
    rw [BitVec.toNat_neg, hb]; omega
  show ¬ inRange32 _ _ = true ∧ ¬ inRange32 _ _ = true
  unfold inRange32
  simp only [hsum, hnat, hb, hneg, Bool.or_eq_true, decide_eq_true_iff]
  omega

/-- Fact about C30: with the multiplier 0 (drawn with probability 2^-32, and similarly for the about `2B` values next
to it) an honest exchange reads every bit as zero, so a stored one is returned as zero without any error. -/
theorem C30_zero_multiplier_reads_zero (aesctr : List Byte → Nat → Byte) (p : Params) (db : Db 32) (coins : Coins)
    (hs : Setup lwe32 aesctr p db coins) (index : Nat) (hidx : index < db.numRows * db.numColumns)
    (hB : 0 < p.b.toNat)
    (hcol : ∀ k, k < db.numColumns →
      |columnNoise (fun r => coins.noise.getD r 0) db.matrix db.numRows k| < p.b.toNat)
    (h0 : multiplier 4 coins = 0) :
    retrieve lwe32 aesctr p db.numColumns db.digest coins index (answerBytes lwe32 db) = ok 0 := by
  have ht : coinT lwe32 coins = 0 := by
    apply BitVec.eq_of_toNat_eq
    rw [coinT32, h0]
    rfl
  have hin : ∀ k, k < db.numColumns →
      lwe32.inRange p.b (seen 32 id (coinT lwe32 coins) db coins (index / db.numColumns) k) = true := by
    intro k hk
    have := abs_lt.mp (hcol k hk)
    refine ((good32 p.b hB).range _).mpr ⟨columnNoise (fun r => coins.noise.getD r 0) db.matrix db.numRows k,
      by omega, by omega, ?_⟩
    unfold seen
    rw [ht, zero_mul, add_zero]
    rfl
  rw [(retrieve_exact aesctr p (good32 p.b hB) db coins hs index hidx).1 (fun k hk => Or.inl (hin k hk))]
  unfold verdict
  rw [if_pos (hin _ (Nat.mod_lt _ hs.fits.2.2.1))]

/-! ### C31 -/

/-- C31: whatever matrix the server answers, if the client accepts a bit other than the stored one, the deviation
from the honest answer in the queried column is congruent to `t` or `-t` up to less than `2B`. -/
theorem C31_wrong_bit_needs_multiplier (aesctr : List Byte → Nat → Byte) (p : Params) (db : Db 32) (coins : Coins)
    (hs : Setup lwe32 aesctr p db coins) (i j : Nat) (hi : i < db.numRows) (hj : j < db.numColumns)
    (hB : 0 < p.b.toNat)
    (hcol : |columnNoise (fun r => coins.noise.getD r 0) db.matrix db.numRows j| < p.b.toNat)
    (st : State 32) (q h ans : Mat 32) (b : U32)
    (hq : query lwe32 aesctr p db.digest coins i j = ok (st, q)) (hh : answer lwe32 db q = ok h)
    (hr : reconstruct lwe32 p st ans = ok b) (hb : b.toNat ≠ storedBit db.matrix i j) :
    Within (2 * p.b.toNat - 2) (ans.entry 0 j - h.entry 0 j - BitVec.ofNat 32 (multiplier 4 coins)) ∨
      Within (2 * p.b.toNat - 2) (ans.entry 0 j - h.entry 0 j + BitVec.ofNat 32 (multiplier 4 coins)) := by
  have hc := abs_lt.mp hcol
  have := integrity aesctr p (good32 p.b hB) db coins hs i j hi hj (by simp only [id]; omega) st q h ans b hq hh hr
    (by intro he; apply hb; rw [he, BitVec.toNat_ofNat]
        rcases bit_cases (w := 32) hs.valid.bin i j with ⟨h, -⟩ | ⟨h, -⟩ <;> rw [h])
  rw [show ((p.b.toNat : Int) - 1 + ((p.b.toNat : Int) - 1)) = 2 * p.b.toNat - 2 by ring] at this
  exact this

/-- C31: for a fixed deviation at most `8B - 6` of the 2^32 multipliers satisfy the conclusion above. -/
theorem C31_few_multipliers (B : Nat) (hB : 0 < B) (δ : U32) (s : Finset U32)
    (h : ∀ t ∈ s, Within (2 * (B : Int) - 2) (δ - t) ∨ Within (2 * (B : Int) - 2) (δ + t)) :
    s.card ≤ 8 * B - 6 := by
  have := near_card (2 * B - 2) δ s (fun t ht => by
    have := h t ht
    rwa [show (2 * (B : Int) - 2) = ((2 * B - 2 : Nat) : Int) by omega] at this)
  omega

example : ∃ s : Finset U32, 0 < s.card ∧
    ∀ t ∈ s, Within (2 * ((84 : Nat) : Int) - 2) ((5 : U32) - t) ∨ Within (2 * ((84 : Nat) : Int) - 2) ((5 : U32) + t) := by
  refine ⟨{3}, by simp, ?_⟩
  intro t ht
  simp at ht
  subst ht
  exact Or.inl ⟨2, by norm_num, by decide⟩

/-! ### C32 -/

/-- C32, correctness of the 128-bit scheme over the wire. Its acceptance interval is `[-(B+1), B-1]`, and negative
samples are encoded one lower (C38). -/
theorem C32_honest_retrieval (aesctr : List Byte → Nat → Byte) (p : Params) (db : Db 128) (coins : Coins)
    (hs : Setup lwe128 aesctr p db coins) (index : Nat) (hidx : index < db.numRows * db.numColumns)
    (hB : p.b.toNat < 2 ^ 32 - 1)
    (hcol : ∀ k, k < db.numColumns →
      -((p.b.toNat : Int) + 1) ≤ columnNoise (fun r => noise128 (coins.noise.getD r 0)) db.matrix db.numRows k ∧
      columnNoise (fun r => noise128 (coins.noise.getD r 0)) db.matrix db.numRows k < p.b.toNat)
    (h1 : 2 * p.b.toNat < multiplier 16 coins) (h2 : multiplier 16 coins + 2 * p.b.toNat < 2 ^ 128) :
    retrieve lwe128 aesctr p db.numColumns db.digest coins index (answerBytes lwe128 db)
      = ok (BitVec.ofNat 32 (storedBit db.matrix (index / db.numColumns) (index % db.numColumns))) := by
  have ht : (coinT lwe128 coins).toNat = multiplier 16 coins := by
    rw [coinT128]; omega
  refine retrieve_honest aesctr p (good128 p.b hB) db coins hs index hidx ?_
    (not_within128 (by omega) (by omega))
  intro k hk
  have := hcol k hk
  omega

/-- C32, databases of the 128-bit scheme. -/
theorem C32_random_database (aesctr : List Byte → Nat → Byte) (n R C : Nat) (data : List Byte)
    (hd : data.length = R * C / 8 + 1) (hf : FitsInt n R C) :
    ∃ db, createRandomBinary lwe128 aesctr n data R C = ok db ∧ db.Valid ∧ db.numRows = R ∧ db.numColumns = C ∧
      digest lwe128 aesctr n db.matrix db.numRows = ok db.digest ∧
      ∀ i j, i < R → j < C →
        storedBit db.matrix i j = ((data.getD ((i * C + j) / 8) 0).toNat / 2 ^ ((i * C + j) % 8)) % 2 := by
  obtain ⟨m, h1, r1, c1, w1, b1, e1⟩ := fillBits_spec data R C (by omega)
  obtain ⟨g, hg, -⟩ := C36_binaryMul128_partial (seedMatrix aesctr 128 16 seedMatrixA n R) m
    (seedMatrix_wf _ _ _ _ _) w1 b1 r1.symm (by rw [c1]; exact hf)
  have hg' : digest lwe128 aesctr n m R = ok g := hg
  refine ⟨⟨m, R, C, g⟩, ?_, ⟨w1, b1, r1, c1⟩, rfl, rfl, hg', ?_⟩
  · unfold createRandomBinary
    rw [h1, ok_bind, hg', ok_bind]
  · intro i j hi hj
    unfold storedBit
    rw [e1 i j hi hj]
    simp only [BitVec.toNat_and, BitVec.toNat_ushiftRight, Nat.shiftRight_eq_div_pow,
      show (1 : Byte).toNat = 1 from rfl, Nat.and_one_is_mod]

/-- C32, the default client of the 128-bit scheme on a freshly created database, from the random bytes to the returned
bit. -/
theorem C32_end_to_end (aesctr : List Byte → Nat → Byte) (R C : Nat) (data : List Byte) (coins : Coins)
    (hd : data.length = R * C / 8 + 1) (hf : FitsInt 4800 R C) (hR : 84 * R < 2 ^ 32 - 1)
    (hl : coins.noise.length = R) (hno : ∀ g ∈ coins.noise, |g| ≤ 128) (index : Nat) (hidx : index < R * C)
    (hcol : ∀ k, k < C → -(84 * R + 1 : Int) ≤ ∑ r ∈ range R, noise128 (coins.noise.getD r 0) *
      (((data.getD ((r * C + k) / 8) 0).toNat / 2 ^ ((r * C + k) % 8) % 2 : Nat) : Int) ∧
      ∑ r ∈ range R, noise128 (coins.noise.getD r 0) *
      (((data.getD ((r * C + k) / 8) 0).toNat / 2 ^ ((r * C + k) % 8) % 2 : Nat) : Int) < 84 * R)
    (h1 : 168 * R < multiplier 16 coins) (h2 : multiplier 16 coins + 168 * R < 2 ^ 128) :
    ∃ db, createRandomBinary lwe128 aesctr 4800 data R C = ok db ∧
      retrieve lwe128 aesctr (paramsWithDatabaseSize128 R C) C db.digest coins index (answerBytes lwe128 db)
        = ok (BitVec.ofNat 32 ((data.getD (index / 8) 0).toNat / 2 ^ (index % 8) % 2)) := by
  obtain ⟨db, hdb, hv, hr, hc, hg, hbits⟩ := C32_random_database aesctr 4800 R C data hd hf
  have hb : (paramsWithDatabaseSize128 R C).b.toNat = 84 * R := by
    show (computeB R).toNat = _
    unfold computeB
    rw [BitVec.toNat_ofNat]
    omega
  have hs : Setup lwe128 aesctr (paramsWithDatabaseSize128 R C) db coins :=
    ⟨hv, ⟨hr.symm, hc.symm, rfl⟩, hg, by rw [hr, hc]; exact hf, by omega, hno⟩
  have hC : 0 < C := hf.2.2.1
  refine ⟨db, hdb, ?_⟩
  have := C32_honest_retrieval aesctr (paramsWithDatabaseSize128 R C) db coins hs index (by rw [hr, hc]; exact hidx)
    (by rw [hb]; omega) (fun k hk => ?_) (by rw [hb]; omega) (by rw [hb]; omega)
  · rw [hc] at this
    rw [this, hbits _ _ (by rw [Nat.div_lt_iff_lt_mul hC]; exact hidx) (Nat.mod_lt _ hC)]
    rw [Nat.div_add_mod' index C]
  · rw [hb]
    have hk' : k < C := by omega
    have := hcol k hk'
    unfold columnNoise
    rw [hr]
    rw [Finset.sum_congr rfl (fun r hr => by rw [hbits r k (by simpa using hr) hk'])]
    push_cast at this ⊢
    exact this

example : ∃ (data : List Byte) (coins : Coins), data.length = 2 * 1 / 8 + 1 ∧ FitsInt 4800 2 1 ∧
    coins.noise.length = 2 ∧ (∀ g ∈ coins.noise, |g| ≤ 128) ∧ 168 * 2 < multiplier 16 coins ∧
    multiplier 16 coins + 168 * 2 < 2 ^ 128 ∧ noise128 (coins.noise.getD 1 0) = -8 ∧
    (data.getD 0 0).toNat / 2 ^ 0 % 2 = 1 ∧ (data.getD 0 0).toNat / 2 ^ 1 % 2 = 0 := by
  refine ⟨[1], ⟨[0, 0, 0, 128], [], [5, -7]⟩, ?_⟩
  decide

/-- C32, integrity of the 128-bit scheme. -/
theorem C32_wrong_bit_needs_multiplier (aesctr : List Byte → Nat → Byte) (p : Params) (db : Db 128) (coins : Coins)
    (hs : Setup lwe128 aesctr p db coins) (i j : Nat) (hi : i < db.numRows) (hj : j < db.numColumns)
    (hB : p.b.toNat < 2 ^ 32 - 1)
    (hcol : -((p.b.toNat : Int) + 1) ≤ columnNoise (fun r => noise128 (coins.noise.getD r 0)) db.matrix db.numRows j ∧
      columnNoise (fun r => noise128 (coins.noise.getD r 0)) db.matrix db.numRows j < p.b.toNat)
    (st : State 128) (q h ans : Mat 128) (b : U32)
    (hq : query lwe128 aesctr p db.digest coins i j = ok (st, q)) (hh : answer lwe128 db q = ok h)
    (hr : reconstruct lwe128 p st ans = ok b) (hb : b.toNat ≠ storedBit db.matrix i j) :
    Within (2 * p.b.toNat) (ans.entry 0 j - h.entry 0 j - BitVec.ofNat 128 (multiplier 16 coins)) ∨
      Within (2 * p.b.toNat) (ans.entry 0 j - h.entry 0 j + BitVec.ofNat 128 (multiplier 16 coins)) := by
  have := integrity aesctr p (good128 p.b hB) db coins hs i j hi hj (by omega) st q h ans b hq hh hr
    (by intro he; apply hb; rw [he, BitVec.toNat_ofNat]
        rcases bit_cases (w := 128) hs.valid.bin i j with ⟨h, -⟩ | ⟨h, -⟩ <;> rw [h])
  rw [show ((p.b.toNat : Int) + 1 + ((p.b.toNat : Int) - 1)) = 2 * p.b.toNat by ring] at this
  exact this

/-- C32: for a fixed deviation at most `8B + 2` of the 2^128 multipliers satisfy the conclusion above. -/
theorem C32_few_multipliers (B : Nat) (δ : U128) (s : Finset U128)
    (h : ∀ t ∈ s, Within (2 * (B : Int)) (δ - t) ∨ Within (2 * (B : Int)) (δ + t)) :
    s.card ≤ 8 * B + 2 := by
  have := near_card (2 * B) δ s (fun t ht => by
    have := h t ht
    rwa [show (2 * (B : Int)) = ((2 * B : Nat) : Int) by omega] at this)
  omega

/-- The settings of C30 to C32 exist for every size that fits. -/
theorem setup_exists (aesctr : List Byte → Nat → Byte) (R C : Nat) (data : List Byte)
    (hd : data.length = R * C / 8 + 1) (hf : FitsInt 4800 R C) (hf' : FitsInt 1100 R C) (coins : Coins)
    (hl : coins.noise.length = R) (hno : ∀ g ∈ coins.noise, |g| ≤ 128) :
    (∃ db, Setup lwe32 aesctr (paramsWithDatabaseSize R C) db coins ∧ db.numRows = R ∧ db.numColumns = C) ∧
    (∃ db, Setup lwe128 aesctr (paramsWithDatabaseSize128 R C) db coins ∧ db.numRows = R ∧ db.numColumns = C) := by
  obtain ⟨db, -, v, r, c, g, -⟩ := C30_random_database aesctr 1100 R C data hd hf'
  obtain ⟨db', -, v', r', c', g', -⟩ := C32_random_database aesctr 4800 R C data hd hf
  exact ⟨⟨db, ⟨v, ⟨r.symm, c.symm, rfl⟩, g, by rw [r, c]; exact hf', by omega, hno⟩, r, c⟩,
    ⟨db', ⟨v', ⟨r'.symm, c'.symm, rfl⟩, g', by rw [r', c']; exact hf, by omega, hno⟩, r', c'⟩⟩

example (aesctr : List Byte → Nat → Byte) :
    (∃ db, Setup lwe32 aesctr (paramsWithDatabaseSize 3 3) db ⟨[0, 0, 0, 64], [], [1, -2, 128]⟩ ∧ db.numRows = 3 ∧
      db.numColumns = 3) ∧
    (∃ db, Setup lwe128 aesctr (paramsWithDatabaseSize128 3 3) db ⟨[0, 0, 0, 64], [], [1, -2, 128]⟩ ∧ db.numRows = 3 ∧
      db.numColumns = 3) :=
  setup_exists aesctr 3 3 [0b10110101, 1] (by decide) (by decide) (by decide) _ (by decide) (by decide)

/-! ### C48 -/

/-- C48: the published digest is the product of the very matrix the client derives and the stored bits, in every
position, for both schemes. -/
theorem C48_digest_uses_client_matrix {S : Scheme w} {lo hi : Int} {nz : Int → Int}
    (aesctr : List Byte → Nat → Byte) (p : Params) (G : Good S lo hi nz p.b) (db : Db w) (coins : Coins)
    (hs : Setup S aesctr p db coins) (i j : Nat) (st : State w) (q : Mat w)
    (hq : query S aesctr p db.digest coins i j = ok (st, q)) :
    IsProduct p.n db.numRows db.numColumns st.a.entry (bitAs w db.matrix) db.digest.entry := by
  obtain ⟨g, hg, rg, cg, wg, eg⟩ := G.bin (seedMatrix aesctr w S.k seedMatrixA p.n db.numRows) db.matrix
    (seedMatrix_wf _ _ _ _ _) hs.valid.wf hs.valid.bin hs.valid.rows.symm (by rw [hs.valid.cols]; exact hs.fits)
  have hd := hs.digest
  unfold digest at hd
  rw [hg] at hd
  simp only [ok.injEq] at hd
  subst hd
  have ha : st.a = seedMatrix aesctr w S.k p.seedA p.n p.l := by
    unfold query at hq
    dsimp only at hq
    rw [rand_get, ok_bind] at hq
    rw [Res.bind_eq_ok] at hq
    obtain ⟨_, -, hq⟩ := hq
    rw [Res.bind_eq_ok] at hq
    obtain ⟨_, -, hq⟩ := hq
    rw [Res.bind_eq_ok] at hq
    obtain ⟨_, -, hq⟩ := hq
    rw [Res.bind_eq_ok] at hq
    obtain ⟨_, -, hq⟩ := hq
    rw [Res.bind_eq_ok] at hq
    obtain ⟨_, -, hq⟩ := hq
    simp only [ok.injEq, Prod.mk.injEq] at hq
    rw [← hq.1]
  rw [ha, hs.params.seed, hs.params.l]
  have := eg
  rw [hs.valid.cols] at this
  exact this

/-- C48: the matrix is a function of seed and dimensions alone: entry `(i, j)` is the little-endian word number
`i * c + j` of the seed's key stream, also when the whole matrix is shorter than a cipher block. -/
theorem C48_matrix_is_key_stream (aesctr : List Byte → Nat → Byte) (w k : Nat) (seed : List Byte) (r c i j : Nat)
    (hi : i < r) (hj : j < c) :
    (seedMatrix aesctr w k seed r c).entry i j =
      BitVec.ofNat w (ofLE ((List.range k).map (fun m => aesctr seed (k * (i * c + j) + m)))) := by
  obtain ⟨g', hg, -⟩ := Rand.read_zero (Rand.newPRG aesctr seed) (k * r * c)
  unfold seedMatrix
  rw [hg]
  have hlt := pos_lt hi hj
  unfold Mat.entry ofRandom
  simp only [List.getD, List.getElem?_map, List.getElem?_range hlt]
  show BitVec.ofNat w (ofLE (((Rand.keyStream (aesctr seed) 0 (k * r * c)).drop (k * (i * c + j))).take k)) = _
  congr 2
  unfold Rand.keyStream
  have hle : k * (i * c + j) + k ≤ k * r * c := by
    calc k * (i * c + j) + k = k * (i * c + j + 1) := by ring
      _ ≤ k * (r * c) := Nat.mul_le_mul_left k hlt
      _ = k * r * c := by ring
  apply List.ext_getElem
  · simp; omega
  · intro m h1 h2
    simp

example : (1 : Nat) < 2 ∧ (2 : Nat) < 3 := by decide

/-! ### C56 -/

/-- C56, the claim: the 32-bit server computes an answer (or refuses) without undefined behaviour for every query
with one row, whatever follows the header. -/
def C56_Statement : Prop :=
  ∀ (db : Db 32) (q : List Byte), db.Valid → FitsInt 1 db.numRows db.numColumns →
    answerBytes lwe32 db q ≠ crash "undefined behaviour: read out of bounds"

/-- C56 is false: a query that announces as many entries as the database has rows but carries only one makes the C
kernel read past the end of the query. -/
theorem C56_refuted : ¬ C56_Statement := by
  intro h
  refine h ⟨⟨2, 1, [1, 1]⟩, 2, 1, ⟨1, 1, [0]⟩⟩ [0, 0, 0, 1, 0, 0, 0, 2, 0, 0, 0, 7]
    ⟨rfl, ?_, rfl, rfl⟩ (by decide) (by decide)
  intro x hx
  simp at hx
  exact Or.inr hx

/-- C56, what holds: a query carrying at least the announced entries is answered. Missing: shorter ones. -/
theorem C56_complete_queries_partial (db : Db 32) (hv : db.Valid) (q : Mat 32) (hr : q.rows < 2 ^ 32)
    (hq : q.cols = db.numRows) (hf : FitsInt q.rows db.numRows db.numColumns)
    (hlen : q.rows * q.cols ≤ q.data.length) :
    ∃ a, (matrixToBytes q >>= answerBytes lwe32 db) = ok a := by
  have hrt := C37_matrix_round_trip q hr (by rw [hq]; have := hf.2.2.2.2.1; omega)
  rw [matrixToBytes_eq, ok_bind] at hrt
  rw [matrixToBytes_eq, ok_bind]
  obtain ⟨c, hc, -⟩ := mulGo_spec andOp q db.matrix (by rw [hq, hv.rows])
    (by rw [hq, hv.cols]; exact hf) hlen (Nat.le_of_eq hv.wf.symm)
  refine ⟨enc c, ?_⟩
  unfold answerBytes
  show (bytesToMatrix (enc q) >>= fun m => answer lwe32 db m >>= fun a => matrixToBytes a) = _
  rw [hrt, ok_bind]
  show (mulGo andOp q db.matrix >>= fun a => matrixToBytes a) = _
  rw [hc, ok_bind, matrixToBytes_eq]

theorem pack_short {w : Nat} (q : Mat w) (hlen : q.data.length ≤ q.rows * q.cols) :
    pack q = ok (q.data ++ List.replicate (q.rows * q.cols - q.data.length) 0) := by
  unfold pack
  rw [forLoop_set q.data.length 0 (fun i => q.data.getD i 0) _ _ ?_ (by simpa using hlen)]
  · congr 1
    rw [range_map_getElem? q.data _ (fun i hi => by simp [hi])]
    simp
  · intro i t hi ht
    rw [idx_getD 0 hi, ok_bind, Nat.zero_add]

/-- C56 for the 128-bit server: missing entries are read as zero, because the kernel runs on a zeroed copy. So a
short query is answered like the query with the missing entries zero, and the kernel stays within its buffers. -/
theorem C56_128_short_query (db : Db 128) (hv : db.Valid) (q : Mat 128)
    (hq : q.cols = db.numRows) (hf : FitsInt q.rows db.numRows db.numColumns)
    (hlen : q.data.length ≤ q.rows * q.cols) :
    ∃ a, answer lwe128 db q = ok a ∧
      answer lwe128 db ⟨q.rows, q.cols, q.data ++ List.replicate (q.rows * q.cols - q.data.length) 0⟩ = ok a := by
  have hwf : (⟨q.rows, q.cols, q.data ++ List.replicate (q.rows * q.cols - q.data.length) 0⟩ : Mat 128).WellFormed := by
    simp only [Mat.WellFormed, List.length_append, List.length_replicate]; omega
  have hp' := pack_eq (⟨q.rows, q.cols, q.data ++ List.replicate (q.rows * q.cols - q.data.length) 0⟩ : Mat 128) hwf
  obtain ⟨c, hc, -⟩ := binaryMul128_spec
    (⟨q.rows, q.cols, q.data ++ List.replicate (q.rows * q.cols - q.data.length) 0⟩ : Mat 128) db.matrix
    (by show q.cols = _; rw [hq, hv.rows]) (by show FitsInt q.rows q.cols _; rw [hq, hv.cols]; exact hf) hwf hv.wf
  refine ⟨c, ?_, hc⟩
  rw [← hc]
  show binaryMul128 _ _ = binaryMul128 _ _
  unfold binaryMul128
  rw [pack_short q hlen, hp']

example : (⟨1, 3, [7]⟩ : Mat 128).data.length ≤ 1 * 3 ∧ FitsInt 1 3 2 := by decide

/-- C56 for the 128-bit server: a query with more entries than announced makes the server panic. -/
theorem C56_128_long_query_panics (db : Db 128) (q : Mat 128) (hlen : q.rows * q.cols < q.data.length) :
    (answer lwe128 db q).isCrash := by
  have hp : (pack q).isCrash := by
    obtain ⟨m, hm⟩ : ∃ m, q.data.length = q.rows * q.cols + 1 + m := ⟨q.data.length - (q.rows * q.cols + 1), by omega⟩
    unfold pack
    rw [hm, forLoop_append, forLoop_succ,
      forLoop_set (q.rows * q.cols) 0 (fun i => q.data.getD i 0) _ _ ?_ (by simp)]
    · rw [ok_bind, idx_getD 0 (by omega), ok_bind]
      unfold setAt
      rw [if_neg (by simp)]
      trivial
    · intro i t hi ht
      rw [idx_getD 0 (by omega), ok_bind, Nat.zero_add]
  show (binaryMul128 _ _).isCrash
  unfold binaryMul128
  split
  · trivial
  · cases h : pack q with
    | ok x => rw [h] at hp; simp at hp
    | err m => rw [h] at hp; simp at hp
    | crash m => trivial

example : 1 * 2 < (⟨1, 2, [7, 8, 9]⟩ : Mat 128).data.length := by decide

end Verif.Lwe
