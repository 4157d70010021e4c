import Verif.Lemmas.Lwe

set_option linter.unusedSimpArgs false

namespace Verif.Lwe
open Res Verif.Matrix Verif.Utils Finset

variable {w : Nat}

/-- The multiplier drawn by the client: little-endian value of the first `k` bytes. -/
def coinT (S : Scheme w) (coins : Coins) : BitVec w := BitVec.ofNat w (ofLE (coins.tBytes.take S.k))

theorem rand_get (S : Scheme w) (b : List Byte) :
    (ofRandom w S.k 1 1 b).get 0 0 = ok (BitVec.ofNat w (ofLE (b.take S.k))) := by
  simp [ofRandom, Mat.get, idx]

theorem fits_1nl {n r c : Nat} (h : FitsInt n r c) : FitsInt 1 n r ∧ FitsInt 1 r c ∧ FitsInt 1 n c := by
  obtain ⟨h1, h2, h3, h4, h5, h6, h7, h8, h9⟩ := h
  refine ⟨⟨?_, ?_, ?_, ?_, ?_, ?_, ?_, ?_, ?_⟩, ⟨?_, ?_, ?_, ?_, ?_, ?_, ?_, ?_, ?_⟩,
    ⟨?_, ?_, ?_, ?_, ?_, ?_, ?_, ?_, ?_⟩⟩ <;> omega

/-- Column entry `r` of a fresh query. -/
def queryEntry (A s : Nat → Nat → BitVec w) (n : Nat) (e : Nat → BitVec w) (i : Nat) (t : BitVec w) (r : Nat) :
    BitVec w := (∑ k ∈ range n, s 0 k * A k r) + e r + (if r = i then t else 0)

theorem query_spec {S : Scheme w} {lo hi : Int} {nz : Int → Int} (aesctr : List Byte → Nat → Byte) (p : Params)
    (G : Good S lo hi nz p.b) (dg : Mat w) (coins : Coins) (i j : Nat) (hf : FitsInt 1 p.n p.l)
    (hlen : coins.noise.length = p.l) (hno : ∀ g ∈ coins.noise, |g| ≤ 128) (hi' : i < p.l) :
    ∃ q, query S aesctr p dg coins i j = ok (⟨seedMatrix aesctr w S.k p.seedA p.n p.l, dg,
        ofRandom w S.k 1 p.n coins.sBytes, i, j, coinT S coins⟩, q) ∧
      q.rows = 1 ∧ q.cols = p.l ∧ q.WellFormed ∧
      ∀ r, r < p.l → q.entry 0 r = queryEntry (seedMatrix aesctr w S.k p.seedA p.n p.l).entry
        (ofRandom w S.k 1 p.n coins.sBytes).entry p.n
        (fun r => BitVec.ofInt w (nz (coins.noise.getD r 0))) i (coinT S coins) r := by
  obtain ⟨q0, h0, r0, c0, w0, e0⟩ := G.mul (ofRandom w S.k 1 p.n coins.sBytes)
    (seedMatrix aesctr w S.k p.seedA p.n p.l) (ofRandom_wf _ _ _ _) (seedMatrix_wf _ _ _ _ _) rfl hf
  obtain ⟨e, h1, r1, c1, w1, e1⟩ := C38_noise_matrix S.gauss 1 p.l coins.noise (by omega)
  obtain ⟨m, h2, r2, c2, w2, e2⟩ := msg_spec p.l i (coinT S coins) hi'
  have r0' : q0.rows = 1 := r0
  have c0' : q0.cols = p.l := c0
  obtain ⟨q1, h3, r3, c3, w3, e3⟩ := add_spec q0 e (by omega) (by omega) w0 w1
  obtain ⟨q2, h4, r4, c4, w4, e4⟩ := add_spec q1 m (by omega) (by omega) w3 w2
  refine ⟨q2, ?_, by omega, by omega, w4, fun r hr => ?_⟩
  · unfold query
    dsimp only
    rw [rand_get, ok_bind]
    rw [h0, ok_bind, h1, ok_bind]
    have h2' := h2
    unfold coinT at h2'
    rw [h2', ok_bind, h3, ok_bind, h4, ok_bind]
    rfl
  · rw [e4 0 r (by omega) (by omega), e3 0 r (by omega) (by omega), e2 r hr, e1 0 r (by omega) hr,
      e0 0 r (by show 0 < 1; omega) hr]
    unfold queryEntry
    rw [Nat.zero_mul, Nat.zero_add]
    have hg : |coins.noise.getD r 0| ≤ 128 := by
      have : coins.noise.getD r 0 = coins.noise[r]'(by omega) := by simp [List.getD, show r < coins.noise.length by omega]
      rw [this]
      exact hno _ (List.getElem_mem _)
    rw [G.gauss _ hg]
    rfl

/-- The algebra of the scheme: what remains of an honest answer after subtracting the secret's share of the digest. -/
theorem core_identity (A D s g : Nat → Nat → BitVec w) (n R i k : Nat) (e : Nat → BitVec w) (t : BitVec w)
    (hi : i < R) (hg : ∀ m, m < n → g m k = ∑ r ∈ range R, A m r * D r k) :
    (∑ r ∈ range R, queryEntry A s n e i t r * D r k) - ∑ m ∈ range n, s 0 m * g m k
      = (∑ r ∈ range R, e r * D r k) + t * D i k := by
  have h1 : ∑ m ∈ range n, s 0 m * g m k = ∑ r ∈ range R, (∑ m ∈ range n, s 0 m * A m r) * D r k := by
    rw [Finset.sum_congr rfl (fun m hm => by rw [hg m (by simpa using hm), Finset.mul_sum]),
      Finset.sum_comm]
    refine Finset.sum_congr rfl fun r _ => ?_
    rw [Finset.sum_mul]
    exact Finset.sum_congr rfl fun m _ => by ring
  have h2 : ∑ r ∈ range R, (if r = i then t else 0) * D r k = t * D i k := by
    rw [Finset.sum_eq_single i]
    · rw [if_pos rfl]
    · intro r _ hr
      rw [if_neg hr, zero_mul]
    · intro h
      exact absurd (Finset.mem_range.mpr hi) h
  rw [h1, ← h2]
  unfold queryEntry
  rw [Finset.sum_congr rfl (fun r _ => by rw [add_mul, add_mul]), Finset.sum_add_distrib, Finset.sum_add_distrib]
  ring

theorem noise_cast (e : Nat → Int) (m : Mat 8) (R k : Nat) :
    ∑ r ∈ range R, BitVec.ofInt w (e r) * bitAs w m r k = BitVec.ofInt w (columnNoise e m R k) := by
  unfold columnNoise
  induction R with
  | zero => simp
  | succ R ih =>
    rw [Finset.sum_range_succ, Finset.sum_range_succ, ih, BitVec.ofInt_add, BitVec.ofInt_mul]
    rfl

/-- Everything the honest parties compute. -/
theorem honest_values {S : Scheme w} {lo hi : Int} {nz : Int → Int} (aesctr : List Byte → Nat → Byte) (p : Params)
    (G : Good S lo hi nz p.b) (db : Db w) (hv : db.Valid) (hp : ParamsFor p db)
    (hd : digest S aesctr p.n db.matrix db.numRows = ok db.digest)
    (hf : FitsInt p.n db.numRows db.numColumns) (coins : Coins)
    (hlen : coins.noise.length = db.numRows) (hno : ∀ g ∈ coins.noise, |g| ≤ 128) (i j : Nat)
    (hi' : i < db.numRows) :
    ∃ st q h std, query S aesctr p db.digest coins i j = ok (st, q) ∧ answer S db q = ok h ∧
      S.mul st.secret st.digest = ok std ∧ st.t = coinT S coins ∧ st.i = i ∧ st.j = j ∧ st.digest = db.digest ∧
      st.a = seedMatrix aesctr w S.k p.seedA p.n p.l ∧
      q.rows = 1 ∧ q.cols = db.numRows ∧ q.WellFormed ∧
      h.rows = 1 ∧ h.cols = db.numColumns ∧ h.WellFormed ∧
      std.rows = 1 ∧ std.cols = db.numColumns ∧ std.WellFormed ∧
      ∀ k, k < db.numColumns → h.entry 0 k - std.entry 0 k =
        BitVec.ofInt w (columnNoise (fun r => nz (coins.noise.getD r 0)) db.matrix db.numRows k) +
          coinT S coins * bitAs w db.matrix i k := by
  obtain ⟨f1, f2, f3⟩ := fits_1nl hf
  have hl : p.l = db.numRows := hp.l
  obtain ⟨q, hq, rq, cq, wq, eq⟩ := query_spec aesctr p G db.digest coins i j (by rw [hl]; exact f1)
    (by omega) hno (by omega)
  obtain ⟨h, hh, rh, ch, wh, eh⟩ := G.bin q db.matrix wq hv.wf hv.bin (by rw [cq, hl, hv.rows])
    (by rw [rq, cq, hl, hv.cols]; exact f2)
  obtain ⟨g, hg, rg, cg, wg, eg⟩ := G.bin (seedMatrix aesctr w S.k seedMatrixA p.n db.numRows) db.matrix
    (seedMatrix_wf _ _ _ _ _) hv.wf hv.bin hv.rows.symm (by rw [hv.cols]; exact hf)
  unfold digest at hd
  rw [hg] at hd
  simp only [ok.injEq] at hd
  have rg' : g.rows = p.n := rg
  obtain ⟨std, hs, rs, cs, ws, es⟩ := G.mul (ofRandom w S.k 1 p.n coins.sBytes) g (ofRandom_wf _ _ _ _) wg
    rg'.symm (by rw [cg, hv.cols]; exact f3)
  refine ⟨_, q, h, std, hq, hh, by rw [← hd]; exact hs, rfl, rfl, rfl, rfl, rfl, rq, by rw [cq, hl], wq, by rw [rh, rq],
    by rw [ch, hv.cols], wh, rs, by rw [cs, cg, hv.cols], ws, fun k hk => ?_⟩
  rw [eh 0 k (by rw [rq]; omega) (by rw [hv.cols]; exact hk), es 0 k (by show 0 < 1; omega) (by rw [cg, hv.cols]; exact hk)]
  rw [cq, hl]
  rw [Finset.sum_congr rfl (fun r hr => by rw [eq r (by rw [hl]; simpa using hr)])]
  rw [← noise_cast]
  have hseed : seedMatrix aesctr w S.k p.seedA p.n p.l = seedMatrix aesctr w S.k seedMatrixA p.n db.numRows := by
    rw [hp.seed, hl]
  rw [hseed]
  exact core_identity _ (bitAs w db.matrix) _ g.entry p.n db.numRows i k _ _ hi' (fun m hm =>
    eg m k hm (by rw [hv.cols]; exact hk))

theorem bit_cases {m : Mat 8} (hb : m.Binary) (i k : Nat) :
    (storedBit m i k = 0 ∧ bitAs w m i k = 0) ∨ (storedBit m i k = 1 ∧ bitAs w m i k = 1) := by
  unfold storedBit bitAs
  rcases entry_binary hb i k with h | h <;> rw [h]
  · left; exact ⟨rfl, by simp⟩
  · right; exact ⟨rfl, by simp⟩

/-- How a column value is read when the multiplier is far from zero. -/
theorem verdict_honest {S : Scheme w} {lo hi : Int} {nz : Int → Int} {b : U32} (G : Good S lo hi nz b)
    (t : BitVec w) (hfar : ¬ Within (lo + hi) t) (x : Int) (hx : -lo ≤ x ∧ x ≤ hi) (m : Mat 8) (hb : m.Binary)
    (i k : Nat) (v : BitVec w) (hv : v = BitVec.ofInt w x + t * bitAs w m i k) :
    (S.inRange b v = true ∨ S.inRange b (v - t) = true) ∧
      verdict S b v = BitVec.ofNat 32 (storedBit m i k) := by
  have hr : S.inRange b (BitVec.ofInt w x) = true := (G.range _).mpr ⟨x, hx.1, hx.2, rfl⟩
  rcases bit_cases (w := w) hb i k with ⟨h1, h2⟩ | ⟨h1, h2⟩
  · rw [h2, mul_zero, add_zero] at hv
    rw [hv, h1]
    exact ⟨Or.inl hr, by unfold verdict; rw [if_pos hr]; rfl⟩
  · rw [h2, mul_one] at hv
    have hne : ¬ S.inRange b v = true := by
      intro hc
      obtain ⟨y, hy1, hy2, hy⟩ := (G.range _).mp hc
      apply hfar
      refine ⟨y - x, by rw [abs_le]; omega, ?_⟩
      have : t = v - BitVec.ofInt w x := by rw [hv]; ring
      rw [this, hy, sub_eq_add_neg y x, BitVec.ofInt_add, BitVec.ofInt_neg, BitVec.sub_eq_add_neg]
    have hvt : v - t = BitVec.ofInt w x := by rw [hv]; ring
    rw [hvt, h1]
    exact ⟨Or.inr hr, by unfold verdict; rw [if_neg hne]; rfl⟩

theorem data_entry {m : Mat w} (k : Nat) : m.entry 0 k = m.data.getD k 0 := by
  unfold Mat.entry
  rw [Nat.zero_mul, Nat.zero_add]

/-- Honest answer: accepted, and every column is read as the stored bit. -/
theorem reconstruct_honest {S : Scheme w} {lo hi : Int} {nz : Int → Int} (aesctr : List Byte → Nat → Byte)
    (p : Params)
    (G : Good S lo hi nz p.b) (db : Db w) (hv : db.Valid) (hp : ParamsFor p db)
    (hd : digest S aesctr p.n db.matrix db.numRows = ok db.digest)
    (hf : FitsInt p.n db.numRows db.numColumns) (coins : Coins)
    (hlen : coins.noise.length = db.numRows) (hno : ∀ g ∈ coins.noise, |g| ≤ 128) (i j : Nat)
    (hi' : i < db.numRows) (hj : j < db.numColumns)
    (hcol : ∀ k, k < db.numColumns →
      -lo ≤ columnNoise (fun r => nz (coins.noise.getD r 0)) db.matrix db.numRows k ∧
      columnNoise (fun r => nz (coins.noise.getD r 0)) db.matrix db.numRows k ≤ hi)
    (hfar : ¬ Within (lo + hi) (coinT S coins)) :
    ∃ st q h, query S aesctr p db.digest coins i j = ok (st, q) ∧ answer S db q = ok h ∧
      (q.rows = 1 ∧ q.cols = db.numRows ∧ q.WellFormed ∧ h.rows = 1 ∧ h.cols = db.numColumns ∧ h.WellFormed) ∧
      reconstruct S p st h = ok (BitVec.ofNat 32 (storedBit db.matrix i j)) := by
  obtain ⟨st, q, h, std, h1, h2, h3, h4, h5, h6, h7, -, rq, cq, wq, rh, ch, wh, rs, cs, ws, hval⟩ :=
    honest_values aesctr p G db hv hp hd hf coins hlen hno i j hi'
  refine ⟨st, q, h, h1, h2, ⟨rq, cq, wq, rh, ch, wh⟩, ?_⟩
  obtain ⟨d, hdd, rd, cd, wd, ed⟩ := sub_spec h std (by omega) (by omega) wh ws
  have hm : p.m = db.numColumns := hp.m
  have hver : ∀ k, k < p.m → (S.inRange p.b (d.data.getD k 0) = true ∨
      S.inRange p.b (d.data.getD k 0 - st.t) = true) ∧
      verdict S p.b (d.data.getD k 0) = BitVec.ofNat 32 (storedBit db.matrix i k) := by
    intro k hk
    have hk' : k < db.numColumns := by omega
    have e := ed 0 k (by omega) (by omega)
    rw [hval k hk', data_entry] at e
    rw [h4]
    exact verdict_honest G (coinT S coins) hfar _ (hcol k hk') db.matrix hv.bin i k _ e
  obtain ⟨outs, ho, hol, hoe⟩ := decide_spec S p.b st.t d p.m
    (by rw [wd, rd, cd, rh, ch, hm]; omega) (fun k hk => (hver k hk).1)
  unfold reconstruct
  rw [h3, ok_bind, hdd, ok_bind, ho, ok_bind, h6, idx_getD 0 (by omega), hoe j (by omega),
    (hver j (by omega)).2]

end Verif.Lwe
