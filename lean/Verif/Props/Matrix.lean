import Verif.Lemmas.MatrixWire

/-! # C36 (matrix products), C37 (matrix wire formats), C38 (noise): lib/matrix, lib/utils/gauss.go -/

namespace Verif.Matrix
open Res Verif.Utils Finset

/-! ### C36 -/

/-- C36, the claim for the 32-bit product without a restriction on sizes. -/
def C36_Statement : Prop :=
  ∀ a b : Mat 32, a.WellFormed → b.WellFormed → 0 < a.rows → 0 < a.cols → 0 < b.cols → a.cols = b.rows →
    ∃ c, mul a b = ok c ∧ c.rows = a.rows ∧ c.cols = b.cols ∧ c.WellFormed ∧
      IsProduct a.rows a.cols b.cols a.entry b.entry c.entry

/-- C36, 32-bit `Mul`: exact inner products modulo 2^32 whenever the index computations fit C's `int`.
Missing for the full claim: larger matrices (`C36_refuted`) and matrices without entries, on which `Mul` panics. -/
theorem C36_mul_partial (a b : Mat 32) (ha : a.WellFormed) (hb : b.WellFormed) (h : a.cols = b.rows)
    (hf : FitsInt a.rows a.cols b.cols) :
    ∃ c, mul a b = ok c ∧ c.rows = a.rows ∧ c.cols = b.cols ∧ c.WellFormed ∧
      IsProduct a.rows a.cols b.cols a.entry b.entry c.entry :=
  mulGo_spec mulOp a b h hf (Nat.le_of_eq ha.symm) (Nat.le_of_eq hb.symm)

/-- C36, 128-bit `Mul128`. -/
theorem C36_mul128_partial (a b : Mat 128) (ha : a.WellFormed) (hb : b.WellFormed) (h : a.cols = b.rows)
    (hf : FitsInt a.rows a.cols b.cols) :
    ∃ c, mul128 a b = ok c ∧ c.rows = a.rows ∧ c.cols = b.cols ∧ c.WellFormed ∧
      IsProduct a.rows a.cols b.cols a.entry b.entry c.entry :=
  mul128_spec a b h hf ha hb

/-- C36, `BinaryMul`: for a matrix of zeros and ones the masking by `-b` is the product. -/
theorem C36_binaryMul_partial (a : Mat 32) (b : Mat 8) (ha : a.WellFormed) (hb : b.WellFormed)
    (hbin : b.Binary) (h : a.cols = b.rows) (hf : FitsInt a.rows a.cols b.cols) :
    ∃ c, binaryMul a b = ok c ∧ c.rows = a.rows ∧ c.cols = b.cols ∧ c.WellFormed ∧
      IsProduct a.rows a.cols b.cols a.entry (bitAs 32 b) c.entry := by
  obtain ⟨c, h1, h2, h3, h4, h5⟩ := mulGo_spec andOp a b h hf (Nat.le_of_eq ha.symm) (Nat.le_of_eq hb.symm)
  refine ⟨c, h1, h2, h3, h4, fun i j hi hj => ?_⟩
  rw [h5 i j hi hj]
  exact Finset.sum_congr rfl fun k _ => andOp_bit _ (entry_binary hbin k j)

/-- C36, `BinaryMul128`. -/
theorem C36_binaryMul128_partial (a : Mat 128) (b : Mat 8) (ha : a.WellFormed) (hb : b.WellFormed)
    (hbin : b.Binary) (h : a.cols = b.rows) (hf : FitsInt a.rows a.cols b.cols) :
    ∃ c, binaryMul128 a b = ok c ∧ c.rows = a.rows ∧ c.cols = b.cols ∧ c.WellFormed ∧
      IsProduct a.rows a.cols b.cols a.entry (bitAs 128 b) c.entry := by
  obtain ⟨c, h1, h2, h3, h4, h5⟩ := binaryMul128_spec a b h hf ha hb
  refine ⟨c, h1, h2, h3, h4, fun i j hi hj => ?_⟩
  rw [h5 i j hi hj]
  exact Finset.sum_congr rfl fun k _ => andOp_bit _ (entry_binary hbin k j)

example : (⟨2, 2, [1, 2, 3, 4]⟩ : Mat 32).WellFormed ∧ (⟨2, 1, [1, 0]⟩ : Mat 8).WellFormed ∧
    (⟨2, 1, [1, 0]⟩ : Mat 8).Binary ∧ FitsInt 2 2 1 ∧
    binaryMul ⟨2, 2, [1, 2, 3, 4]⟩ ⟨2, 1, [1, 0]⟩ = ok ⟨2, 1, [1, 3]⟩ := by
  refine ⟨rfl, rfl, ?_, by decide, by decide⟩
  intro x hx
  simp at hx
  tauto

/-- C36: dimension mismatches are refused (the call panics), whatever the contents. -/
theorem C36_mismatch_refused (a b : Mat 32) (a' b' : Mat 128) (d : Mat 8) :
    (a.cols ≠ b.rows → (mul a b).isCrash) ∧ (a.cols ≠ d.rows → (binaryMul a d).isCrash) ∧
    (a'.cols ≠ b'.rows → (mul128 a' b').isCrash) ∧ (a'.cols ≠ d.rows → (binaryMul128 a' d).isCrash) := by
  refine ⟨fun h => ?_, fun h => ?_, fun h => ?_, fun h => ?_⟩
  · unfold mul mulGo; rw [if_pos h]; simp
  · unfold binaryMul mulGo; rw [if_pos h]; simp
  · unfold mul128; rw [if_pos h]; simp
  · unfold binaryMul128; rw [if_pos h]; simp

example : (⟨1, 2, [1, 2]⟩ : Mat 32).cols ≠ (⟨1, 1, [5]⟩ : Mat 32).rows := by decide

/-- C36 needs the bound: a product that was computed without undefined behaviour fits `int`, and the matrices hold
all the entries their dimensions announce. -/
theorem C36_computed_only_if_fits {w v : Nat} (op : BitVec w → BitVec v → BitVec w) (a : Mat w) (b : Mat v)
    (c : Mat w) (hr : a.rows < 2 ^ 31) (hn : a.cols < 2 ^ 31) (hs : b.cols < 2 ^ 31)
    (h : mulGo op a b = ok c) (h0 : 0 < a.cols) :
    FitsInt a.rows a.cols b.cols ∧ a.rows * a.cols ≤ a.data.length ∧ b.rows * b.cols ≤ b.data.length := by
  unfold mulGo at h
  by_cases hd : a.cols = b.rows
  · rw [if_neg (by simpa using hd)] at h
    rw [Res.bind_eq_ok] at h
    obtain ⟨x, hx, h⟩ := h
    rw [Res.bind_eq_ok] at h
    obtain ⟨y, hy, h⟩ := h
    rw [Res.bind_eq_ok] at h
    obtain ⟨z, hz, h⟩ := h
    rw [Res.bind_eq_ok] at h
    obtain ⟨t, ht, h⟩ := h
    have hpos : 0 < a.rows * b.cols := by
      rw [idx_eq_ok] at hz
      by_contra hc
      have : a.rows * b.cols = 0 := by omega
      simp [new, this] at hz
    have h1 : 0 < a.rows := Nat.pos_of_ne_zero fun e => by simp [e] at hpos
    have h2 : 0 < b.cols := Nat.pos_of_ne_zero fun e => by simp [e] at hpos
    obtain ⟨f1, f2, f3⟩ := kernel_fits op _ _ _ hr hn hs h1 h0 h2 _ _ _ _ ht
    exact ⟨f1, f2, by rw [← hd]; exact f3⟩
  · rw [if_pos hd] at h
    cases h

example : ∃ c, mulGo mulOp (⟨1, 1, [3]⟩ : Mat 32) (⟨1, 1, [5]⟩ : Mat 32) = ok c := ⟨⟨1, 1, [15]⟩, by decide⟩

/-- C36 is false for large matrices: the 2^16 × 1 by 1 × 2^16 product overflows the C index arithmetic. -/
theorem C36_refuted : ¬ C36_Statement := by
  intro h
  obtain ⟨n, hn⟩ : ∃ n : Nat, n = 65536 := ⟨_, rfl⟩
  obtain ⟨c, hc, -⟩ := h ⟨n, 1, List.replicate n 1⟩ ⟨1, n, List.replicate n 1⟩
    (by simp only [Mat.WellFormed, List.length_replicate]; omega)
    (by simp only [Mat.WellFormed, List.length_replicate]; omega) (by simp only; omega) (by simp only; omega)
    (by simp only; omega) rfl
  have h1 := (C36_computed_only_if_fits mulOp _ _ c (by simp only; omega) (by simp only; omega)
    (by simp only; omega) hc (by simp only; omega)).1
  have h2 : n * n ≤ 2 ^ 31 := h1.2.2.2.2.2.2.2.2
  rw [hn] at h2
  omega

/-- C36: `BinaryMul` is the product only on bits; on the byte 2 it masks. -/
theorem C36_binary_needs_bits : binaryMul ⟨1, 1, [3]⟩ ⟨1, 1, [2]⟩ = ok ⟨1, 1, [2]⟩ := by decide

/-! ### C37 -/

/-- C37, 32-bit matrices: decoding an encoding gives the matrix back; encoding never fails. -/
theorem C37_matrix_round_trip (m : Mat 32) (hr : m.rows < 2 ^ 32) (hc : m.cols < 2 ^ 32) :
    (matrixToBytes m >>= bytesToMatrix) = ok m := by
  rw [matrixToBytes_eq, ok_bind, bytesToMatrix_enc m hr hc]

/-- C37, 128-bit matrices. -/
theorem C37_matrix128_round_trip (m : Mat 128) (hr : m.rows < 2 ^ 32) (hc : m.cols < 2 ^ 32) :
    (matrix128ToBytes m >>= bytesToMatrix128) = ok m := by
  rw [matrix128ToBytes_eq, ok_bind, bytesToMatrix128_enc m hr hc]

example : matrixToBytes ⟨1, 2, [7, 0x01020304]⟩ = ok [0, 0, 0, 1, 0, 0, 0, 2, 0, 0, 0, 7, 1, 2, 3, 4] := by decide

/-- C37, lists: the claim with dimensions below 2^32 as the only bound. -/
def C37_Statement : Prop :=
  ∀ (ms : List (Mat 32)) (r c : Nat), ms ≠ [] → r < 2 ^ 32 → c < 2 ^ 32 →
    (∀ m ∈ ms, m.rows = r ∧ m.cols = c ∧ m.WellFormed) →
    (matricesToBytes ms >>= bytesToMatrices) = ok ms

/-- C37, lists: holds when one encoded matrix is shorter than 2^32 bytes and there are fewer than 2^32 matrices.
Missing for the full claim: larger encodings, whose length does not fit its four-byte field (`C37_refuted`). -/
theorem C37_matrices_round_trip_partial (ms : List (Mat 32)) (r c : Nat) (hne : ms ≠ []) (hr : r < 2 ^ 32)
    (hc : c < 2 ^ 32) (hn : ms.length < 2 ^ 32) (hL : 8 + 4 * (r * c) < 2 ^ 32)
    (hd : ∀ m ∈ ms, m.rows = r ∧ m.cols = c ∧ m.WellFormed) :
    (matricesToBytes ms >>= bytesToMatrices) = ok ms := by
  have hlen : ∀ m ∈ ms, m.data.length = r * c := by
    intro m hm
    obtain ⟨h1, h2, h3⟩ := hd m hm
    rw [h3, h1, h2]
  cases ms with
  | nil => exact absurd rfl hne
  | cons m0 ms =>
    have h0 := hd m0 (by simp)
    have hl0 := hlen m0 (by simp)
    rw [matricesToBytes_eq m0 ms (fun m hm => ?_), ok_bind,
      bytesToMatrices_encAll _ _ (by rw [enc_length, hl0]; exact hL) (by rw [enc_length]; omega) hn ?_]
    · intro m hm
      obtain ⟨h1, h2, -⟩ := hd m hm
      rw [enc_length, enc_length, hl0, hlen m hm, h1, h2]
      exact ⟨hr, hc, rfl⟩
    · obtain ⟨h1, h2, -⟩ := hd m (by simp [hm])
      rw [h1, h2, hlen m (by simp [hm]), hl0]
      exact ⟨h0.1.symm, h0.2.1.symm, rfl⟩

example : (∀ m ∈ [(⟨1, 2, [7, 8]⟩ : Mat 32), ⟨1, 2, [1, 2]⟩], m.rows = 1 ∧ m.cols = 2 ∧ m.WellFormed) ∧
    8 + 4 * (1 * 2) < 2 ^ 32 := by
  refine ⟨?_, by norm_num⟩
  intro m hm
  simp at hm
  rcases hm with rfl | rfl <;> exact ⟨rfl, rfl, rfl⟩

/-- C37 is false in general: a single 1 × (2^30 - 2) matrix is encoded with the announced length 0, and decoding
divides by it. -/
theorem C37_refuted : ¬ C37_Statement := by
  intro h
  obtain ⟨n, hn⟩ : ∃ n : Nat, n + 2 = 2 ^ 30 := ⟨2 ^ 30 - 2, by omega⟩
  have h1 := h [⟨1, n, List.replicate n 0⟩] 1 n (by simp) (by omega) (by omega)
    (by
      intro m hm
      simp only [List.mem_singleton] at hm
      subst hm
      exact ⟨rfl, rfl, by simp only [Mat.WellFormed, List.length_replicate]; omega⟩)
  generalize hm : (⟨1, n, List.replicate n 0⟩ : Mat 32) = m0 at h1
  have hl : (enc m0).length = 2 ^ 32 := by
    rw [enc_length, ← hm]
    simp only [List.length_replicate]
    omega
  rw [matricesToBytes_eq m0 [] (by simp), ok_bind, hl] at h1
  have hs : slice (encAll (2 ^ 32) [m0]) 0 4 = ok (putBE32 0) := by
    rw [slice_of_le (by omega) (by simp [encAll]), encAll]
    rw [List.drop_zero, List.take_append_of_le_length (by simp), List.take_of_length_le (by simp)]
    rw [show (BitVec.ofNat 32 (2 ^ 32)) = 0 from by decide]
  unfold bytesToMatrices at h1
  rw [hs, ok_bind, getBE32_put', ok_bind] at h1
  simp at h1

/-- C37: the dimensions of the 32-bit format are not checked against the amount of data that follows. -/
theorem C37_dimensions_unchecked (r c : Nat) (hr : r < 2 ^ 32) (hc : c < 2 ^ 32) (d : List U32) :
    bytesToMatrix (header r c ++ d.flatMap putBE32) = ok ⟨r, c, d⟩ := by
  have := bytesToMatrix_enc ⟨r, c, d⟩ hr hc
  exact this

example : bytesToMatrix [0, 0, 0, 9, 0, 0, 0, 9, 0, 0, 0, 1] = ok ⟨9, 9, [1]⟩ := by decide

/-! ### C38 -/

set_option maxRecDepth 2000 in
theorem cdfTable_length : cdfTable.length = 129 := by
  simp only [cdfTable, List.length_cons, List.length_nil]

/-- C38: every sample has absolute value at most 128, for every stream of draws; given draws of `Intn` in its range
the sampler never crashes. -/
theorem C38_sample_bounded (draws : List (Nat × ℚ)) (coin : Nat) :
    (∀ g, gaussSample draws coin = ok (some g) → |g| ≤ 128) ∧
    ((∀ d ∈ draws, d.1 < 129) → ∃ o, gaussSample draws coin = ok o) := by
  induction draws with
  | nil => exact ⟨fun g h => by simp [gaussSample] at h, fun _ => ⟨none, rfl⟩⟩
  | cons d ds ih =>
    obtain ⟨x, y⟩ := d
    constructor
    · intro g h
      unfold gaussSample at h
      rw [Res.bind_eq_ok] at h
      obtain ⟨p, hp, h⟩ := h
      have hx : x < 129 := by
        rw [idx_eq_ok] at hp
        by_contra hc
        rw [List.getElem?_eq_none (by rw [cdfTable_length]; omega)] at hp
        cases hp
      split at h
      · simp only [ok.injEq, Option.some.injEq] at h
        subst h
        split
        · rw [abs_neg, abs_of_nonneg (by omega)]; omega
        · rw [abs_of_nonneg (by omega)]; omega
      · exact ih.1 g h
    · intro h
      have hx : x < 129 := h (x, y) (by simp)
      obtain ⟨o, ho⟩ := ih.2 (fun d hd => h d (by simp [hd]))
      unfold gaussSample
      rw [idx_of_lt (by rw [cdfTable_length]; exact hx), ok_bind]
      split
      · exact ⟨_, rfl⟩
      · exact ⟨o, ho⟩

example : gaussSample [(0, 3 / 4), (5, 1 / 2)] 4 = ok (some (-5)) := by
  simp [gaussSample, cdfTable, idx]
  norm_num

/-- C38: the bound is attained: both ±128 can be sampled. -/
theorem C38_bound_attained :
    gaussSample [(128, 0)] 1 = ok (some 128) ∧ gaussSample [(128, 0)] 0 = ok (some (-128)) := by
  have h : idx cdfTable 128 = ok (1.3839e-87 : ℚ) := rfl
  constructor <;>
  · unfold gaussSample
    rw [h, ok_bind, if_pos (by norm_num)]
    rfl

/-- C38: the 32-bit encoding is the same integer modulo 2^32, the 128-bit encoding is the integer modulo 2^128 for
non-negative samples and one less for negative ones. -/
theorem C38_encodings (g : Int) (h : |g| ≤ 128) :
    gauss32 g = BitVec.ofInt 32 g ∧
    gauss128 g = BitVec.ofInt 128 (if 0 ≤ g then g else g - 1) := by
  refine ⟨rfl, ?_⟩
  unfold gauss128
  have h2 := abs_le.mp h
  split
  · rename_i h1
    apply BitVec.eq_of_toNat_eq
    simp only [BitVec.toNat_ofNat, BitVec.toNat_ofInt]
    omega
  · rename_i h1
    apply BitVec.eq_of_toNat_eq
    simp only [BitVec.toNat_ofNat, BitVec.toNat_ofInt]
    omega

example : gauss128 (-5) = BitVec.ofInt 128 (-6) ∧ gauss128 5 = 5 := by decide

/-- C38: every cell of a noise matrix is the encoding of its own sample. -/
theorem C38_noise_matrix {w : Nat} (en : Int → BitVec w) (r c : Nat) (gs : List Int) (h : gs.length = r * c) :
    ∃ m, newGauss en r c gs = ok m ∧ m.rows = r ∧ m.cols = c ∧ m.WellFormed ∧
      ∀ i j, i < r → j < c → m.entry i j = en (gs.getD (i * c + j) 0) := by
  have key : newGauss en r c gs = ok ⟨r, c, (List.range (r * c)).map (fun i => en (gs.getD i 0))⟩ := by
    unfold newGauss
    simp only [new, List.length_replicate]
    rw [forLoop_set_all (r * c) (fun i => en (gs.getD i 0)) _ _ ?_ (by simp)]
    · rfl
    · intro i t hi ht
      rw [idx_getD 0 (by omega), ok_bind]
  refine ⟨_, key, rfl, rfl, by simp [Mat.WellFormed], fun i j hi hj => ?_⟩
  have : i * c + j < r * c := by
    calc i * c + j < i * c + c := by omega
      _ = (i + 1) * c := by ring
      _ ≤ r * c := Nat.mul_le_mul_right c hi
  unfold Mat.entry
  simp only [List.getD, List.getElem?_map, List.getElem?_range this]
  rfl

example : newGauss gauss32 1 2 [3, -1] = ok ⟨1, 2, [3, 0xFFFFFFFF]⟩ := by decide

/-! ### Entries -/

/-- C36: reading an entry gives that of the row and column; writing one changes this entry and no other. -/
theorem C36_set_get {w : Nat} (m : Mat w) (hm : m.WellFormed) (r c : Nat) (v : BitVec w) (hr : r < m.rows) (hc : c < m.cols) :
    m.get r c = ok (m.entry r c) ∧ ∃ m', m.set r c v = ok m' ∧ m'.rows = m.rows ∧ m'.cols = m.cols ∧ m'.WellFormed ∧
      ∀ i j, i < m.rows → j < m.cols → m'.entry i j = if i = r ∧ j = c then v else m.entry i j := by
  have hlt : ∀ i j, i < m.rows → j < m.cols → m.cols * i + j < m.data.length := by
    intro i j hi hj
    rw [hm]
    calc m.cols * i + j < m.cols * i + m.cols := by omega
      _ = m.cols * (i + 1) := by ring
      _ ≤ m.cols * m.rows := Nat.mul_le_mul_left _ hi
      _ = m.rows * m.cols := Nat.mul_comm _ _
  have h := hlt r c hr hc
  constructor
  · unfold Mat.get Mat.entry
    rw [idx_of_lt h, Nat.mul_comm r, List.getD_eq_getElem?_getD, List.getElem?_eq_getElem h, Option.getD_some]
  · unfold Mat.set
    rw [setAt_of_lt h]
    refine ⟨_, rfl, rfl, rfl, ?_, ?_⟩
    · unfold Mat.WellFormed at hm ⊢
      simpa using hm
    · intro i j hi hj
      have hij := hlt i j hi hj
      unfold Mat.entry
      simp only
      rw [Nat.mul_comm i, List.getD_eq_getElem?_getD, List.getElem?_set, List.getD_eq_getElem?_getD]
      by_cases he : i = r ∧ j = c
      · obtain ⟨rfl, rfl⟩ := he
        simp [h]
      · rw [if_neg he, if_neg]
        intro hidx
        apply he
        have h1 : (m.cols * r + c) / m.cols = r := by
          rw [Nat.mul_add_div (by omega), Nat.div_eq_of_lt hc, Nat.add_zero]
        have h2 : (m.cols * i + j) / m.cols = i := by
          rw [Nat.mul_add_div (by omega), Nat.div_eq_of_lt hj, Nat.add_zero]
        have : i = r := by rw [← h1, ← h2, hidx]
        subst this
        exact ⟨rfl, by omega⟩

example : ∃ m', (new 32 2 3).set 1 2 7 = ok m' ∧ m'.entry 1 2 = 7 ∧ m'.entry 1 1 = 0 := by
  obtain ⟨-, m', h1, -, -, -, h2⟩ := C36_set_get (new 32 2 3) rfl 1 2 7 (by decide) (by decide)
  exact ⟨m', h1, by rw [h2 1 2 (by decide) (by decide)]; rfl, by rw [h2 1 1 (by decide) (by decide)]; decide⟩

end Verif.Matrix
