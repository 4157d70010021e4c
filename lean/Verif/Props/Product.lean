import Verif.Props.Matrix

/-! # C112: a matrix product that is returned is exact; C113: matrices that fit in a message arrive (lib/matrix) -/

namespace Verif.Matrix
open Res Verif.Utils Finset

/-! ### C112 -/

theorem mulGo_fits {w v : Nat} (op : BitVec w → BitVec v → BitVec w) (a : Mat w) (b : Mat v) (c : Mat w)
    (ha : a.WellFormed) (hr : a.rows < 2 ^ 31) (hn : a.cols < 2 ^ 31) (hs : b.cols < 2 ^ 31)
    (h : mulGo op a b = ok c) : a.cols = b.rows ∧ FitsInt a.rows a.cols b.cols := by
  have hd : a.cols = b.rows := by
    by_contra hd
    unfold mulGo at h
    rw [if_pos hd] at h
    cases h
  refine ⟨hd, (C36_computed_only_if_fits op a b c hr hn hs h ?_).1⟩
  unfold mulGo at h
  rw [if_neg (by simpa using hd), Res.bind_eq_ok] at h
  obtain ⟨x, hx, -⟩ := h
  rw [idx_eq_ok] at hx
  have h0 : 0 < a.data.length := by
    by_contra h0
    have : a.data = [] := List.length_eq_zero_iff.mp (by omega)
    rw [this] at hx
    simp at hx
  rw [ha] at h0
  exact Nat.pos_of_ne_zero fun e => by rw [e] at h0; omega

/-- A slice of one element of a list that has none is refused. -/
theorem slice_one_nonempty {α : Type _} {l x : List α} (h : slice l 0 1 = ok x) : 0 < l.length := by
  by_contra h0
  have : l = [] := List.length_eq_zero_iff.mp (by omega)
  subst this
  unfold slice at h
  simp at h

theorem kernel128_fits {v : Nat} (op : BitVec 128 → BitVec v → BitVec 128) (r n s : Nat) (hr : r < 2 ^ 31)
    (hn : n < 2 ^ 31) (hs : s < 2 ^ 31) (aa : List (BitVec 128)) (bb : List (BitVec v)) (t : List (BitVec 128))
    (ha : 0 < aa.length) (hal : aa.length = r * n) (ho : 0 < r * s)
    (h : cKernel op r n s aa bb (List.replicate (r * s) 0) = ok t) : FitsInt r n s := by
  rw [hal] at ha
  exact (kernel_fits op r n s hr hn hs (Nat.pos_of_ne_zero fun e => by simp [e] at ha)
    (Nat.pos_of_ne_zero fun e => by simp [e] at ha) (Nat.pos_of_ne_zero fun e => by simp [e] at ho) _ _ _ _ h).1

theorem mul128_fits (a b c : Mat 128) (ha : a.WellFormed) (hb : b.WellFormed) (hr : a.rows < 2 ^ 31)
    (hn : a.cols < 2 ^ 31) (hs : b.cols < 2 ^ 31) (h : mul128 a b = ok c) :
    a.cols = b.rows ∧ FitsInt a.rows a.cols b.cols := by
  unfold mul128 at h
  split at h
  · cases h
  rename_i hd
  refine ⟨by simpa using hd, ?_⟩
  rw [pack_eq a ha, ok_bind, pack_eq b hb, ok_bind] at h
  simp only [Res.bind_eq_ok] at h
  obtain ⟨x, hx, y, hy, z, hz, t, ht, -⟩ := h
  exact kernel128_fits mulOp _ _ _ hr hn hs _ _ _ (slice_one_nonempty hx) ha (by simpa using slice_one_nonempty hz) ht

theorem binaryMul128_fits (a : Mat 128) (b : Mat 8) (c : Mat 128) (ha : a.WellFormed) (hr : a.rows < 2 ^ 31)
    (hn : a.cols < 2 ^ 31) (hs : b.cols < 2 ^ 31) (h : binaryMul128 a b = ok c) :
    a.cols = b.rows ∧ FitsInt a.rows a.cols b.cols := by
  unfold binaryMul128 at h
  split at h
  · cases h
  rename_i hd
  refine ⟨by simpa using hd, ?_⟩
  rw [pack_eq a ha, ok_bind] at h
  simp only [Res.bind_eq_ok] at h
  obtain ⟨x, hx, y, hy, z, hz, t, ht, -⟩ := h
  exact kernel128_fits andOp _ _ _ hr hn hs _ _ _ (slice_one_nonempty hx) ha (by simpa using slice_one_nonempty hz) ht

/-- C112: for matrices with fewer than 2^31 rows and columns, `Mul` returns exactly if the dimensions match and no matrix
involved is empty or has more than 2^31 entries, and then it returns the product modulo 2^32. -/
theorem C112_mul (a b : Mat 32) (ha : a.WellFormed) (hb : b.WellFormed) (hr : a.rows < 2 ^ 31) (hn : a.cols < 2 ^ 31)
    (hs : b.cols < 2 ^ 31) :
    ((∃ c, mul a b = ok c) ↔ a.cols = b.rows ∧ FitsInt a.rows a.cols b.cols) ∧
    ∀ c, mul a b = ok c → c.rows = a.rows ∧ c.cols = b.cols ∧ c.WellFormed ∧
      IsProduct a.rows a.cols b.cols a.entry b.entry c.entry := by
  refine ⟨⟨fun ⟨c, hc⟩ => mulGo_fits mulOp a b c ha hr hn hs hc, fun ⟨h, hf⟩ => ?_⟩, fun c hc => ?_⟩
  · obtain ⟨c, hc, -⟩ := C36_mul_partial a b ha hb h hf
    exact ⟨c, hc⟩
  · obtain ⟨h, hf⟩ := mulGo_fits mulOp a b c ha hr hn hs hc
    obtain ⟨c', hc', hp⟩ := C36_mul_partial a b ha hb h hf
    rw [hc] at hc'
    cases hc'
    exact hp

/-- C112 for `Mul128`: the product modulo 2^128. -/
theorem C112_mul128 (a b : Mat 128) (ha : a.WellFormed) (hb : b.WellFormed) (hr : a.rows < 2 ^ 31)
    (hn : a.cols < 2 ^ 31) (hs : b.cols < 2 ^ 31) :
    ((∃ c, mul128 a b = ok c) ↔ a.cols = b.rows ∧ FitsInt a.rows a.cols b.cols) ∧
    ∀ c, mul128 a b = ok c → c.rows = a.rows ∧ c.cols = b.cols ∧ c.WellFormed ∧
      IsProduct a.rows a.cols b.cols a.entry b.entry c.entry := by
  refine ⟨⟨fun ⟨c, hc⟩ => mul128_fits a b c ha hb hr hn hs hc, fun ⟨h, hf⟩ => ?_⟩, fun c hc => ?_⟩
  · obtain ⟨c, hc, -⟩ := C36_mul128_partial a b ha hb h hf
    exact ⟨c, hc⟩
  · obtain ⟨h, hf⟩ := mul128_fits a b c ha hb hr hn hs hc
    obtain ⟨c', hc', hp⟩ := C36_mul128_partial a b ha hb h hf
    rw [hc] at hc'
    cases hc'
    exact hp

/-- C112 for `BinaryMul` and a matrix of zeros and ones. -/
theorem C112_binaryMul (a : Mat 32) (b : Mat 8) (ha : a.WellFormed) (hb : b.WellFormed) (hbin : b.Binary)
    (hr : a.rows < 2 ^ 31) (hn : a.cols < 2 ^ 31) (hs : b.cols < 2 ^ 31) :
    ((∃ c, binaryMul a b = ok c) ↔ a.cols = b.rows ∧ FitsInt a.rows a.cols b.cols) ∧
    ∀ c, binaryMul a b = ok c → c.rows = a.rows ∧ c.cols = b.cols ∧ c.WellFormed ∧
      IsProduct a.rows a.cols b.cols a.entry (bitAs 32 b) c.entry := by
  refine ⟨⟨fun ⟨c, hc⟩ => mulGo_fits andOp a b c ha hr hn hs hc, fun ⟨h, hf⟩ => ?_⟩, fun c hc => ?_⟩
  · obtain ⟨c, hc, -⟩ := C36_binaryMul_partial a b ha hb hbin h hf
    exact ⟨c, hc⟩
  · obtain ⟨h, hf⟩ := mulGo_fits andOp a b c ha hr hn hs hc
    obtain ⟨c', hc', hp⟩ := C36_binaryMul_partial a b ha hb hbin h hf
    rw [hc] at hc'
    cases hc'
    exact hp

/-- C112 for `BinaryMul128` and a matrix of zeros and ones. -/
theorem C112_binaryMul128 (a : Mat 128) (b : Mat 8) (ha : a.WellFormed) (hb : b.WellFormed) (hbin : b.Binary)
    (hr : a.rows < 2 ^ 31) (hn : a.cols < 2 ^ 31) (hs : b.cols < 2 ^ 31) :
    ((∃ c, binaryMul128 a b = ok c) ↔ a.cols = b.rows ∧ FitsInt a.rows a.cols b.cols) ∧
    ∀ c, binaryMul128 a b = ok c → c.rows = a.rows ∧ c.cols = b.cols ∧ c.WellFormed ∧
      IsProduct a.rows a.cols b.cols a.entry (bitAs 128 b) c.entry := by
  refine ⟨⟨fun ⟨c, hc⟩ => binaryMul128_fits a b c ha hr hn hs hc, fun ⟨h, hf⟩ => ?_⟩, fun c hc => ?_⟩
  · obtain ⟨c, hc, -⟩ := C36_binaryMul128_partial a b ha hb hbin h hf
    exact ⟨c, hc⟩
  · obtain ⟨h, hf⟩ := binaryMul128_fits a b c ha hr hn hs hc
    obtain ⟨c', hc', hp⟩ := C36_binaryMul128_partial a b ha hb hbin h hf
    rw [hc] at hc'
    cases hc'
    exact hp

/-- Sums and products are reduced modulo 2^32. -/
example : mul ⟨1, 2, [0x80000000, 3]⟩ ⟨2, 1, [2, 5]⟩ = ok ⟨1, 1, [15]⟩ ∧
    (⟨1, 2, [0x80000000, 3]⟩ : Mat 32).WellFormed ∧ (⟨2, 1, [2, 5]⟩ : Mat 32).WellFormed ∧ FitsInt 1 2 1 :=
  ⟨by decide, rfl, rfl, by decide⟩

/-- A product with 2^32 entries is not returned. -/
example : ¬ FitsInt (2 ^ 16) 1 (2 ^ 16) := by decide

/-! ### C113 -/

/-- The largest message of the RPC layer (lib/proto, cmd/grpc: 1 GiB). -/
def largest : Nat := 2 ^ 30

/-- C113: a single 32-bit matrix whose encoding fits in a message is read back. -/
theorem C113_matrix (m : Mat 32) (hw : m.WellFormed) (hr : 0 < m.rows) (hc : 0 < m.cols) (bs : List Byte)
    (h : matrixToBytes m = ok bs) (hl : bs.length ≤ largest) : bytesToMatrix bs = ok m := by
  rw [matrixToBytes_eq] at h
  cases h
  rw [enc_length, hw] at hl
  unfold largest at hl
  have h1 : m.rows ≤ m.rows * m.cols := Nat.le_mul_of_pos_right _ hc
  have h2 : m.cols ≤ m.rows * m.cols := Nat.le_mul_of_pos_left _ hr
  exact bytesToMatrix_enc m (by omega) (by omega)

/-- C113: a single 128-bit matrix whose encoding fits in a message is read back. -/
theorem C113_matrix128 (m : Mat 128) (hw : m.WellFormed) (hr : 0 < m.rows) (hc : 0 < m.cols) (bs : List Byte)
    (h : matrix128ToBytes m = ok bs) (hl : bs.length ≤ largest) : bytesToMatrix128 bs = ok m := by
  rw [matrix128ToBytes_eq] at h
  cases h
  have hfl : (m.data.flatMap (fun x => leBytes 16 x.toNat)).length = m.data.length * 16 :=
    flatMap_length_const m.data _ 16 (by simp)
  rw [enc128, List.length_append, hfl, hw] at hl
  unfold largest at hl
  have h1 : m.rows ≤ m.rows * m.cols := Nat.le_mul_of_pos_right _ hc
  have h2 : m.cols ≤ m.rows * m.cols := Nat.le_mul_of_pos_left _ hr
  exact bytesToMatrix128_enc m (by omega) (by omega)

/-- C113: a list of matrices of the same size whose encoding fits in a message is read back. -/
theorem C113_matrices (ms : List (Mat 32)) (r c : Nat) (hne : ms ≠ []) (hr : 0 < r) (hc : 0 < c)
    (hd : ∀ m ∈ ms, m.rows = r ∧ m.cols = c ∧ m.WellFormed) (bs : List Byte) (h : matricesToBytes ms = ok bs)
    (hl : bs.length ≤ largest) : bytesToMatrices bs = ok ms := by
  have hlen : ∀ m ∈ ms, m.data.length = r * c := by
    intro m hm
    obtain ⟨h1, h2, h3⟩ := hd m hm
    rw [h3, h1, h2]
  have hb : bs.length = 4 + ms.length * (8 + 4 * (r * c)) := by
    cases ms with
    | nil => exact absurd rfl hne
    | cons m0 ms =>
      rw [matricesToBytes_eq m0 ms (fun m hm => ?_)] at h
      · cases h
        rw [encAll, List.length_append, flatMap_length_const (m0 :: ms) enc (8 + 4 * (r * c)) (fun m hm => by
          rw [enc_length, hlen m hm])]
        simp
      · have h0 := hd m0 (by simp)
        obtain ⟨h1, h2, -⟩ := hd m (by simp [hm])
        rw [h1, h2, hlen m (by simp [hm]), hlen m0 (by simp)]
        exact ⟨h0.1.symm, h0.2.1.symm, rfl⟩
  unfold largest at hl
  have hpos : 0 < ms.length := List.length_pos_iff.mpr hne
  have h1 : r ≤ r * c := Nat.le_mul_of_pos_right _ hc
  have h2 : c ≤ r * c := Nat.le_mul_of_pos_left _ hr
  have h3 : 8 + 4 * (r * c) ≤ ms.length * (8 + 4 * (r * c)) := Nat.le_mul_of_pos_left _ hpos
  have h4 : ms.length ≤ ms.length * (8 + 4 * (r * c)) := Nat.le_mul_of_pos_right _ (by omega)
  have := C37_matrices_round_trip_partial ms r c hne (by omega) (by omega) (by omega) (by omega) hd
  rw [h, ok_bind] at this
  exact this

example : ∃ bs, matricesToBytes [⟨1, 2, [7, 8]⟩, ⟨1, 2, [1, 2]⟩] = ok bs ∧ bs.length ≤ largest ∧
    bytesToMatrices bs = ok [⟨1, 2, [7, 8]⟩, ⟨1, 2, [1, 2]⟩] :=
  ⟨_, rfl, by decide, by decide⟩

end Verif.Matrix
