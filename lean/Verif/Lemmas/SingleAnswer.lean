import Verif.Spec.SingleAnswer
import Verif.Props.Lwe

/-! # Lemmas on the matrix products of any query and on the messages of matrices -/

namespace Verif.Lwe
open Res Verif.Matrix Verif.Utils Verif.Lwe.Spec Finset

/-! ### Undefined behaviour of the kernels -/

/-- Returned, or undefined. -/
def Quiet {α : Type} (x : Res α) : Prop := (∃ v, x = ok v) ∨ Undefined x

theorem quiet_ok {α : Type} (v : α) : Quiet (ok v) := Or.inl ⟨v, rfl⟩

theorem quiet_bind {α β : Type} {x : Res α} {f : α → Res β} (hx : Quiet x) (hf : ∀ v, Quiet (f v)) : Quiet (x >>= f) := by
  rcases hx with ⟨v, rfl⟩ | h
  · rw [ok_bind]; exact hf v
  · right
    rcases h with rfl | rfl | rfl
    · exact Or.inl rfl
    · exact Or.inr (Or.inl rfl)
    · exact Or.inr (Or.inr rfl)

theorem quiet_forLoop {σ : Type} {n : Nat} {body : Nat → σ → Res σ} (s : σ) (hb : ∀ i t, Quiet (body i t)) :
    Quiet (forLoop n body s) := by
  induction n with
  | zero => exact quiet_ok s
  | succ n ih => exact quiet_bind ih (fun t => hb n t)

theorem quiet_cIdx (n i j : Nat) : Quiet (cIdx n i j) := by
  unfold cIdx
  split
  · exact quiet_ok _
  · exact Or.inr (Or.inl rfl)

theorem quiet_cRead {α : Type} (p : List α) (i : Nat) : Quiet (cRead p i) := by
  unfold cRead
  split
  · exact quiet_ok _
  · exact Or.inr (Or.inr (Or.inl rfl))

theorem quiet_cWrite {α : Type} (p : List α) (i : Nat) (a : α) : Quiet (cWrite p i a) := by
  unfold cWrite
  split
  · exact quiet_ok _
  · exact Or.inr (Or.inr (Or.inr rfl))

theorem quiet_kernel {w v : Nat} (op : BitVec w → BitVec v → BitVec w) (r n s : Nat) (a : List (BitVec w))
    (b : List (BitVec v)) (out : List (BitVec w)) : Quiet (cKernel op r n s a b out) := by
  unfold cKernel
  refine quiet_forLoop _ fun i t => quiet_forLoop _ fun k t => quiet_forLoop _ fun j t => ?_
  unfold cBody
  exact quiet_bind (quiet_cIdx _ _ _) fun _ => quiet_bind (quiet_cIdx _ _ _) fun _ =>
    quiet_bind (quiet_cIdx _ _ _) fun _ => quiet_bind (quiet_cRead _ _) fun _ =>
    quiet_bind (quiet_cRead _ _) fun _ => quiet_bind (quiet_cRead _ _) fun _ => quiet_cWrite _ _ _

/-- A number of rows that is negative as an `int` makes the kernel do nothing. -/
theorem kernel_negative {w v : Nat} (op : BitVec w → BitVec v → BitVec w) (r n s : Nat) (a : List (BitVec w))
    (b : List (BitVec v)) (out : List (BitVec w)) (h1 : 2 ^ 31 ≤ r) (h2 : r < 2 ^ 32) :
    cKernel op r n s a b out = ok out := by
  have : cInt r = 0 := by
    unfold cInt
    rw [BitVec.toInt_eq_toNat_cond]
    simp only [BitVec.toNat_ofNat]
    rw [Nat.mod_eq_of_lt h2]
    split
    · omega
    · omega
  unfold cKernel
  rw [this, forLoop_zero]

theorem undefined_bind {α β : Type} {x : Res α} {f : α → Res β} (h : Undefined x) : Undefined (x >>= f) := by
  rcases h with rfl | rfl | rfl
  · exact Or.inl rfl
  · exact Or.inr (Or.inl rfl)
  · exact Or.inr (Or.inr rfl)

theorem panics_bind {α β : Type} {x : Res α} {f : α → Res β} (h : Panics x) : Panics (x >>= f) := by
  obtain ⟨h1, h2⟩ := h
  cases x with
  | ok v => exact absurd h1 (by simp [isCrash])
  | err e => exact absurd h1 (by simp [isCrash])
  | crash m =>
    rw [crash_bind]
    refine ⟨trivial, fun h => h2 ?_⟩
    rcases h with h | h | h
    · exact Or.inl (by injection h with h; rw [h])
    · exact Or.inr (Or.inl (by injection h with h; rw [h]))
    · exact Or.inr (Or.inr (by injection h with h; rw [h]))

theorem panics_crash {α : Type} {m : String} (h1 : m ≠ "undefined behaviour: integer overflow")
    (h2 : m ≠ "undefined behaviour: read out of bounds") (h3 : m ≠ "undefined behaviour: write out of bounds") :
    Panics (crash m : Res α) := by
  refine ⟨trivial, ?_⟩
  rintro (h | h | h)
  · injection h with h; exact h1 h
  · injection h with h; exact h2 h
  · injection h with h; exact h3 h

theorem panics_idx {α : Type} {l : List α} {i : Nat} (h : l.length ≤ i) : Panics (idx l i) := by
  unfold idx
  rw [List.getElem?_eq_none h]
  exact panics_crash (by decide) (by decide) (by decide)

theorem panics_slice {α : Type} {l : List α} {i j : Nat} (h : l.length < j) : Panics (slice l i j) := by
  unfold slice
  rw [if_neg (by omega)]
  exact panics_crash (by decide) (by decide) (by decide)

/-- The kernel on matrices without dimension zero. -/
theorem kernel_decided {w v : Nat} (op : BitVec w → BitVec v → BitVec w) (r n s : Nat) (a : List (BitVec w))
    (b : List (BitVec v)) (out : List (BitVec w)) (hr : 0 < r) (hn : 0 < n) (hs : 0 < s) (hr' : r < 2 ^ 31)
    (hn' : n < 2 ^ 31) (hs' : s < 2 ^ 31) (h : ¬ (Indexable r n s ∧ r * n ≤ a.length)) :
    Undefined (cKernel op r n s a b out) := by
  rcases quiet_kernel op r n s a b out with ⟨t, ht⟩ | hu
  · obtain ⟨h1, h2, -⟩ := kernel_fits op r n s hr' hn' hs' hr hn hs a b out t ht
    exact absurd ⟨⟨h1.2.2.2.2.2.2.1, h1.2.2.2.2.2.2.2.1, h1.2.2.2.2.2.2.2.2⟩, h2⟩ h
  · exact hu

/-! ### The products -/

/-- What `BinaryMul` (32 bits) does with any first matrix. -/
theorem binaryMul_decided (a : Mat 32) (b : Mat 8) (hb : b.WellFormed) (hn : b.rows < 2 ^ 31) (hs : b.cols < 2 ^ 31)
    (hr : a.rows < 2 ^ 32) :
    (¬ (a.cols = b.rows ∧ 0 < a.rows ∧ 0 < b.rows ∧ 0 < b.cols ∧ 0 < a.data.length) → Panics (binaryMul a b)) ∧
    (a.cols = b.rows → 0 < a.rows → 0 < b.rows → 0 < b.cols → 0 < a.data.length →
      (2 ^ 31 ≤ a.rows → binaryMul a b = ok (new 32 a.rows b.cols)) ∧
      (a.rows < 2 ^ 31 → ¬ (Indexable a.rows b.rows b.cols ∧ a.rows * b.rows ≤ a.data.length) →
        Undefined (binaryMul a b))) := by
  refine ⟨fun h => ?_, fun hd ha hb0 hc0 hl => ?_⟩
  · unfold binaryMul mulGo
    by_cases hd : a.cols = b.rows
    swap
    · rw [if_pos hd]
      exact panics_crash (by decide) (by decide) (by decide)
    rw [if_neg (show ¬ a.cols ≠ b.rows from fun h => h hd)]
    by_cases hl : 0 < a.data.length
    swap
    · exact panics_bind (panics_idx (by omega))
    rw [idx_of_lt hl, ok_bind]
    by_cases hbl : 0 < b.data.length
    swap
    · exact panics_bind (panics_idx (by omega))
    rw [idx_of_lt hbl, ok_bind]
    refine panics_bind (panics_idx ?_)
    rw [hb] at hbl
    have h1 : 0 < b.rows := Nat.pos_of_ne_zero fun e => by simp [e] at hbl
    have h2 : 0 < b.cols := Nat.pos_of_ne_zero fun e => by simp [e] at hbl
    have h3 : a.rows = 0 := by
      by_contra h3
      exact h ⟨hd, by omega, h1, h2, hl⟩
    simp [new, h3]
  · have hbl : 0 < b.data.length := by rw [hb]; exact Nat.mul_pos hb0 hc0
    have ho : 0 < (new 32 a.rows b.cols).data.length := by simpa [new] using Nat.mul_pos ha hc0
    have key : binaryMul a b = (cKernel andOp a.rows a.cols b.cols a.data b.data (new 32 a.rows b.cols).data >>=
        fun d => ok { new 32 a.rows b.cols with data := d }) := by
      unfold binaryMul mulGo
      rw [if_neg (show ¬ a.cols ≠ b.rows from fun h => h hd)]
      simp only []
      rw [idx_of_lt hl, ok_bind, idx_of_lt hbl, ok_bind, idx_of_lt ho, ok_bind]
    rw [key]
    refine ⟨fun h => ?_, fun h hnot => ?_⟩
    · rw [kernel_negative _ _ _ _ _ _ _ h hr, ok_bind]
    · rw [hd]
      exact undefined_bind (kernel_decided andOp _ _ _ _ _ _ ha hb0 hc0 h hn hs hnot)

theorem pack_long {w : Nat} (q : Mat w) (hlen : q.rows * q.cols < q.data.length) : Panics (pack q) := by
  obtain ⟨m, hm⟩ : ∃ m, q.data.length = q.rows * q.cols + 1 + m := ⟨q.data.length - (q.rows * q.cols + 1), by omega⟩
  unfold pack
  rw [hm, forLoop_append, forLoop_succ,
    forLoop_set (q.rows * q.cols) 0 (fun i => q.data.getD i 0) _ _ ?_ (by simp)]
  · refine panics_bind ?_
    rw [ok_bind, idx_getD 0 (by omega), ok_bind]
    unfold setAt
    rw [if_neg (by simp)]
    exact panics_crash (by decide) (by decide) (by decide)
  · intro i t hi ht
    rw [idx_getD 0 (by omega), ok_bind, Nat.zero_add]

/-- What `BinaryMul128` does with any first matrix. -/
theorem binaryMul128_decided (a : Mat 128) (b : Mat 8) (hb : b.WellFormed) (hn : b.rows < 2 ^ 31) (hs : b.cols < 2 ^ 31)
    (hr : a.rows < 2 ^ 32) :
    (¬ (a.cols = b.rows ∧ 0 < a.rows ∧ 0 < b.rows ∧ 0 < b.cols ∧ a.data.length ≤ a.rows * b.rows) →
      Panics (binaryMul128 a b)) ∧
    (a.cols = b.rows → 0 < a.rows → 0 < b.rows → 0 < b.cols → a.data.length ≤ a.rows * b.rows →
      (2 ^ 31 ≤ a.rows → binaryMul128 a b = ok (new 128 a.rows b.cols)) ∧
      (a.rows < 2 ^ 31 → ¬ Indexable a.rows b.rows b.cols → Undefined (binaryMul128 a b))) := by
  refine ⟨fun h => ?_, fun hd ha hb0 hc0 hl => ?_⟩
  · unfold binaryMul128
    by_cases hd : a.cols = b.rows
    swap
    · rw [if_pos hd]
      exact panics_crash (by decide) (by decide) (by decide)
    rw [if_neg (show ¬ a.cols ≠ b.rows from fun h => h hd)]
    by_cases hl : a.data.length ≤ a.rows * a.cols
    swap
    · exact panics_bind (pack_long a (by omega))
    rw [pack_short a hl, ok_bind]
    simp only []
    have hal : (a.data ++ List.replicate (a.rows * a.cols - a.data.length) (0 : BitVec 128)).length = a.rows * a.cols := by
      simp; omega
    by_cases h0 : 0 < a.rows * a.cols
    swap
    · exact panics_bind (panics_slice (by omega))
    rw [slice_of_le (by omega) (by omega), ok_bind]
    by_cases hbl : 0 < b.data.length
    swap
    · exact panics_bind (panics_idx (by omega))
    rw [hb] at hbl
    have h1 : 0 < b.rows := Nat.pos_of_ne_zero fun e => by simp [e] at hbl
    have h2 : 0 < b.cols := Nat.pos_of_ne_zero fun e => by simp [e] at hbl
    have h3 : 0 < a.rows := Nat.pos_of_ne_zero fun e => by simp [e] at h0
    exact absurd ⟨hd, h3, h1, h2, hd ▸ hl⟩ h
  · have hbl : 0 < b.data.length := by rw [hb]; exact Nat.mul_pos hb0 hc0
    have ho : 0 < a.rows * b.cols := Nat.mul_pos ha hc0
    have ha' : 0 < a.rows * b.rows := Nat.mul_pos ha hb0
    have hal : (a.data ++ List.replicate (a.rows * a.cols - a.data.length) (0 : BitVec 128)).length = a.rows * b.rows := by
      rw [hd]; simp; omega
    have key : binaryMul128 a b = (cKernel andOp a.rows a.cols b.cols
        (a.data ++ List.replicate (a.rows * a.cols - a.data.length) (0 : BitVec 128)) b.data
        (List.replicate (a.rows * b.cols) 0) >>= fun d => ok ⟨a.rows, b.cols, d⟩) := by
      unfold binaryMul128
      rw [if_neg (show ¬ a.cols ≠ b.rows from fun h => h hd), pack_short a (by rw [hd]; exact hl), ok_bind]
      simp only []
      rw [slice_of_le (by omega) (by omega), ok_bind, idx_of_lt hbl, ok_bind,
        slice_of_le (by omega) (by rw [List.length_replicate]; omega), ok_bind]
    rw [key]
    refine ⟨fun h => ?_, fun h hnot => ?_⟩
    · rw [kernel_negative _ _ _ _ _ _ _ h hr, ok_bind]
      rfl
    · rw [hd] at hal ⊢
      exact undefined_bind (kernel_decided andOp _ _ _ _ _ _ ha hb0 hc0 h hn hs (fun h => hnot h.1))

/-! ### Messages -/

theorem number_lt (b : List Byte) (i : Nat) : number b i < 2 ^ 32 := by
  have h := ofBE_lt ((b.drop i).take 4)
  have h4 : ((b.drop i).take 4).length ≤ 4 := by simp
  have : 256 ^ ((b.drop i).take 4).length ≤ 256 ^ 4 := Nat.pow_le_pow_right (by omega) h4
  unfold number
  omega

theorem read_short (q : List Byte) (h : q.length < 8) : Panics (bytesToMatrix q) ∧ Panics (bytesToMatrix128 q) := by
  unfold bytesToMatrix bytesToMatrix128
  by_cases h4 : 4 ≤ q.length
  swap
  · exact ⟨panics_bind (panics_slice (by omega)), panics_bind (panics_slice (by omega))⟩
  rw [slice_of_le (by omega) h4, ok_bind]
  have hl : ((q.drop 0).take (4 - 0)).length = 4 := by simp; omega
  constructor
  · unfold getBE32
    rw [if_pos (by omega), ok_bind]
    exact panics_bind (panics_slice h)
  · have : getBE32 ((q.drop 0).take (4 - 0)) = ok (BitVec.ofNat 32 (ofBE (((q.drop 0).take (4 - 0)).take 4))) := by
      unfold getBE32
      rw [if_pos (by omega)]
    rw [ok_bind, this, ok_bind, slice_of_le h4 (le_refl _), ok_bind]
    refine panics_bind ?_
    unfold getBE32
    rw [if_neg (by simp; omega)]
    exact panics_crash (by decide) (by decide) (by decide)

theorem read_number (b : List Byte) (h : 4 ≤ b.length) : getBE32 b = ok (BitVec.ofNat 32 (number b 0)) := by
  unfold getBE32 number
  rw [if_pos h, List.drop_zero]

theorem number_take (b : List Byte) (n : Nat) (h : 4 ≤ n) : number (b.take n) 0 = number b 0 := by
  unfold number
  rw [List.drop_zero, List.drop_zero, List.take_take, Nat.min_eq_left h]

theorem number_drop (b : List Byte) (n i : Nat) : number (b.drop n) i = number b (n + i) := by
  unfold number
  rw [List.drop_drop]

theorem toNat_number (b : List Byte) (i : Nat) : (BitVec.ofNat 32 (number b i)).toNat = number b i :=
  toNat_ofNat32 (number_lt b i)

theorem read32 (q : List Byte) (h : 8 ≤ q.length) :
    bytesToMatrix q = ok ⟨announcedRows q, announcedColumns q,
      (List.range (carried format32 q)).map (fun n => BitVec.ofNat 32 (format32.word q n))⟩ := by
  unfold bytesToMatrix
  rw [slice_of_le (by omega) (by omega), ok_bind, read_number _ (by simp; omega), ok_bind,
    slice_of_le (by omega) h, ok_bind, read_number _ (by simp; omega), ok_bind, slice_of_le h (le_refl _), ok_bind,
    byteSliceToUint32Slice_eq, ok_bind, List.take_of_length_le (l := q.drop 8) (by simp)]
  rw [toNat_number, toNat_number, number_take _ _ (by omega), number_take _ _ (by omega), number_drop, number_drop]
  congr 2
  · rw [List.length_drop]
    refine List.map_congr_left fun n _ => ?_
    unfold word format32 number
    rw [List.drop_drop, Nat.mul_comm n 4]

theorem read128 (q : List Byte) (h : 8 ≤ q.length) :
    bytesToMatrix128 q = ok ⟨announcedRows q, announcedColumns q,
      (List.range (carried format128 q)).map (fun n => BitVec.ofNat 128 (format128.word q n))⟩ := by
  unfold bytesToMatrix128
  rw [slice_of_le (by omega) (by omega), ok_bind, read_number _ (by simp; omega), ok_bind,
    slice_of_le (by omega) (le_refl _), ok_bind, read_number _ (by simp; omega), ok_bind, slice_of_le h (le_refl _), ok_bind]
  rw [toNat_number, toNat_number, number_take _ _ (by omega), number_take _ _ (by omega), number_drop, number_drop]
  have hl : ((q.drop 8).take (q.length - 8)).length = q.length - 8 := by simp
  rw [hl, forLoop_set_all ((q.length - 8) / 16) (fun n => BitVec.ofNat 128 (format128.word q n)) _ _ ?_ (by simp)]
  · rfl
  · intro i t hi ht
    rw [slice_of_le (by omega) (le_refl _), ok_bind, List.take_of_length_le (by simp)]
    unfold fromBytes128
    rw [if_pos (by simp; omega), ok_bind]
    unfold format128
    rw [Nat.mul_comm i 16]

theorem announced_header (r c : Nat) (hr : r < 2 ^ 32) (hc : c < 2 ^ 32) (rest : List Byte) :
    announcedRows (header r c ++ rest) = r ∧ announcedColumns (header r c ++ rest) = c := by
  have h0 : ∀ n, n < 2 ^ 32 → ofBE (putBE32 (BitVec.ofNat 32 n)) = n := by
    intro n hn
    unfold putBE32
    rw [ofBE_beBytes, toNat_ofNat32 hn]
    omega
  unfold announcedRows announcedColumns number header
  refine ⟨?_, ?_⟩
  · rw [List.drop_zero, List.append_assoc, List.take_append_of_le_length (by simp), List.take_of_length_le (by simp)]
    exact h0 r hr
  · rw [List.append_assoc, List.drop_append, List.drop_of_length_le (by simp), List.nil_append]
    rw [putBE32_length, Nat.sub_self, List.drop_zero, List.take_append_of_le_length (by simp),
      List.take_of_length_le (by simp)]
    exact h0 c hc

theorem holds32 (m : Mat 32) (hw : m.WellFormed) (hr : m.rows < 2 ^ 32) (hc : m.cols < 2 ^ 32) :
    Holds format32 (enc m) m.rows m.cols (fun i j => (m.entry i j).toNat) := by
  refine ⟨by rw [enc_length, hw]; rfl, (announced_header _ _ hr hc _).1, (announced_header _ _ hr hc _).2, ?_⟩
  intro i j hi hj
  have hlt : i * m.cols + j < m.data.length := by
    rw [hw]
    have : (i + 1) * m.cols ≤ m.rows * m.cols := Nat.mul_le_mul_right _ hi
    rw [Nat.succ_mul] at this
    omega
  unfold format32 number enc Mat.entry
  dsimp only
  rw [List.drop_append, List.drop_of_length_le (by simp), List.nil_append, header_length, Nat.add_sub_cancel_left,
    Nat.mul_comm 4, flatMap_chunk _ _ 4 _ (by simp) hlt]
  unfold putBE32
  rw [ofBE_beBytes]
  have := (m.data[i * m.cols + j]).isLt
  have e : m.data.getD (i * m.cols + j) 0 = m.data[i * m.cols + j] := by simp [hlt]
  rw [e]
  omega

theorem holds128 (m : Mat 128) (hw : m.WellFormed) (hr : m.rows < 2 ^ 32) (hc : m.cols < 2 ^ 32) :
    Holds format128 (enc128 m) m.rows m.cols (fun i j => (m.entry i j).toNat) := by
  unfold enc128
  refine ⟨?_, (announced_header _ _ hr hc _).1, (announced_header _ _ hr hc _).2, ?_⟩
  · rw [List.length_append, header_length, flatMap_length_const m.data _ 16 (by simp), hw]
    unfold format128
    dsimp only
    omega
  intro i j hi hj
  have hlt : i * m.cols + j < m.data.length := by
    rw [hw]
    have : (i + 1) * m.cols ≤ m.rows * m.cols := Nat.mul_le_mul_right _ hi
    rw [Nat.succ_mul] at this
    omega
  unfold format128 Mat.entry
  dsimp only
  rw [List.drop_append, List.drop_of_length_le (by simp), List.nil_append, header_length, Nat.add_sub_cancel_left,
    Nat.mul_comm 16, flatMap_chunk _ _ 16 _ (by simp) hlt, ofLE_leBytes]
  have := (m.data[i * m.cols + j]).isLt
  have e : m.data.getD (i * m.cols + j) 0 = m.data[i * m.cols + j] := by simp [hlt]
  rw [e]
  omega

/-! ### Sums -/

theorem toNat_sum {w : Nat} (n : Nat) (f : Nat → BitVec w) :
    (∑ k ∈ range n, f k).toNat = (∑ k ∈ range n, (f k).toNat) % 2 ^ w := by
  induction n with
  | zero => simp
  | succ n ih => rw [sum_range_succ, sum_range_succ, BitVec.toNat_add, ih, Nat.mod_add_mod]

theorem andOp_stored {w : Nat} (x : BitVec w) (m : Mat 8) (hb : m.Binary) (k j : Nat) :
    (andOp x (m.entry k j)).toNat = if storedBit m k j = 1 then x.toNat else 0 := by
  unfold storedBit
  rcases entry_binary hb k j with h | h <;> rw [h, andOp_bit x (by simp)]
  · simp
  · simp

theorem sum_mod_word {w : Nat} (n : Nat) (c : Nat → Prop) [DecidablePred c] (x : Nat → Nat) :
    (∑ k ∈ range n, if c k then x k % 2 ^ w else 0) % 2 ^ w = (∑ k ∈ range n, if c k then x k else 0) % 2 ^ w := by
  induction n with
  | zero => rfl
  | succ n ih =>
    rw [sum_range_succ, sum_range_succ, Nat.add_mod, ih]
    split
    · rw [Nat.mod_mod, ← Nat.add_mod]
    · rw [← Nat.add_mod]

end Verif.Lwe
