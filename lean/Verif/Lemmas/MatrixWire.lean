import Verif.Lemmas.Matrix
import Verif.Props.Encoding

set_option linter.unusedSimpArgs false

namespace Verif.Matrix
open Res Verif.Utils

/-- Header of an encoded matrix. -/
def header (r c : Nat) : List Byte := putBE32 (BitVec.ofNat 32 r) ++ putBE32 (BitVec.ofNat 32 c)

@[simp] theorem header_length (r c : Nat) : (header r c).length = 8 := by simp [header]

/-- Encoding of a 32-bit matrix as a function. -/
def enc (m : Mat 32) : List Byte := header m.rows m.cols ++ m.data.flatMap putBE32

theorem enc_length (m : Mat 32) : (enc m).length = 8 + 4 * m.data.length := by
  rw [enc, List.length_append, header_length, flatMap_length_const m.data putBE32 4 (by simp)]
  omega

theorem matrixToBytes_eq (m : Mat 32) : matrixToBytes m = ok (enc m) := by
  unfold matrixToBytes
  rw [uint32SliceToByteSlice_eq]
  rfl

theorem toNat_ofNat32 {n : Nat} (h : n < 2 ^ 32) : (BitVec.ofNat 32 n).toNat = n := by
  simp only [BitVec.toNat_ofNat]; omega

theorem read_header (r c : Nat) (rest : List Byte) :
    slice (header r c ++ rest) 0 4 = ok (putBE32 (BitVec.ofNat 32 r)) ∧
    slice (header r c ++ rest) 4 8 = ok (putBE32 (BitVec.ofNat 32 c)) ∧
    slice (header r c ++ rest) 4 (header r c ++ rest).length = ok (putBE32 (BitVec.ofNat 32 c) ++ rest) ∧
    slice (header r c ++ rest) 8 (header r c ++ rest).length = ok rest := by
  refine ⟨?_, ?_, ?_, ?_⟩
  · rw [slice_of_le (by omega) (by simp [header])]
    simp [header]
  · rw [slice_of_le (by omega) (by simp)]
    simp [header, List.append_assoc]
  · rw [slice_of_le (by simp; omega) (le_refl _)]
    congr 1
    rw [List.take_of_length_le (by simp)]
    simp [header, List.append_assoc]
  · rw [slice_of_le (by simp) (le_refl _)]
    congr 1
    rw [List.take_of_length_le (by simp), List.drop_append, List.drop_of_length_le (by simp)]
    simp

theorem getBE32_put' (x : U32) : getBE32 (putBE32 x) = ok x := by
  simpa using getBE32_put x []

theorem bytesToMatrix_header (r c : Nat) (hr : r < 2 ^ 32) (hc : c < 2 ^ 32) (rest : List Byte) :
    bytesToMatrix (header r c ++ rest) =
      (byteSliceToUint32Slice rest >>= fun d => ok ⟨r, c, d⟩) := by
  obtain ⟨h1, h2, -, h4⟩ := read_header r c rest
  unfold bytesToMatrix
  rw [h1, ok_bind, getBE32_put', ok_bind, h2, ok_bind, getBE32_put', ok_bind, h4, ok_bind,
    toNat_ofNat32 hr, toNat_ofNat32 hc]

theorem bytesToMatrix_enc (m : Mat 32) (hr : m.rows < 2 ^ 32) (hc : m.cols < 2 ^ 32) :
    bytesToMatrix (enc m) = ok m := by
  have h := C50_words_roundtrip m.data
  rw [uint32SliceToByteSlice_eq, ok_bind] at h
  rw [enc, bytesToMatrix_header _ _ hr hc, h]
  rfl

/-- Chunk `i` of a concatenation of equally long pieces. -/
theorem flatMap_chunk {α β : Type _} (l : List α) (g : α → List β) (k i : Nat)
    (hg : ∀ a ∈ l, (g a).length = k) (hi : i < l.length) :
    ((l.flatMap g).drop (i * k)).take k = g l[i] := by
  induction l generalizing i with
  | nil => simp at hi
  | cons a l ih =>
    have ha : (g a).length = k := hg a (by simp)
    cases i with
    | zero =>
      simp only [Nat.zero_mul, List.drop_zero, List.flatMap_cons, List.getElem_cons_zero]
      rw [List.take_append_of_le_length (by omega), List.take_of_length_le (by omega)]
    | succ i =>
      rw [List.flatMap_cons, List.drop_append, ha]
      rw [List.drop_of_length_le (by rw [ha, Nat.succ_mul]; omega), List.nil_append]
      rw [show (i + 1) * k - k = i * k by rw [Nat.succ_mul]; omega]
      simp only [List.getElem_cons_succ]
      exact ih i (fun a h => hg a (by simp [h])) (by simpa using hi)

/-- Encoding of a list of matrices as a function. -/
def encAll (len : Nat) (ms : List (Mat 32)) : List Byte :=
  putBE32 (BitVec.ofNat 32 len) ++ ms.flatMap enc

theorem matricesToBytes_eq (m0 : Mat 32) (ms : List (Mat 32))
    (hd : ∀ m ∈ ms, m.rows = m0.rows ∧ m.cols = m0.cols ∧ m.data.length = m0.data.length) :
    matricesToBytes (m0 :: ms) = ok (encAll (enc m0).length (m0 :: ms)) := by
  unfold matricesToBytes
  rw [idx_cons_zero, ok_bind, matrixToBytes_eq, ok_bind]
  have hlen : ∀ m ∈ ms, (enc m).length = (enc m0).length := by
    intro m hm
    rw [enc_length, enc_length, (hd m hm).2.2]
  generalize hL : (enc m0).length = L at hlen
  simp only [List.length_cons]
  have hz : 4 + L * (ms.length + 1) = 4 + L + ms.length * L := by ring
  rw [hz]
  rw [copyAt_of_le (by simp; omega), ok_bind]
  have e1 : (List.replicate (4 + L + ms.length * L) (0 : Byte)).take 0 ++
      putBE32 (BitVec.ofNat 32 L) ++ (List.replicate (4 + L + ms.length * L) (0 : Byte)).drop
        (0 + (putBE32 (BitVec.ofNat 32 L)).length)
      = putBE32 (BitVec.ofNat 32 L) ++ List.replicate (L + ms.length * L) 0 := by
    simp
    omega
  rw [e1, copyAt_of_le (by simp; omega), ok_bind]
  have e2 : (putBE32 (BitVec.ofNat 32 L) ++ List.replicate (L + ms.length * L) (0 : Byte)).take 4 ++
      enc m0 ++ (putBE32 (BitVec.ofNat 32 L) ++ List.replicate (L + ms.length * L) (0 : Byte)).drop
        (4 + (enc m0).length)
      = putBE32 (BitVec.ofNat 32 L) ++ enc m0 ++ List.replicate (ms.length * L) 0 := by
    rw [List.take_append_of_le_length (by simp), List.take_of_length_le (by simp), hL,
      List.drop_append, List.drop_of_length_le (by simp)]
    simp
  rw [e2]
  rw [forLoop_fill (ms.length + 1 - 1) L (4 + L) (fun i => enc ((m0 :: ms).getD (i + 1) m0)) _ _ ?_ ?_
    (by simp [hL]; omega)]
  · congr 1
    rw [List.take_append_of_le_length (by simp [hL]), List.take_of_length_le (by simp [hL]),
      List.drop_of_length_le (by simp [hL]; omega), List.append_nil, encAll, List.flatMap_cons,
      List.append_assoc]
    congr 2
    simp only [Nat.add_sub_cancel]
    refine range_flatMap_getElem ms enc _ ?_
    intro i hi
    simp [hi]
  · intro i t hi ht
    have hi' : i < ms.length := by omega
    rw [idx_getD m0 (by simp; omega), ok_bind]
    have hm : (m0 :: ms).getD (i + 1) m0 ∈ ms := by
      simp [hi']
    rw [if_neg (by rw [(hd _ hm).1, (hd _ hm).2.1]; simp), matrixToBytes_eq, ok_bind]
    congr 1
    ring
  · intro i hi
    have hi' : i < ms.length := by omega
    apply hlen
    simp [hi']

theorem bytesToMatrices_encAll (L : Nat) (ms : List (Mat 32)) (hL : L < 2 ^ 32) (hL0 : 0 < L)
    (hn : ms.length < 2 ^ 32)
    (hd : ∀ m ∈ ms, m.rows < 2 ^ 32 ∧ m.cols < 2 ^ 32 ∧ (enc m).length = L) :
    bytesToMatrices (encAll L ms) = ok ms := by
  have hfl : (ms.flatMap enc).length = ms.length * L :=
    flatMap_length_const ms enc L (fun m hm => (hd m hm).2.2)
  unfold bytesToMatrices
  have h1 : slice (encAll L ms) 0 4 = ok (putBE32 (BitVec.ofNat 32 L)) := by
    rw [slice_of_le (by omega) (by simp [encAll])]
    simp [encAll]
  rw [h1, ok_bind, getBE32_put', ok_bind]
  simp only [toNat_ofNat32 hL]
  rw [if_neg (by omega)]
  have hn' : ((encAll L ms).length - 4) / L % 2 ^ 32 = ms.length := by
    have : (encAll L ms).length - 4 = ms.length * L := by
      simp only [encAll, List.length_append, putBE32_length, hfl]
      omega
    rw [this, Nat.mul_div_cancel _ hL0, Nat.mod_eq_of_lt hn]
  rw [hn']
  have := forLoop_eq (n := ms.length) (body := fun i (out : List (Mat 32)) => do
    let s ← slice (encAll L ms) (4 + i * L) (4 + (i + 1) * L)
    let m ← bytesToMatrix s
    ok (out ++ [m])) (fun i => ms.take i) ?_
  · rw [show ms.take 0 = [] by simp] at this
    rw [this, List.take_of_length_le (le_refl _)]
  · intro i hi
    have hle : (i + 1) * L ≤ ms.length * L := Nat.mul_le_mul_right L hi
    have hs : slice (encAll L ms) (4 + i * L) (4 + (i + 1) * L) = ok (enc ms[i]) := by
      rw [slice_of_le (by rw [Nat.succ_mul]; omega)
        (by simp only [encAll, List.length_append, putBE32_length, hfl]; omega)]
      congr 1
      rw [show 4 + (i + 1) * L - (4 + i * L) = L by rw [Nat.succ_mul]; omega]
      rw [encAll, List.drop_append, List.drop_of_length_le (by simp), List.nil_append, putBE32_length,
        show 4 + i * L - 4 = i * L by omega]
      exact flatMap_chunk ms enc L i (fun m hm => (hd m hm).2.2) hi
    have hm := hd ms[i] (List.getElem_mem hi)
    rw [hs, ok_bind, bytesToMatrix_enc _ hm.1 hm.2.1, ok_bind]
    congr 1
    rw [List.take_add_one, List.getElem?_eq_getElem hi]
    rfl

/-- Encoding of a 128-bit matrix as a function. -/
def enc128 (m : Mat 128) : List Byte :=
  header m.rows m.cols ++ m.data.flatMap (fun x => leBytes 16 x.toNat)

theorem matrix128ToBytes_eq (m : Mat 128) : matrix128ToBytes m = ok (enc128 m) := by
  unfold matrix128ToBytes
  dsimp only
  rw [forLoop_fill_all m.data.length 16 (fun i => leBytes 16 (m.data.getD i 0).toNat) _ _ ?_
    (by simp) (by simp)]
  · rw [range_flatMap_getElem m.data (fun x => leBytes 16 x.toNat), ok_bind]
    · rfl
    · intro i hi
      simp [hi]
  · intro i t hi ht
    rw [idx_getD 0 hi, ok_bind, slice_of_le (by omega) (by simp at ht; omega), ok_bind]

theorem fromBytes128_put (x : U128) (rest : List Byte) :
    fromBytes128 (leBytes 16 x.toNat ++ rest) = ok x := by
  unfold fromBytes128
  rw [if_pos (by simp), List.take_append_of_le_length (by simp), List.take_of_length_le (by simp),
    ofLE_leBytes]
  congr 1
  apply BitVec.eq_of_toNat_eq
  have := x.isLt
  simp only [BitVec.toNat_ofNat]
  omega

theorem flatMap_drop {α β : Type _} (l : List α) (g : α → List β) (k i : Nat)
    (hg : ∀ a ∈ l, (g a).length = k) :
    (l.flatMap g).drop (i * k) = (l.drop i).flatMap g := by
  induction l generalizing i with
  | nil => simp
  | cons a l ih =>
    have ha : (g a).length = k := hg a (by simp)
    cases i with
    | zero => simp
    | succ i =>
      rw [List.flatMap_cons, List.drop_append, ha]
      rw [List.drop_of_length_le (by rw [ha, Nat.succ_mul]; omega), List.nil_append]
      rw [show (i + 1) * k - k = i * k by rw [Nat.succ_mul]; omega]
      exact ih i (fun a h => hg a (by simp [h]))

theorem bytesToMatrix128_enc (m : Mat 128) (hr : m.rows < 2 ^ 32) (hc : m.cols < 2 ^ 32) :
    bytesToMatrix128 (enc128 m) = ok m := by
  have hfl : (m.data.flatMap (fun x => leBytes 16 x.toNat)).length = m.data.length * 16 :=
    flatMap_length_const m.data _ 16 (by simp)
  obtain ⟨h1, -, h3, h4⟩ := read_header m.rows m.cols (m.data.flatMap (fun x => leBytes 16 x.toNat))
  unfold bytesToMatrix128 enc128
  rw [h1, ok_bind, getBE32_put', ok_bind, h3, ok_bind, getBE32_put, ok_bind, h4, ok_bind,
    toNat_ofNat32 hr, toNat_ofNat32 hc, hfl, Nat.mul_div_cancel _ (by omega)]
  rw [forLoop_set_all m.data.length (fun i => m.data.getD i 0) _ _ ?_ (by simp)]
  · rw [ok_bind, range_map_getElem? m.data]
    intro i hi
    simp [hi]
  · intro i t hi ht
    rw [slice_of_le (by simp only [List.length_append, header_length, hfl]; omega) (le_refl _), ok_bind,
      List.take_of_length_le (by simp)]
    rw [List.drop_append, List.drop_of_length_le (by simp), List.nil_append, header_length,
      show 8 + i * 16 - 8 = i * 16 by omega, flatMap_drop _ _ 16 i (by simp),
      List.drop_eq_getElem_cons hi, List.flatMap_cons, fromBytes128_put, ok_bind]
    simp [hi]

end Verif.Matrix
