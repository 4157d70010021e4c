import Verif.Lemmas.Encoding

/-! # C50 (vectors of words on the wire) and C26 (bit strings): lib/utils/encoding.go -/

namespace Verif.Utils
open Res

/-- C50: decoding an encoded vector gives the vector back; encoding never fails. -/
theorem C50_words_roundtrip (v : List U32) :
    (uint32SliceToByteSlice v >>= byteSliceToUint32Slice) = ok v := by
  rw [uint32SliceToByteSlice_eq, ok_bind, byteSliceToUint32Slice_eq]
  congr 1
  refine range_map_getElem v _ _ ?_ (fun i hi => word_flatMap v i hi)
  rw [flatMap_length_const v putBE32 4 (by simp)]
  omega

example : uint32SliceToByteSlice [1, 0xFFFFFFFF] = ok [0, 0, 0, 1, 255, 255, 255, 255] := by decide

/-- C50: the wire format is big endian, four bytes per word, in order. -/
theorem C50_words_format (v : List U32) :
    ∃ out, uint32SliceToByteSlice v = ok out ∧ out.length = 4 * v.length ∧
      ∀ i, (hi : i < v.length) → ∃ b0 b1 b2 b3 : Byte,
        out[4 * i]? = some b0 ∧ out[4 * i + 1]? = some b1 ∧ out[4 * i + 2]? = some b2 ∧
        out[4 * i + 3]? = some b3 ∧
        v[i].toNat = b0.toNat * 2 ^ 24 + b1.toNat * 2 ^ 16 + b2.toNat * 2 ^ 8 + b3.toNat := by
  refine ⟨_, uint32SliceToByteSlice_eq v, ?_, ?_⟩
  · rw [flatMap_length_const v putBE32 4 (by simp)]; omega
  · intro i hi
    have h : (v.flatMap putBE32).drop (4 * i) = putBE32 v[i] ++ (v.drop (i + 1)).flatMap putBE32 := by
      rw [Nat.mul_comm 4 i, flatMap_putBE32_drop, List.drop_eq_getElem_cons hi, List.flatMap_cons]
    have hx := v[i].isLt
    generalize v[i] = x at h hx
    have hget : ∀ j, j < 4 → (v.flatMap putBE32)[4 * i + j]? = (putBE32 x)[j]? := by
      intro j hj
      rw [← List.getElem?_drop, h, List.getElem?_append_left (by simpa using hj)]
    have e : putBE32 x = [BitVec.ofNat 8 (x.toNat / 256 / 256 / 256),
        BitVec.ofNat 8 (x.toNat / 256 / 256), BitVec.ofNat 8 (x.toNat / 256),
        BitVec.ofNat 8 x.toNat] := by
      simp [putBE32, beBytes, leBytes]
    have g0 := hget 0 (by omega)
    have g1 := hget 1 (by omega)
    have g2 := hget 2 (by omega)
    have g3 := hget 3 (by omega)
    rw [e] at g0 g1 g2 g3
    refine ⟨_, _, _, _, g0, g1, g2, g3, ?_⟩
    simp only [BitVec.toNat_ofNat]
    omega

example : (1 : Nat) < [7, 0x01020304].length := by decide

/-- C50: every byte string whose length is a multiple of four is the encoding of the vector it decodes
to; in general decoding ignores the at most three trailing bytes. -/
theorem C50_bytes_roundtrip (b : List Byte) :
    (byteSliceToUint32Slice b >>= uint32SliceToByteSlice) = ok (b.take (b.length / 4 * 4)) := by
  rw [byteSliceToUint32Slice_eq, ok_bind, uint32SliceToByteSlice_eq]
  congr 1
  rw [List.flatMap_map, flatMap_words b _ (by omega)]

theorem C50_bytes_roundtrip_aligned (b : List Byte) (h : 4 ∣ b.length) :
    (byteSliceToUint32Slice b >>= uint32SliceToByteSlice) = ok b := by
  rw [C50_bytes_roundtrip, Nat.div_mul_cancel h, List.take_of_length_le (le_refl _)]

example : 4 ∣ [0, 1, 2, 3, 4, 5, 6, (7 : Byte)].length := by decide

/-- C26: `ByteToBits` lists the bits of every byte, most significant bit first. -/
theorem C26_byteToBits_bits (data : List Byte) :
    ∃ out, byteToBits data = ok out ∧ out.length = 8 * data.length ∧
      ∀ i, (hi : i < data.length) → ∀ j, j < 8 →
        out[8 * i + j]? = some (data[i].getLsbD (7 - j)) := by
  refine ⟨_, byteToBits_eq data, ?_, ?_⟩
  · rw [flatMap_length_const data bits8 8 (by simp [bits8])]; omega
  · intro i hi j hj
    have h : ∀ (l : List Byte) (k : Nat), (l.flatMap bits8).drop (8 * k) = (l.drop k).flatMap bits8 := by
      intro l
      induction l with
      | nil => simp
      | cons a l ih =>
        intro k
        cases k with
        | zero => simp
        | succ k =>
          rw [List.flatMap_cons, List.drop_append, List.drop_eq_nil_of_le (by simp [bits8])]
          simp only [List.nil_append, List.drop_succ_cons]
          rw [← ih k]
          congr 1
    rw [← List.getElem?_drop, h, List.drop_eq_getElem_cons hi, List.flatMap_cons,
      List.getElem?_append_left (by simpa [bits8] using hj)]
    simp [bits8, hj]

example : byteToBits [0x81] = ok [true, false, false, false, false, false, false, true] := by decide

/-- C26: distinct byte strings have distinct bit strings. -/
theorem C26_byteToBits_injective (a b : List Byte) (h : byteToBits a = byteToBits b) : a = b := by
  rw [byteToBits_eq, byteToBits_eq] at h
  simp only [ok.injEq] at h
  exact flatMap_bits8_inj h

end Verif.Utils
