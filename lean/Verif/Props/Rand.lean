import Verif.Lemmas.Rand

/-! # C47, C54: the pseudo-random generators of lib/utils/rand.go -/

namespace Verif.Rand
open Res Spec

/-- C47: in any history of reads into zeroed buffers of arbitrary sizes, every read returns key-stream
bytes, and the key-stream segments of different reads never overlap. -/
theorem C47_reads_use_disjoint_keystream (g : Prg) (ns : List Nat) :
    ∃ segs : List (Nat × Nat), NonOverlapping segs ∧ (∀ s ∈ segs, g.pos ≤ s.1) ∧
      segs.map (·.2) = ns ∧
      (readAll (ns.map (fun n => List.replicate n 0)) g).1
        = segs.map (fun s => (List.range s.2).map (fun j => g.ks (s.1 + j))) :=
  readAll_zero ns g

/-- A concrete history: 4 bytes, then 20 bytes, then 3 bytes; the short read burns a whole block. -/
example : (readAll ([4, 20, 3].map (fun n => List.replicate n 0)) ⟨fun i => BitVec.ofNat 8 i, 0⟩).1
    = [[0, 1, 2, 3], [16, 17, 18, 19, 20, 21, 22, 23, 24, 25, 26, 27, 28, 29, 30, 31, 32, 33, 34, 35],
       [36, 37, 38]] := by decide

/-- C47: reading 16 bytes or more does not overwrite the buffer: it xors the key stream into whatever the
caller left there. (Callers that need key-stream bytes must pass a zeroed buffer.) -/
theorem C47_long_read_xors_into_buffer (g : Prg) (p : List Byte) (h : 16 ≤ p.length) :
    (g.read p).1 = List.zipWith (· ^^^ ·) p ((List.range p.length).map (fun j => g.ks (g.pos + j))) := by
  unfold Prg.read
  rw [if_neg (by omega)]
  rfl

example : 16 ≤ (List.replicate 16 (7 : Byte)).length := by decide

/-- C54: the `k`-th `Uint64` drawn from a buffered generator is the little-endian value of bytes
`8k .. 8k+7` of the served stream; it never fails, never skips or repeats a byte, for every buffer size,
also across refills of the internal buffer. -/
theorem C54_uint64_consecutive (ks : Nat → Byte) (size k : Nat) (h : 16 ≤ size) :
    ∃ b', uint64s 8 k (newBuf size ⟨ks, 0⟩) = some ((List.range k).map (fun i =>
      ofLE ((List.range 8).map (fun j => served ks size (8 * i + j)))), b') := by
  obtain ⟨b', e, -⟩ := uint64s_spec (ks := ks) h k 0 _ (inv_new ks size)
  exact ⟨b', by simpa using e⟩

example : 16 ≤ 8192 := by decide

/-- C54: after an arbitrary number of bytes was taken by other readers (so that the next value may straddle a
refill), `Uint64` still returns the next eight bytes: partial reads are completed by the loop. -/
theorem C54_uint64_unaligned (ks : Nat → Byte) (size : Nat) (hs : 16 ≤ size) (p : List Byte)
    (hp0 : 0 < p.length) (hp : p.length < size) :
    ∃ m b1 b2, (newBuf size ⟨ks, 0⟩).read p
        = ((List.range m).map (fun j => served ks size j) ++ p.drop m, m, b1) ∧ 1 ≤ m ∧ m ≤ p.length ∧
      uint64 8 b1 = some (ofLE ((List.range 8).map (fun j => served ks size (m + j))), b2) := by
  obtain ⟨m, b1, e1, h1, h2, hi⟩ := buf_read hs (inv_new ks size) p hp0 hp
  rw [Nat.zero_add] at hi
  obtain ⟨b2, e2, -⟩ := uint64_spec hs hi
  exact ⟨m, b1, b2, by simpa using e1, h1, h2, e2⟩

example : 0 < [(0 : Byte), 0, 0].length ∧ [(0 : Byte), 0, 0].length < 16 := by decide

/-- C54: the value served as a non-negative 64-bit integer is the next 64-bit value without its top bit; it is below 2^63,
and every number below 2^63 is served for exactly two of the 64-bit values. -/
theorem C54_int63 (ks : Nat → Byte) (size : Nat) (hs : 16 ≤ size) (p : List Byte)
    (hp0 : 0 < p.length) (hp : p.length < size) :
    ∃ m b1 b2 v, (newBuf size ⟨ks, 0⟩).read p
        = ((List.range m).map (fun j => served ks size j) ++ p.drop m, m, b1) ∧
      int63 8 b1 = some (v, b2) ∧ v < 2 ^ 63 ∧
      ∀ x, x < 2 ^ 63 → (v = x ↔ ofLE ((List.range 8).map (fun j => served ks size (m + j))) = x ∨
        ofLE ((List.range 8).map (fun j => served ks size (m + j))) = x + 2 ^ 63) := by
  obtain ⟨m, b1, b2, h1, -, -, h2⟩ := C54_uint64_unaligned ks size hs p hp0 hp
  have hlt := ofLE_lt ((List.range 8).map (fun j => served ks size (m + j)))
  simp only [List.length_map, List.length_range] at hlt
  refine ⟨m, b1, b2, _, h1, by rw [int63, h2]; rfl, by omega, ?_⟩
  intro x hx
  omega

/-- Three bytes taken before. -/
example : 16 ≤ 8192 ∧ 0 < [1, 2, (3 : Byte)].length ∧ [1, 2, (3 : Byte)].length < 8192 := by decide

/-- C54: the served stream is an invertible transformation of the key stream (so a uniform key stream is
served as a uniform stream): byte `o` of refill `f+1` of the key stream is recovered from the served bytes at the
same offset of two consecutive refills. -/
theorem C54_served_invertible (ks : Nat → Byte) (size f o : Nat) (ho : o < size) :
    served ks size o = ks o ∧
    served ks size (size * (f + 1) + o) ^^^ served ks size (size * f + o) = ks (size * (f + 1) + o) := by
  constructor
  · have := served_at ks size 0 o ho
    simpa [refill] using this
  · rw [served_at ks size (f + 1) o ho, served_at ks size f o ho, refill, BitVec.xor_comm,
      ← BitVec.xor_assoc, BitVec.xor_self, BitVec.zero_xor]

example : 3 < 16 := by decide

end Verif.Rand
