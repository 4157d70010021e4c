import Verif.Props.Matrix

/-! # Exactly which lists of matrices survive the wire format (C37) -/

namespace Verif.Matrix
open Res Verif.Utils

theorem words_length {b : List Byte} {a : List U32} (h : byteSliceToUint32Slice b = ok a) : a.length = b.length / 4 := by
  unfold byteSliceToUint32Slice at h
  refine forLoop_inv_ok (P := fun _ out => out.length = b.length / 4) (by simp) ?_ h
  intro i t t' _ ht hb
  obtain ⟨x, -, hb⟩ := bind_eq_ok.mp hb
  obtain ⟨y, -, hb⟩ := bind_eq_ok.mp hb
  unfold setAt at hb
  split at hb
  · cases hb
    rw [List.length_set, ht]
  · cases hb

/-- What a decoded matrix can be: its dimensions have 32 bits and its entries lie in the bytes after the header. -/
theorem bytesToMatrix_fits {b : List Byte} {m : Mat 32} (h : bytesToMatrix b = ok m) :
    m.rows < 2 ^ 32 ∧ m.cols < 2 ^ 32 ∧ 8 + 4 * m.data.length ≤ b.length := by
  unfold bytesToMatrix at h
  obtain ⟨x1, -, h⟩ := bind_eq_ok.mp h
  obtain ⟨rows, -, h⟩ := bind_eq_ok.mp h
  obtain ⟨x2, -, h⟩ := bind_eq_ok.mp h
  obtain ⟨cols, -, h⟩ := bind_eq_ok.mp h
  obtain ⟨rest, h3, h⟩ := bind_eq_ok.mp h
  obtain ⟨data, h4, h⟩ := bind_eq_ok.mp h
  cases h
  have h5 := slice_length h3
  have h6 := (slice_eq_ok.mp h3).1
  have h7 := words_length h4
  exact ⟨rows.isLt, cols.isLt, by simp only; omega⟩

/-- C37: whatever bytes are decoded, the list has fewer than 2^32 matrices, their dimensions have 32 bits, and each matrix
with its header is shorter than 2^32 bytes. -/
theorem C37_decoded {b : List Byte} {ms : List (Mat 32)} (h : bytesToMatrices b = ok ms) :
    ms.length < 2 ^ 32 ∧ ∀ m ∈ ms, m.rows < 2 ^ 32 ∧ m.cols < 2 ^ 32 ∧ 8 + 4 * m.data.length < 2 ^ 32 := by
  unfold bytesToMatrices at h
  obtain ⟨x1, -, h⟩ := bind_eq_ok.mp h
  obtain ⟨len, -, h⟩ := bind_eq_ok.mp h
  simp only at h
  split at h
  · cases h
  have hP := forLoop_inv_ok (P := fun i out => out.length = i ∧
    ∀ m ∈ out, m.rows < 2 ^ 32 ∧ m.cols < 2 ^ 32 ∧ 8 + 4 * m.data.length < 2 ^ 32) (by simp) ?_ h
  · exact ⟨by rw [hP.1]; exact Nat.mod_lt _ (by omega), hP.2⟩
  · rintro i t t' - ⟨h1, h2⟩ hb
    obtain ⟨s, h3, hb⟩ := bind_eq_ok.mp hb
    obtain ⟨m, h4, hb⟩ := bind_eq_ok.mp hb
    cases hb
    refine ⟨by simp [h1], ?_⟩
    intro m' hm'
    rcases List.mem_append.mp hm' with hm' | hm'
    · exact h2 m' hm'
    · rw [List.mem_singleton] at hm'
      subst hm'
      obtain ⟨h5, h6, h7⟩ := bytesToMatrix_fits h4
      have h8 := slice_length h3
      have h9 : (i + 1) * len.toNat = i * len.toNat + len.toNat := by rw [Nat.add_mul, Nat.one_mul]
      have := len.isLt
      exact ⟨h5, h6, by omega⟩

/-- C37, lists: a non-empty list of equally sized matrices is decoded from its encoding exactly when there are fewer than
2^32 matrices, both dimensions have 32 bits, and one encoded matrix is shorter than 2^32 bytes. -/
theorem C37_matrices_exact (ms : List (Mat 32)) (r c : Nat) (hne : ms ≠ [])
    (hd : ∀ m ∈ ms, m.rows = r ∧ m.cols = c ∧ m.WellFormed) :
    (matricesToBytes ms >>= bytesToMatrices) = ok ms ↔
      ms.length < 2 ^ 32 ∧ r < 2 ^ 32 ∧ c < 2 ^ 32 ∧ 8 + 4 * (r * c) < 2 ^ 32 := by
  constructor
  · intro h
    obtain ⟨b, -, h⟩ := bind_eq_ok.mp h
    obtain ⟨h1, h2⟩ := C37_decoded h
    obtain ⟨m, hm⟩ := List.exists_mem_of_ne_nil ms hne
    obtain ⟨h3, h4, h5⟩ := h2 m hm
    obtain ⟨h6, h7, h8⟩ := hd m hm
    rw [h8] at h5
    rw [h6] at h3 h5
    rw [h7] at h4 h5
    exact ⟨h1, h3, h4, h5⟩
  · rintro ⟨h1, h2, h3, h4⟩
    exact C37_matrices_round_trip_partial ms r c hne h2 h3 h1 h4 hd

/-- The list of two 1 × 2 matrices is on the positive side. -/
example : (matricesToBytes [⟨1, 2, [7, 8]⟩, ⟨1, 2, [1, 2]⟩] >>= bytesToMatrices) =
    ok [(⟨1, 2, [7, 8]⟩ : Mat 32), ⟨1, 2, [1, 2]⟩] := by
  refine (C37_matrices_exact _ 1 2 (by simp) ?_).mpr (by simp)
  intro m hm
  simp at hm
  rcases hm with rfl | rfl <;> exact ⟨rfl, rfl, rfl⟩

/-- A matrix without rows and with too many columns, which has no entries at all, is on the negative side. -/
example : (matricesToBytes [⟨0, 2 ^ 32, []⟩] >>= bytesToMatrices) ≠ ok [(⟨0, 2 ^ 32, []⟩ : Mat 32)] := by
  intro h
  have := (C37_matrices_exact [⟨0, 2 ^ 32, []⟩] 0 (2 ^ 32) (by simp)
    (by intro m hm; simp at hm; subst hm; exact ⟨rfl, rfl, by simp [Mat.WellFormed]⟩)).mp h
  omega

end Verif.Matrix
