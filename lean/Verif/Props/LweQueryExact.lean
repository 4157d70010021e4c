import Verif.Props.Lwe
import Verif.Props.MatricesExact
import Verif.Lemmas.Panic

/-! # Exactly which byte strings the 32-bit LWE server answers (C56) -/

namespace Verif.Lwe
open Res Verif.Matrix Verif.Utils

/-- Every byte string of at least eight bytes is a header followed by the rest. -/
theorem header_form (q : List Byte) (h : 8 ≤ q.length) :
    ∃ r c rest, r < 2 ^ 32 ∧ c < 2 ^ 32 ∧ q = header r c ++ rest := by
  match q, h with
  | a0 :: a1 :: a2 :: a3 :: b0 :: b1 :: b2 :: b3 :: rest, _ =>
    have put : ∀ a b c d : Byte, ∃ n, n < 2 ^ 32 ∧ putBE32 (BitVec.ofNat 32 n) = [a, b, c, d] := by
      intro a b c d
      have hg : getBE32 [a, b, c, d] = ok (BitVec.ofNat 32 (ofBE [a, b, c, d])) := rfl
      exact ⟨_, (BitVec.ofNat 32 (ofBE [a, b, c, d])).isLt, by rw [BitVec.ofNat_toNat, BitVec.setWidth_eq]; exact putBE32_get rfl hg⟩
    obtain ⟨r, hr, er⟩ := put a0 a1 a2 a3
    obtain ⟨c, hc, ec⟩ := put b0 b1 b2 b3
    exact ⟨r, c, rest, hr, hc, by rw [header, er, ec]; rfl⟩

/-- C56: a query of the 32-bit server that announces fewer than 2^31 rows is answered exactly if it announces as many columns
as the database has rows, the product fits the index arithmetic of the kernel, and at least the announced entries follow. A
query of fewer than eight bytes makes the server panic. -/
theorem C56_exact (db : Db 32) (hv : db.Valid) (h0 : 0 < db.numRows) (hrows : db.numRows < 2 ^ 31)
    (hcols : db.numColumns < 2 ^ 31) :
    (∀ (r c : Nat) (rest : List Byte), r < 2 ^ 31 → c < 2 ^ 32 →
      ((∃ a, answerBytes lwe32 db (header r c ++ rest) = ok a) ↔
        c = db.numRows ∧ FitsInt r db.numRows db.numColumns ∧ r * c ≤ rest.length / 4)) ∧
    ∀ q : List Byte, q.length < 8 → (answerBytes lwe32 db q).isCrash := by
  constructor
  · intro r c rest hr hc
    have hm : bytesToMatrix (header r c ++ rest) = ok ⟨r, c, Panic.Spec.wordsOf rest⟩ := by
      rw [bytesToMatrix_header r c (by omega) hc, Panic.words_eq, ok_bind]
    have hl : (Panic.Spec.wordsOf rest).length = rest.length / 4 := by simp [Panic.Spec.wordsOf]
    have hans : answerBytes lwe32 db (header r c ++ rest) =
        (mulGo andOp ⟨r, c, Panic.Spec.wordsOf rest⟩ db.matrix >>= fun a => matrixToBytes a) := by
      show (bytesToMatrix (header r c ++ rest) >>= fun m => answer lwe32 db m >>= fun a => matrixToBytes a) = _
      rw [hm, ok_bind]
      rfl
    rw [hans]
    constructor
    · rintro ⟨a, ha⟩
      obtain ⟨m, h1, -⟩ := bind_eq_ok.mp ha
      have hcr : c = db.numRows := by
        by_contra hne
        unfold mulGo at h1
        rw [if_pos (by show c ≠ db.matrix.rows; rw [hv.rows]; exact hne)] at h1
        cases h1
      obtain ⟨h2, h3, -⟩ := C36_computed_only_if_fits andOp ⟨r, c, Panic.Spec.wordsOf rest⟩ db.matrix m hr
        (by show c < 2 ^ 31; omega) (by rw [hv.cols]; exact hcols) h1 (by show 0 < c; omega)
      refine ⟨hcr, ?_, by rw [← hl]; exact h3⟩
      rw [hv.cols] at h2
      rw [← hcr]
      exact h2
    · rintro ⟨rfl, hf, hlen⟩
      obtain ⟨m, h1, -⟩ := mulGo_spec andOp (⟨r, db.numRows, Panic.Spec.wordsOf rest⟩ : Mat 32) db.matrix
        (by rw [hv.rows]) (by rw [hv.cols]; exact hf) (by rw [hl]; exact hlen) (Nat.le_of_eq hv.wf.symm)
      exact ⟨enc m, by rw [h1, ok_bind, matrixToBytes_eq]⟩
  · intro q hq
    show ((bytesToMatrix q >>= fun m => answer lwe32 db m >>= fun a => matrixToBytes a)).isCrash
    have : (bytesToMatrix q).isCrash := by
      unfold bytesToMatrix
      by_cases h4 : 4 ≤ q.length
      · rw [slice_of_le (by omega) h4, ok_bind]
        unfold getBE32
        rw [if_pos (by simp; omega), ok_bind]
        unfold slice
        rw [if_neg (by omega)]
        simp
      · unfold slice
        rw [if_neg (by omega)]
        simp
    cases hb : bytesToMatrix q with
    | ok m => rw [hb] at this; simp at this
    | err m => rw [hb] at this; simp at this
    | crash m => simp

/-- A database of two rows: the query of one row and two entries is answered, with or without a stray byte after it, and the
one with a single entry is not. -/
example : (∃ a, answerBytes lwe32 ⟨⟨2, 1, [1, 1]⟩, 2, 1, ⟨1, 1, [0]⟩⟩ (header 1 2 ++ [0, 0, 0, 7, 0, 0, 0, 8, 9]) = ok a) ∧
    ¬ ∃ a, answerBytes lwe32 ⟨⟨2, 1, [1, 1]⟩, 2, 1, ⟨1, 1, [0]⟩⟩ (header 1 2 ++ [0, 0, 0, 7]) = ok a := by
  have hv : (⟨⟨2, 1, [1, 1]⟩, 2, 1, ⟨1, 1, [0]⟩⟩ : Db 32).Valid := by
    refine ⟨rfl, ?_, rfl, rfl⟩
    intro x hx
    simp at hx
    exact Or.inr hx
  have h := (C56_exact _ hv (by decide) (by decide) (by decide)).1
  exact ⟨(h 1 2 _ (by decide) (by decide)).mpr (by decide), fun h' => absurd ((h 1 2 _ (by decide) (by decide)).mp h') (by decide)⟩

end Verif.Lwe
