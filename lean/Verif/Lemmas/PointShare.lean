import Verif.Lemmas.Point

set_option linter.unusedSimpArgs false

/-! # Lemmas for the secret sharing of point queries -/

namespace Verif.Point
open Res Verif.Database Verif.Point.Spec

/-- Bit string with the single bit `y` set. -/
def unitVec (L y : Nat) : List Byte := (List.replicate L 0).set (y / 8) (BitVec.ofNat 8 (1 <<< (y % 8)))

@[simp] theorem unitVec_length (L y : Nat) : (unitVec L y).length = L := by simp [unitVec]

theorem getLsbD_one_shift (a b : Nat) (hb : b < 8) : (BitVec.ofNat 8 (1 <<< a)).getLsbD b = decide (b = a) := by
  rw [BitVec.getLsbD_ofNat, Nat.one_shiftLeft, Nat.testBit_two_pow]
  simp [hb, eq_comm]

theorem bitOf_unitVec {L y : Nat} (hy : y < 8 * L) (j : Nat) : bitOf (unitVec L y) j = decide (j = y) := by
  unfold bitOf unitVec
  have hL : y / 8 < L := by omega
  by_cases h : j / 8 = y / 8
  · rw [h]
    have : ((List.replicate L (0 : Byte)).set (y / 8) (BitVec.ofNat 8 (1 <<< (y % 8)))).getD (y / 8) 0 =
        BitVec.ofNat 8 (1 <<< (y % 8)) := by
      simp [List.getD, hL]
    rw [this, getLsbD_one_shift _ _ (Nat.mod_lt _ (by omega))]
    congr 1
    apply propext
    constructor
    · intro h'; omega
    · intro h'; rw [h']
  · have : ((List.replicate L (0 : Byte)).set (y / 8) (BitVec.ofNat 8 (1 <<< (y % 8)))).getD (j / 8) 0 = 0 := by
      rw [show ((List.replicate L (0 : Byte)).set (y / 8) (BitVec.ofNat 8 (1 <<< (y % 8)))).getD (j / 8) 0 =
        (List.replicate L (0 : Byte)).getD (j / 8) 0 by
          simp only [List.getD, List.getElem?_set_ne (fun h' => h h'.symm)], getD_replicate]
    rw [this]
    have hne : j ≠ y := fun h' => h (by rw [h'])
    simp [hne]

theorem bitOf_xor {d e : List Byte} (h : e.length ≤ d.length) (j : Nat) :
    bitOf (fastxor d d e) j = (bitOf d j ^^ bitOf e j) := by
  unfold bitOf
  rw [getD_xor h, BitVec.getLsbD_xor]

/-- The value of the last share after the first `k` random shares were mixed in. -/
def mixed (L y : Nat) (rand : List Byte) (k : Nat) : List Byte :=
  (List.range k).foldl (fun s i => fastxor s s (rowOf rand L i)) (unitVec L y)

@[simp] theorem mixed_length (L y : Nat) (rand : List Byte) (k : Nat) : (mixed L y rand k).length = L := by
  induction k with
  | zero => simp [mixed]
  | succ k ih =>
    rw [mixed, List.range_succ, List.foldl_append]
    simp only [List.foldl_cons, List.foldl_nil, fastxor_length]
    exact ih

theorem mixed_succ (L y : Nat) (rand : List Byte) (k : Nat) :
    mixed L y rand (k + 1) = fastxor (mixed L y rand k) (mixed L y rand k) (rowOf rand L k) := by
  rw [mixed, List.range_succ, List.foldl_append]; rfl

/-- The shares as a function of the random bytes. -/
def shares (C y m : Nat) (rand : List Byte) : List (List Byte) :=
  (List.range m).map (rowOf rand (C / 8 + 1)) ++ [mixed (C / 8 + 1) y rand m]

theorem secretShare_eq (read : Nat → Res (List Byte)) (C y m : Nat) (rand : List Byte) (hy : y < C)
    (hread : read (m * (C / 8 + 1)) = ok rand) (hlen : rand.length = m * (C / 8 + 1)) :
    secretShare read C y (m + 1 : Nat) = ok (shares C y m rand) := by
  unfold secretShare shares
  have hyL : y / 8 < C / 8 + 1 := by have := Nat.div_le_div_right (c := 8) hy.le; omega
  generalize C / 8 + 1 = L at *
  simp only [show ¬ (((m + 1 : Nat) : Int) < 1) by omega, if_false, Int.toNat_natCast, Nat.add_sub_cancel, hread,
    ok_bind]
  have h1 : (y : Int).tdiv 8 = ((y / 8 : Nat) : Int) := by norm_cast
  have h2 : (y : Int).tmod 8 = ((y % 8 : Nat) : Int) := by norm_cast
  simp only [h1, h2, show ¬ (((y % 8 : Nat) : Int) < 0) by omega, show ¬ (((y / 8 : Nat) : Int) < 0) by omega,
    if_false, Int.toNat_natCast]
  rw [idx_of_lt (by simp)]
  simp only [List.getElem_replicate, ok_bind]
  rw [setAt_of_lt (by simpa using hyL)]
  simp only [ok_bind]
  rw [setAt_of_lt (by simp)]
  simp only [ok_bind]
  have h0 : (List.replicate (m + 1) (List.replicate L (0 : Byte))).set m
      ((List.replicate L (0 : Byte)).set (y / 8) (BitVec.ofNat 8 (1 <<< (y % 8)))) =
      (fun k => (List.range k).map (rowOf rand L) ++ (List.replicate (m - k) (List.replicate L (0 : Byte)) ++
      [mixed L y rand k])) 0 := by
    simp only [List.range_zero, List.map_nil, List.nil_append, Nat.sub_zero, mixed, List.foldl_nil]
    rw [List.replicate_succ', List.set_append_right _ _ (by simp)]
    simp [unitVec]
  rw [h0, forLoop_eq (fun k => (List.range k).map (rowOf rand L) ++ (List.replicate (m - k)
    (List.replicate L (0 : Byte)) ++ [mixed L y rand k]))]
  · simp
  · intro k hk
    have hb := row_bound (C := L) hk
    have hrow : (rowOf rand L k).length = L := rowOf_length hlen hk
    obtain ⟨d, hd⟩ : ∃ d, m - k = d + 1 := ⟨m - k - 1, by omega⟩
    have hd' : m - (k + 1) = d := by omega
    have hm : m = k + d + 1 := by omega
    rw [Nat.succ_mul, slice_of_le (by omega) (by omega), Nat.add_sub_cancel_left]
    change (ok (rowOf rand L k) >>= _) = _
    simp only [ok_bind, hd, hd', List.replicate_succ]
    have e1 : idx ((List.range k).map (rowOf rand L) ++ (List.replicate L (0 : Byte) ::
        List.replicate d (List.replicate L (0 : Byte)) ++ [mixed L y rand k])) k = ok (List.replicate L 0) := by
      rw [idx_eq_ok, List.getElem?_append_right (by simp)]; simp
    rw [e1]
    simp only [ok_bind]
    rw [copyAt_of_le (by simp [hrow])]
    simp only [List.take_zero, List.nil_append, Nat.zero_add, hrow, List.drop_replicate, Nat.sub_self,
      List.replicate_zero, List.append_nil, ok_bind]
    rw [setAt_of_lt (by simp)]
    simp only [ok_bind]
    have e2 : ((List.range k).map (rowOf rand L) ++ (List.replicate L (0 : Byte) ::
        List.replicate d (List.replicate L (0 : Byte)) ++ [mixed L y rand k])).set k (rowOf rand L k) =
        (List.range (k + 1)).map (rowOf rand L) ++ (List.replicate d (List.replicate L (0 : Byte)) ++
          [mixed L y rand k]) := by
      rw [List.set_append_right _ _ (by simp), List.range_succ]
      simp
    rw [e2]
    have e3 : idx ((List.range (k + 1)).map (rowOf rand L) ++ (List.replicate d (List.replicate L (0 : Byte)) ++
          [mixed L y rand k])) m = ok (mixed L y rand k) := by
      rw [idx_eq_ok, List.getElem?_append_right (by simp; omega), List.getElem?_append_right (by simp; omega)]
      simp [show m - (k + 1) - d = 0 by omega]
    rw [e3]
    simp only [ok_bind]
    rw [setAt_of_lt (by simp; omega)]
    congr 1
    rw [List.set_append_right _ _ (by simp; omega), List.set_append_right _ _ (by simp; omega), mixed_succ]
    simp [show m - (k + 1) - d = 0 by omega]

theorem shares_length (C y m : Nat) (rand : List Byte) : (shares C y m rand).length = m + 1 := by simp [shares]

theorem shares_mem_length {C y m : Nat} {rand : List Byte} (hlen : rand.length = m * (C / 8 + 1)) :
    ∀ v ∈ shares C y m rand, v.length = C / 8 + 1 := by
  intro v hv
  simp only [shares, List.mem_append, List.mem_map, List.mem_range, List.mem_singleton] at hv
  rcases hv with ⟨k, hk, rfl⟩ | rfl
  · exact rowOf_length hlen hk
  · simp

theorem bitOf_mixed {L y : Nat} {rand : List Byte} {m : Nat} (hlen : rand.length = m * L) (hy : y < 8 * L) (x : Byte)
    (j : Nat) {k : Nat} (hk : k ≤ m) :
    sel (bitOf (mixed L y rand k) j) x ^^^ xsum k (fun i => sel (bitOf (rowOf rand L i) j) x) =
      sel (decide (j = y)) x := by
  induction k with
  | zero => simp [xsum, mixed, bitOf_unitVec hy]
  | succ k ih =>
    rw [mixed_succ, bitOf_xor (by rw [rowOf_length hlen (by omega)]; simp), sel_xor, xsum, ← ih (by omega), xor4]
    rw [BitVec.xor_self, BitVec.xor_zero]

/-- The shares add up to the unit vector. -/
theorem shares_sum {C y m : Nat} {rand : List Byte} (hlen : rand.length = m * (C / 8 + 1)) (hy : y < C) (x : Byte)
    (j : Nat) : xsum (m + 1) (fun k => sel (bitOf ((shares C y m rand).getD k []) j) x) =
      sel (decide (j = y)) x := by
  rw [xsum, ← bitOf_mixed (L := C / 8 + 1) hlen (by omega) x j (Nat.le_refl m), BitVec.xor_comm]
  congr 1
  · rw [shares, getD_append, if_neg (by simp)]; simp
  · apply xsum_congr
    intro i hi
    rw [shares, getD_append, if_pos (by simpa using hi)]
    simp [List.getD, hi]

end Verif.Point
