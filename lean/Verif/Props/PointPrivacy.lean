import Verif.Props.Point
import Mathlib.SetTheory.Cardinal.Finite

/-! # C03: a coalition of all but one server learns nothing -/

namespace Verif.Point
open Res Verif.Database Verif.Point.Spec

/-- Random strings that make the client of index `i` show the view `v` to the coalition of all servers but `m`. -/
def Produces (dpf : Dpf) (info : Info) (n m : Nat) (i : Nat) (v : List (List Byte)) (r : List Byte) : Prop :=
  r.length = (n - 1) * (info.numColumns / 8 + 1) ∧
    ∃ qs st, query dpf (fun _ => ok r) info i n = ok (qs, st) ∧ qs.eraseIdx m = v

/-- Change the `m`-th chunk of `r` by `D`. -/
def shift (L m : Nat) (D r : List Byte) : List Byte :=
  (List.range r.length).map (fun p => r.getD p 0 ^^^ if p / L = m then D.getD (p % L) 0 else 0)

@[simp] theorem shift_length (L m : Nat) (D r : List Byte) : (shift L m D r).length = r.length := by simp [shift]

theorem shift_getD (L m : Nat) (D r : List Byte) {p : Nat} (hp : p < r.length) :
    (shift L m D r).getD p 0 = r.getD p 0 ^^^ if p / L = m then D.getD (p % L) 0 else 0 := by
  simp [shift, List.getD, hp]

theorem shift_shift (L m : Nat) (D r : List Byte) : shift L m D (shift L m D r) = r := by
  apply ext_getD (by simp)
  intro p hp
  simp only [shift_length] at hp
  rw [shift_getD _ _ _ _ (by simpa using hp), shift_getD _ _ _ _ hp, BitVec.xor_assoc, BitVec.xor_self,
    BitVec.xor_zero]

theorem shift_row {L m k N : Nat} {D r : List Byte} (hr : r.length = N * L) (hk : k < N) {t : Nat} (ht : t < L) :
    (rowOf (shift L m D r) L k).getD t 0 = (rowOf r L k).getD t 0 ^^^ if k = m then D.getD t 0 else 0 := by
  have hb := row_bound (C := L) hk
  rw [rowOf_getD _ _ _ ht, rowOf_getD _ _ _ ht, shift_getD _ _ _ _ (by omega)]
  have h1 : (k * L + t) / L = k := by
    rw [Nat.mul_comm, Nat.mul_add_div (by omega), Nat.div_eq_of_lt ht, Nat.add_zero]
  have h2 : (k * L + t) % L = t := by
    rw [Nat.mul_comm, Nat.mul_add_mod, Nat.mod_eq_of_lt ht]
  rw [h1, h2]

theorem mixed_getD {L y N : Nat} {rand : List Byte} (hr : rand.length = N * L) {k : Nat} (hk : k ≤ N) (t : Nat) :
    (mixed L y rand k).getD t 0 = (unitVec L y).getD t 0 ^^^ xsum k (fun i => (rowOf rand L i).getD t 0) := by
  induction k with
  | zero => simp [mixed, xsum]
  | succ k ih =>
    rw [mixed_succ, getD_xor (by rw [rowOf_length hr (by omega)]; simp), ih (by omega), xsum, BitVec.xor_assoc]

/-- The difference of two unit vectors. -/
def unitDiff (L y y' : Nat) : List Byte := fastxor (unitVec L y) (unitVec L y) (unitVec L y')

theorem shares_shift {C y y' N m : Nat} {r : List Byte} (hr : r.length = N * (C / 8 + 1)) (hm : m ≤ N) :
    (shares C y N r).eraseIdx m =
      (shares C y' N (shift (C / 8 + 1) m (unitDiff (C / 8 + 1) y y') r)).eraseIdx m := by
  have key : ∀ k, k ≠ m → k < N + 1 → (shares C y N r).getD k [] =
      (shares C y' N (shift (C / 8 + 1) m (unitDiff (C / 8 + 1) y y') r)).getD k [] := by
    intro k hkm hk
    unfold shares
    generalize C / 8 + 1 = L at *
    have hr' : (shift L m (unitDiff L y y') r).length = N * L := by simpa using hr
    rw [getD_append, getD_append]
    simp only [List.length_map, List.length_range]
    split
    · rename_i hkN
      rw [show ((List.range N).map (rowOf r L)).getD k [] = rowOf r L k by simp [List.getD, hkN],
        show ((List.range N).map (rowOf (shift L m (unitDiff L y y') r) L)).getD k [] =
          rowOf (shift L m (unitDiff L y y') r) L k by simp [List.getD, hkN]]
      apply ext_getD
      · rw [rowOf_length hr hkN, rowOf_length hr' hkN]
      · intro t ht
        rw [rowOf_length hr hkN] at ht
        rw [shift_row hr hkN ht, if_neg hkm]
        exact BitVec.xor_zero.symm
    · have hkN : k = N := by omega
      subst hkN
      simp only [Nat.sub_self, List.getD_cons_zero]
      apply ext_getD (by simp)
      intro t ht
      simp only [mixed_length] at ht
      rw [mixed_getD hr (Nat.le_refl _), mixed_getD hr' (Nat.le_refl _),
        xsum_congr (f := fun i => (rowOf (shift L m (unitDiff L y y') r) L i).getD t 0)
          (fun i hi => shift_row hr hi ht), xsum_xor,
        xsum_single (n := k) (k := m) (by omega) (fun _ => (unitDiff L y y').getD t 0), unitDiff,
        getD_xor (by simp), BitVec.xor_comm (xsum k _), ← BitVec.xor_assoc, ← BitVec.xor_assoc,
        BitVec.xor_comm ((unitVec L y').getD t 0), BitVec.xor_assoc ((unitVec L y).getD t 0), BitVec.xor_self,
        BitVec.xor_zero]
  apply List.ext_getElem
  · rw [List.length_eraseIdx, List.length_eraseIdx, shares_length, shares_length]
  · intro k h1 h2
    rw [List.length_eraseIdx, shares_length] at h1
    rw [if_pos (by omega)] at h1
    rw [List.getElem_eraseIdx, List.getElem_eraseIdx]
    split
    · have := key k (by omega) (by omega)
      have a1 : k < (shares C y N r).length := by rw [shares_length]; omega
      have a2 : k < (shares C y' N (shift (C / 8 + 1) m (unitDiff (C / 8 + 1) y y') r)).length := by
        rw [shares_length]; omega
      simpa [List.getD, a1, a2] using this
    · have := key (k + 1) (by omega) (by omega)
      have a1 : k + 1 < (shares C y N r).length := by rw [shares_length]; omega
      have a2 : k + 1 < (shares C y' N (shift (C / 8 + 1) m (unitDiff (C / 8 + 1) y y') r)).length := by
        rw [shares_length]; omega
      simpa [List.getD, a1, a2] using this

theorem unitDiff_comm (L y y' : Nat) : unitDiff L y y' = unitDiff L y' y := by
  apply ext_getD (by simp [unitDiff])
  intro t _
  rw [unitDiff, unitDiff, getD_xor (by simp), getD_xor (by simp), BitVec.xor_comm]

theorem query_fixed (dpf : Dpf) {info : Info} {i n : Nat} {r : List Byte} (hC : 0 < info.numColumns) (hn : 0 < n)
    (hn2 : n ≠ 2) (hr : r.length = (n - 1) * (info.numColumns / 8 + 1)) :
    query dpf (fun _ => ok r) info i n = ok (shares info.numColumns (i % info.numColumns) (n - 1) r,
        ⟨((i / info.numColumns : Nat) : Int), ((i % info.numColumns : Nat) : Int)⟩) := by
  unfold query
  have hinv : invalidQueryInputsIT i n = false := by simp [invalidQueryInputsIT]
  rw [hinv]
  simp only [Bool.false_eq_true, if_false]
  rw [indices _ _ hC]
  simp only [ok_bind]
  rw [if_neg (by omega)]
  obtain ⟨m, rfl⟩ : ∃ m, n = m + 1 := ⟨n - 1, by omega⟩
  rw [secretShare_eq _ info.numColumns _ m r (Nat.mod_lt _ hC) rfl hr]
  rfl

/-- The change of the random string that hides the index from the coalition. -/
theorem produces_shift {dpf : Dpf} {info : Info} {n m i i' : Nat} {v : List (List Byte)} {r : List Byte}
    (hC : 0 < info.numColumns) (hn2 : n ≠ 2) (hm : m < n) (h : Produces dpf info n m i v r) :
    Produces dpf info n m i' v (shift (info.numColumns / 8 + 1) m
      (unitDiff (info.numColumns / 8 + 1) (i % info.numColumns) (i' % info.numColumns)) r) := by
  obtain ⟨hr, qs, st, hq, hv⟩ := h
  rw [query_fixed dpf hC (by omega) hn2 hr] at hq
  simp only [ok.injEq, Prod.mk.injEq] at hq
  obtain ⟨rfl, -⟩ := hq
  refine ⟨by simpa using hr, _, _, query_fixed dpf hC (by omega) hn2 (by simpa using hr), ?_⟩
  rw [← hv]
  exact (shares_shift hr (by omega)).symm

/-- C03: for every view of a coalition missing server `m`, the number of random strings leading to that view is the
same for any two indices: the view is distributed identically. -/
theorem C03_view_independent_of_index (dpf : Dpf) (info : Info) (n m i i' : Nat) (v : List (List Byte))
    (hC : 0 < info.numColumns) (hn2 : n ≠ 2) (hm : m < n) :
    Nat.card {r // Produces dpf info n m i v r} = Nat.card {r // Produces dpf info n m i' v r} := by
  apply Nat.card_congr
  refine ⟨fun r => ⟨_, produces_shift (i' := i') hC hn2 hm r.2⟩, fun r => ⟨_, produces_shift (i' := i) hC hn2 hm r.2⟩,
    ?_, ?_⟩
  · rintro ⟨r, hr⟩
    apply Subtype.ext
    simp only
    rw [unitDiff_comm _ (i' % info.numColumns), shift_shift]
  · rintro ⟨r, hr⟩
    apply Subtype.ext
    simp only
    rw [unitDiff_comm _ (i % info.numColumns), shift_shift]

/-- The counted sets are not empty: the views are the ones queries really produce. -/
example : Produces plainDpf exDB.info 3 2 1 [[7], [7]] [7, 7] := by
  refine ⟨rfl, _, _, query_fixed plainDpf (by decide) (by decide) (by decide) rfl, ?_⟩
  decide

end Verif.Point
