import Verif.Props.MerklePir

/-! # C11: an attack that needs to know only the index -/

namespace Verif.MerklePir
open Res Verif.Database Verif.Merkle Verif.Merkle.Spec Verif.Padding Verif.Point Verif.Point.Spec

theorem rowOf_getD {l : List Byte} {C i t : Nat} (ht : t < C) : (rowOf l C i).getD t 0 = l.getD (i * C + t) 0 := by
  unfold rowOf
  simp only [List.getD_eq_getElem?_getD, List.getElem?_take, List.getElem?_drop, if_pos ht]

/-- Changing one answer by a mask changes the reconstructed value by the requested row of the mask. -/
theorem tampered_answer {info : Info} {ix : Nat} {iy : Int} (hix : ix < info.numRows) {answers : List (List Byte)}
    (hlen : ∀ a ∈ answers, a.length = info.numRows * info.blockSize) {v : List Byte}
    (hv : reconstructValue answers info ⟨ix, iy⟩ = ok v) {k : Nat} (hk : k < answers.length) {mask : List Byte}
    (hm : mask.length = info.numRows * info.blockSize) :
    reconstructValue (answers.set k (fastxor answers[k] answers[k] mask)) info ⟨ix, iy⟩ =
      ok (fastxor v v (rowOf mask info.blockSize ix)) := by
  have hself : (answers.set k answers[k]).Perm (answers[k] :: answers.eraseIdx k) := set_perm answers k _ hk
  rw [List.set_getElem_self] at hself
  rw [C05_point_order _ _ _ _ hself] at hv
  rw [C05_point_order _ _ _ _ (set_perm answers k _ hk)]
  have hak : answers[k].length = info.numRows * info.blockSize := hlen _ (List.getElem_mem _)
  have hxl : (fastxor answers[k] answers[k] mask).length = info.numRows * info.blockSize := by
    rw [fastxor_length, hak]
  have hothers : ∀ a ∈ answers.eraseIdx k, a.length = info.numRows * info.blockSize :=
    fun a ha => hlen a (List.mem_of_mem_eraseIdx ha)
  generalize answers.eraseIdx k = others at hv hothers ⊢
  generalize answers[k] = a at hv hak hxl ⊢
  have hrow : ∀ l : List Byte, l.length = info.numRows * info.blockSize →
      ∀ b ∈ l :: others, part info ⟨ix, iy⟩ b = ok (rowOf b info.blockSize ix) := by
    intro l hl b hb
    rcases List.mem_cons.mp hb with rfl | hb
    · exact part_of_row hl hix
    · exact part_of_row (hothers b hb) hix
  have hval : ∀ l : List Byte, l.length = info.numRows * info.blockSize →
      ∃ w, reconstructValue (l :: others) info ⟨ix, iy⟩ = ok w ∧ w.length = info.blockSize ∧
        ∀ t, w.getD t 0 = (rowOf l info.blockSize ix).getD t 0 ^^^
          xsum others.length (fun k => ((others.map (fun a => rowOf a info.blockSize ix)).getD k []).getD t 0) := by
    intro l hl
    rw [reconstructValue_eq, if_pos (fun b hb => ⟨_, hrow l hl b hb⟩)]
    have hmap : (l :: others).map (fun a => valueOf (part info ⟨ix, iy⟩ a)) =
        (l :: others).map (fun a => rowOf a info.blockSize ix) := by
      apply List.map_congr_left
      intro b hb
      rw [hrow l hl b hb]
      rfl
    rw [hmap, List.map_cons, List.foldl_cons]
    have hl1 : (rowOf l info.blockSize ix).length = info.blockSize := rowOf_length hl hix
    have hstart : fastxor (List.replicate info.blockSize 0) (List.replicate info.blockSize 0)
        (rowOf l info.blockSize ix) = rowOf l info.blockSize ix := by
      apply ext_getD (by simp [hl1])
      intro t _
      rw [getD_xor (by simp [hl1]), getD_replicate]
      exact BitVec.zero_xor
    rw [hstart]
    have hparts : ∀ x ∈ others.map (fun a => rowOf a info.blockSize ix), x.length = (rowOf l info.blockSize ix).length := by
      intro x hx
      obtain ⟨b, hb, rfl⟩ := List.mem_map.mp hx
      rw [rowOf_length (hothers b hb) hix, hl1]
    refine ⟨_, rfl, ?_, fun t => ?_⟩
    · rw [(foldl_xor_getD _ _ hparts 0).1, hl1]
    · rw [(foldl_xor_getD _ _ hparts t).2, List.length_map]
  obtain ⟨w, hw, hwl, hwt⟩ := hval a hak
  obtain ⟨w', hw', hwl', hwt'⟩ := hval _ hxl
  rw [hw] at hv
  simp only [ok.injEq] at hv
  subst hv
  rw [hw']
  congr 1
  have hml : (rowOf mask info.blockSize ix).length = info.blockSize := rowOf_length hm hix
  apply ext_getD (by rw [fastxor_length, hwl, hwl'])
  intro t ht
  rw [hwl'] at ht
  rw [getD_xor (by omega), hwt, hwt', rowOf_getD ht, rowOf_getD ht, rowOf_getD ht, getD_xor (by omega)]
  rw [BitVec.xor_assoc, BitVec.xor_assoc, BitVec.xor_comm (mask.getD _ 0)]

/-- The mask that turns row `ix` from `old` into `new` and is zero elsewhere. -/
theorem mask_exists (info : Info) {ix : Nat} (hix : ix < info.numRows) {old new : List Byte}
    (ho : old.length = info.blockSize) (hn : new.length = info.blockSize) :
    ∃ mask : List Byte, mask.length = info.numRows * info.blockSize ∧
      fastxor old old (rowOf mask info.blockSize ix) = new := by
  have hb := row_bound (C := info.blockSize) hix
  refine ⟨List.replicate (ix * info.blockSize) 0 ++ fastxor old old new ++
    List.replicate (info.numRows * info.blockSize - (ix * info.blockSize + info.blockSize)) 0, ?_, ?_⟩
  · simp only [List.length_append, List.length_replicate, fastxor_length, ho]
    omega
  · unfold rowOf
    rw [List.append_assoc, List.drop_left' (by simp), List.take_left' (by rw [fastxor_length, ho])]
    apply ext_getD (by rw [fastxor_length]; omega)
    intro t _
    rw [getD_xor (by rw [fastxor_length]), getD_xor (by omega), ← BitVec.xor_assoc, BitVec.xor_self]
    exact BitVec.zero_xor

theorem xor_zipWith {d e : List Byte} (h : d.length = e.length) : fastxor d d e = d.zipWith (· ^^^ ·) e := by
  rw [fastxor_self (by omega), ← h, List.take_length, List.drop_length, List.append_nil]

/-- In an exchange in which one server adds a mask to its answer, the client reconstructs the value of the server's
choice. The mask depends only on the database, the requested index and the value: not on the query, the randomness of
the client, the answers of the other servers or their number. -/
theorem blind (db : Bytes) (blocks : List (List Byte)) (hst : Stores db blocks) (hcols : db.info.numColumns < 2 ^ 63)
    (i : Nat) (hi : i < blocks.length) (value : List Byte) (hv : value.length = db.info.blockSize) :
    ∃ mask : List Byte, mask.length = db.info.numRows * db.info.blockSize ∧
      ∀ (dpf : Dpf) (read : Nat → Res (List Byte)), Delivers read → ∀ mode n, ServersFit dpf mode n →
        ∃ qs st answers, query dpf read db.info i n = ok (qs, st) ∧ qs.mapM (answer dpf mode db) = ok answers ∧
          answers.length = n ∧ ∀ k (hk : k < answers.length),
            reconstructValue (answers.set k (answers[k].zipWith (· ^^^ ·) mask)) db.info st = ok value := by
  have hi' := hi
  rw [hst.count] at hi'
  obtain ⟨-, hx, -, -⟩ := index_split hi'
  have hfits := hst.fits blocks[i] (List.getElem_mem _)
  obtain ⟨mask, hml, hmx⟩ := mask_exists db.info hx (old := zeroExtend db.info.blockSize blocks[i]) (new := value)
    (by unfold zeroExtend; simp; omega) hv
  refine ⟨mask, hml, fun dpf read hread mode n hfit => ?_⟩
  obtain ⟨qs, st, answers, h1, h2, h3, h4, ⟨iy, rfl⟩, h6, h7⟩ := honest_exchange dpf read hread mode n hfit db blocks hst
    hcols i hi
  refine ⟨qs, _, answers, h1, h2, h3, fun k hk => ?_⟩
  have hak : answers[k].length = mask.length := by rw [hml]; exact h4 _ (List.getElem_mem _)
  have := tampered_answer h6 h4 h7 hk hml
  rwa [hmx, xor_zipWith hak] at this

/-- C11: the substitution of a record needs no knowledge but the index: one server adds a mask, made from the database
and the two indices only, to the answer it would give, and the client accepts record `j` when it asks for record `i`. -/
theorem C11_blind_substitution (H : List Byte → List Byte) (db : Bytes) (records : List (List Byte))
    (hh : Holds H db records) (hcols : db.info.numColumns < 2 ^ 63) (i j : Nat) (hi : i < records.length)
    (hj : j < records.length) :
    ∃ mask : List Byte, ∀ (dpf : Dpf) (read : Nat → Res (List Byte)), Delivers read → ∀ mode n, ServersFit dpf mode n →
      ∃ qs st answers, query dpf read db.info i n = ok (qs, st) ∧ qs.mapM (answer dpf mode db) = ok answers ∧
        answers.length = n ∧ ∀ k (hk : k < answers.length),
          reconstructPIR H (answers.set k (answers[k].zipWith (· ^^^ ·) mask)) db.info st = ok records[j] := by
  obtain ⟨stored, hst, hf⟩ := hh.stored
  obtain ⟨hlen, hget⟩ := forall₂_get hf
  have hfit' := hst.fits stored[j] (List.getElem_mem _)
  obtain ⟨mask, -, hm⟩ := blind db stored hst hcols i (by omega) (zeroExtend db.info.blockSize stored[j])
    (by unfold zeroExtend; simp; omega)
  refine ⟨mask, fun dpf read hread mode n hfit => ?_⟩
  obtain ⟨qs, st, answers, h1, h2, h3, h4⟩ := hm dpf read hread mode n hfit
  refine ⟨qs, st, answers, h1, h2, h3, fun k hk => ?_⟩
  unfold reconstructPIR
  rw [hh.type]
  simp only [show ¬ ("merkle" = "classical" ∨ "merkle" = "") by decide, if_false, if_true]
  rw [h4 k hk, ok_bind]
  exact checkBlock_sealed (hget j hj (by omega)) _

/-- The hypotheses hold of a database of two records. -/
example : ∃ db, Holds toyHash db [[1], [2]] ∧ db.info.numColumns < 2 ^ 63 ∧
    ServersFit plainDpf 0 3 ∧ Delivers sevens := by
  have hrec : recordsOf [1, 2] (16 / (8 * 1)) 1 = [[1], [2]] := by decide
  obtain ⟨db, -, hR, hC, hh⟩ := createRandomMerkle_holds toyHash toyHash_length fnv1a (fun _ => ok [1, 2]) 16 1 1
    (by decide) (by decide) [1, 2] rfl (by decide) (by decide) (by decide)
    (by rw [hrec]; unfold ChecksumsFaithful; decide) (by rw [hrec]; decide)
  have ht : (recordsOf [1, 2] (16 / (8 * 1)) 1).take (1 * (16 / (8 * 1) / 1)) = [[1], [2]] := by decide
  rw [ht] at hh
  exact ⟨db, hh, by rw [hC]; decide, servers_fit_three _, sevens_delivers⟩

end Verif.MerklePir
