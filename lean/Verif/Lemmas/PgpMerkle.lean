import Verif.Lemmas.PgpTable
import Verif.Lemmas.Layout
import Verif.Props.MerklePir

/-! # Lemmas about the authenticated key database and lookups -/

set_option linter.unusedSimpArgs false
namespace Verif.Pgp
open Res Verif.Pgp.Spec Verif.Database Verif.Merkle Verif.Merkle.Spec Verif.Padding Verif.Point Verif.Point.Spec
  Verif.MerklePir Verif.Layout

/-- `generateRealKeyMerkle` from the blocks on. -/
def merkleOf (H : List Byte → List Byte) (ck : List Byte → U64) (blocks : List (List Byte)) (numRows numColumns : Nat) :
    Res Bytes := do
  let tree ← newUsing H 32 ck blocks
  let proofLen := encodedProofLength 32 tree
  let (lens, maxBlockLen) ← forLoop (numRows * numColumns) (fun i st => do
    let block ← idx blocks i
    let l := block.length + proofLen + 1
    let lens ← setAt st.1 i l
    ok (lens, if st.2 < l then l else st.2)) (List.replicate (numRows * numColumns) 0, 0)
  let entries ← makeMerkleEntries ck blocks tree numRows numColumns
  let root ← root tree
  ok ⟨entries, { numRows := numRows, numColumns := numColumns, blockSize := maxBlockLen, blockLengths := lens,
                 pirType := "merkle", root := root, proofLen := proofLen }⟩

theorem generateRealKeyMerkle_eq (H : List Byte → List Byte) (ck : List Byte → U64) {hash : Str → List Byte}
    (hh : HashLong hash) {sort : List Key → List Key}
    (hs : SortsById sort) {order : Orders} (ho : OrdersFair order) (loaded : List Key) (h10 : 10 ≤ loaded.length)
    (h32 : loaded.length ≤ 2 ^ 32) (rebalanced : Bool) {R C : Nat} (hd : dims loaded rebalanced = (R, C)) :
    generateRealKeyMerkle H ck hash sort order loaded rebalanced =
      merkleOf H ck (storedBlocks hash (R * C) (sort loaded)) R C := by
  have hlen : (sort loaded).length = loaded.length := (hs loaded).1.length_eq
  obtain ⟨t1, t2, -⟩ := table_size h32 rebalanced
  have t2 := t2 h10
  unfold dims at hd
  rw [hd] at t1 t2
  obtain ⟨ht, hm, hT⟩ := makeHashTable_spec hh (n := R * C) t2 t1 (sort loaded)
  unfold generateRealKeyMerkle
  dsimp only
  rw [hlen, hd]
  dsimp only
  rw [hm, ok_bind, table_eq t2 hT (ho.2 ht), ok_bind]
  rfl

theorem lens_loop_merkle (blocks : List (List Byte)) (n p : Nat) (hn : blocks.length = n) :
    ∃ mx, forLoop n (fun i (st : List Nat × Nat) => do
      let block ← idx blocks i
      let l := block.length + p + 1
      let lens ← setAt st.1 i l
      ok (lens, if st.2 < l then l else st.2)) (List.replicate n 0, 0) =
        ok (blocks.map (fun b => b.length + p + 1), mx) ∧ ∀ b ∈ blocks, b.length + p + 1 ≤ mx := by
  have key : ∀ m, m ≤ n → ∃ mx, forLoop m (fun i (st : List Nat × Nat) => do
      let block ← idx blocks i
      let l := block.length + p + 1
      let lens ← setAt st.1 i l
      ok (lens, if st.2 < l then l else st.2)) (List.replicate n 0, 0) =
      ok ((blocks.take m).map (fun b => b.length + p + 1) ++ List.replicate (n - m) 0, mx) ∧
        ∀ b ∈ blocks.take m, b.length + p + 1 ≤ mx := by
    intro m
    induction m with
    | zero => intro _; exact ⟨0, by simp, by simp⟩
    | succ m ih =>
      intro hm
      obtain ⟨mx, h1, h2⟩ := ih (by omega)
      refine ⟨if mx < blocks[m].length + p + 1 then blocks[m].length + p + 1 else mx, ?_, ?_⟩
      · rw [forLoop_succ, h1, ok_bind, idx_of_lt (by omega), ok_bind]
        dsimp only
        rw [setAt_of_lt (by simp; omega), ok_bind]
        congr 2
        obtain ⟨d, hd⟩ : ∃ d, n - m = d + 1 := ⟨n - m - 1, by omega⟩
        rw [hd, show n - (m + 1) = d by omega, List.replicate_succ, List.set_append_right _ _ (by simp)]
        rw [show m - ((blocks.take m).map (fun b => b.length + p + 1)).length = 0 by simp; omega]
        rw [List.take_add_one, List.getElem?_eq_getElem (by omega), Option.toList_some, List.map_append,
          List.append_assoc]
        rfl
      · intro b hb
        rw [List.take_add_one, List.getElem?_eq_getElem (by omega), Option.toList_some, List.mem_append,
          List.mem_singleton] at hb
        rcases hb with hb | rfl
        · have := h2 b hb
          split <;> omega
        · split <;> omega
  obtain ⟨mx, h1, h2⟩ := key n (le_refl _)
  rw [List.take_of_length_le (by omega)] at h1 h2
  refine ⟨mx, ?_, h2⟩
  rw [h1]
  simp

theorem merkleOf_holds {H : List Byte → List Byte} (hH : ∀ s, (H s).length = 32) {ck : List Byte → U64}
    {blocks : List (List Byte)} {R C : Nat} (hn : blocks.length = R * C) (h0 : 0 < R * C) (hsize : R * C ≤ 2 ^ 31)
    (hck : ChecksumsFaithful ck blocks) (hdist : Nat.clog 2 blocks.dedup.length = Nat.clog 2 blocks.length) :
    ∃ db, merkleOf H ck blocks R C = ok db ∧ db.info.numRows = R ∧ db.info.numColumns = C ∧ Holds H db blocks := by
  obtain ⟨t, ht, hT⟩ := newUsing_spec H 32 ck blocks (by rintro rfl; rw [List.length_nil] at hn; omega) (by omega)
  have hr := root_eq hT
  obtain ⟨stored, hs1, hs2⟩ := generateMerkleProofs_spec _ _ (fun d hd => sealed_of_mem hH ht (by omega) hck hdist hr hd)
  obtain ⟨mx, hl1, hl2⟩ := lens_loop_merkle blocks (R * C) (encodedProofLength 32 t) hn
  have hrun : merkleOf H ck blocks R C = ok ⟨stored.flatten,
      { numRows := R, numColumns := C, blockSize := mx,
        blockLengths := blocks.map (fun b => b.length + encodedProofLength 32 t + 1), pirType := "merkle",
        root := node H 32 blocks (depth blocks) 0, proofLen := encodedProofLength 32 t }⟩ := by
    unfold merkleOf
    dsimp only at hl1 ⊢
    rw [ht, ok_bind, hl1, ok_bind]
    dsimp only
    unfold makeMerkleEntries
    rw [slice_of_le (by omega) (by omega), ok_bind, List.drop_zero, Nat.sub_zero,
      List.take_of_length_le (by omega), hs1, ok_bind, hr, ok_bind]
  obtain ⟨hlen, hget⟩ := forall₂_get hs2
  have hlens : stored.map List.length = blocks.map (fun b => b.length + encodedProofLength 32 t + 1) := by
    apply List.ext_getElem
    · simp; omega
    · intro k h1 h2
      simp only [List.length_map] at h1 h2
      simp only [List.getElem_map]
      exact (hget k h2 h1).length
  refine ⟨_, hrun, rfl, rfl, rfl, stored, ⟨by dsimp only; omega, ⟨[], by simp⟩, hlens.symm, ?_⟩, hs2⟩
  intro b hb
  obtain ⟨k, hk, rfl⟩ := List.getElem_of_mem hb
  rw [(hget k (by omega) hk).length]
  exact hl2 _ (List.getElem_mem _)

/-- A database, plain or authenticated, with these blocks. -/
def Serves (H : List Byte → List Byte) (db : Bytes) (blocks : List (List Byte)) : Prop :=
  (db.info.pirType = "" ∧ Stores db blocks) ∨ Holds H db blocks

theorem serves_bytes {H : List Byte → List Byte} {hash : Str → List Byte} (hh : HashLong hash)
    {sort : List Key → List Key} (hs : SortsById sort) {order : Orders} (ho : OrdersFair order) (loaded : List Key)
    (h10 : 10 ≤ loaded.length) (h32 : loaded.length ≤ 2 ^ 32) (rebalanced : Bool) {R C : Nat}
    (hd : dims loaded rebalanced = (R, C)) :
    ∃ db, generateRealKeyBytes hash sort order loaded rebalanced = ok db ∧ db.info.numRows = R ∧
      db.info.numColumns = C ∧ Serves H db (storedBlocks hash (R * C) (sort loaded)) := by
  refine ⟨_, generateRealKeyBytes_eq hh hs ho loaded h10 h32 rebalanced hd, rfl, rfl, Or.inl ⟨rfl, ?_⟩⟩
  exact ⟨by simp [storedBlocks], ⟨[], by simp⟩, rfl, fun b hb => storedBlock_length_le hash _ _ b hb⟩

theorem serves_merkle {H : List Byte → List Byte} (hH : ∀ s, (H s).length = 32) {ck : List Byte → U64}
    {hash : Str → List Byte} (hh : HashLong hash)
    {sort : List Key → List Key} (hs : SortsById sort) {order : Orders} (ho : OrdersFair order) (loaded : List Key)
    (h10 : 10 ≤ loaded.length) (h32 : loaded.length ≤ 2 ^ 32) (rebalanced : Bool) {R C : Nat}
    (hd : dims loaded rebalanced = (R, C)) (hsize : R * C ≤ 2 ^ 31)
    (hck : ChecksumsFaithful ck (storedBlocks hash (R * C) (sort loaded)))
    (hdist : Nat.clog 2 (storedBlocks hash (R * C) (sort loaded)).dedup.length = Nat.clog 2 (R * C)) :
    ∃ db, generateRealKeyMerkle H ck hash sort order loaded rebalanced = ok db ∧ db.info.numRows = R ∧
      db.info.numColumns = C ∧ Serves H db (storedBlocks hash (R * C) (sort loaded)) := by
  obtain ⟨-, t2, -⟩ := table_size h32 rebalanced
  have t2 := t2 h10
  unfold dims at hd
  rw [hd] at t2
  have hl : (storedBlocks hash (R * C) (sort loaded)).length = R * C := by simp [storedBlocks]
  obtain ⟨db, h1, h2, h3, h4⟩ := merkleOf_holds hH hl t2 hsize hck (by rw [hl]; exact hdist)
  exact ⟨db, by rw [generateRealKeyMerkle_eq H ck hh hs ho loaded h10 h32 rebalanced hd]; exact h1, h2, h3, Or.inr h4⟩

/-- The block a client recovers from honest servers, followed by zeros if it is shorter than the others. -/
theorem fetch_exact {H : List Byte → List Byte} {db : Bytes} {blocks : List (List Byte)} (hS : Serves H db blocks)
    {dpf : Dpf} {read : Nat → Res (List Byte)} (hread : Delivers read) {mode n : Nat} (hfit : ServersFit dpf mode n)
    (hN : blocks.length < 2 ^ 32) {i : Nat} (hi : i < blocks.length) :
    ∃ qs st answers z, queryBytes dpf read db.info (putBE32 (BitVec.ofNat 32 i)) n = ok (qs, st) ∧
      qs.mapM (answer dpf mode db) = ok answers ∧
      reconstructPIR H answers db.info st = ok (blocks[i] ++ List.replicate z 0) ∧
      ((db.info.pirType = "" → blocks[i].length = db.info.blockSize) → z = 0) := by
  have hq : ∀ x, queryBytes dpf read db.info (putBE32 (BitVec.ofNat 32 i)) n = x ↔
      query dpf read db.info i n = x := by
    intro x
    unfold queryBytes
    have : getBE32 (putBE32 (BitVec.ofNat 32 i)) = ok (BitVec.ofNat 32 i) := by
      have := getBE32_put (BitVec.ofNat 32 i) []
      rwa [List.append_nil] at this
    rw [this, ok_bind, BitVec.toNat_ofNat, Nat.mod_eq_of_lt (by omega)]
  have hC : ∀ stored : List (List Byte), stored.length = blocks.length → Stores db stored →
      db.info.numColumns < 2 ^ 63 := by
    intro stored hl h
    have h1 := h.count
    have h2 : 0 < db.info.numRows := by
      rcases Nat.eq_zero_or_pos db.info.numRows with h | h
      · rw [h, Nat.zero_mul] at h1; omega
      · exact h
    have := Nat.le_mul_of_pos_left db.info.numColumns h2
    omega
  rcases hS with ⟨ht, hS⟩ | hS
  · obtain ⟨qs, st, answers, h1, h2, -, -, -, -, h3⟩ := honest_exchange dpf read hread mode n hfit db blocks hS
      (hC _ rfl hS) i hi
    refine ⟨qs, st, answers, db.info.blockSize - blocks[i].length, (hq _).mpr h1, h2, ?_, fun h => by have := h ht; omega⟩
    unfold reconstructPIR
    rw [ht, if_pos (Or.inr rfl), h3]
    rfl
  · have hret := hS
    obtain ⟨ht, stored, hst, hf⟩ := hS
    obtain ⟨hlen, hget⟩ := forall₂_get hf
    obtain ⟨qs, st, answers, h1, h2, -, -, -, -, h3⟩ := honest_exchange dpf read hread mode n hfit db stored hst
      (hC _ (by omega) hst) i (by omega)
    refine ⟨qs, st, answers, 0, (hq _).mpr h1, h2, ?_, fun _ => rfl⟩
    unfold reconstructPIR
    rw [ht, if_neg (by decide), if_pos rfl, h3, ok_bind, checkBlock_sealed (hget i hi (by omega))]
    simp

/-- The block a lookup of `id` recovers from honest servers. -/
theorem fetch {H : List Byte → List Byte} {db : Bytes} {blocks : List (List Byte)} (hS : Serves H db blocks)
    {dpf : Dpf} {read : Nat → Res (List Byte)} (hread : Delivers read) {mode n : Nat} (hfit : ServersFit dpf mode n)
    (hN : blocks.length < 2 ^ 32) {i : Nat} (hi : i < blocks.length) :
    ∃ qs st answers z, queryBytes dpf read db.info (putBE32 (BitVec.ofNat 32 i)) n = ok (qs, st) ∧
      qs.mapM (answer dpf mode db) = ok answers ∧
      reconstructPIR H answers db.info st = ok (blocks[i] ++ List.replicate z 0) := by
  obtain ⟨qs, st, answers, z, h1, h2, h3, -⟩ := fetch_exact hS hread hfit hN hi
  exact ⟨qs, st, answers, z, h1, h2, h3⟩

/-- A lookup reduces to parsing the packets of the bucket; an empty bucket crashes the client. -/
theorem getKey_eq {H : List Byte → List Byte} {db : Bytes} {hash : Str → List Byte} (hh : HashLong hash)
    {keys : List Key} {R C : Nat} (hR : db.info.numRows = R) (hCc : db.info.numColumns = C)
    (hS : Serves H db (storedBlocks hash (R * C) keys)) (h0 : 0 < R * C) (hN : R * C < 2 ^ 32)
    {dpf : Dpf} {read : Nat → Res (List Byte)} (hread : Delivers read) {mode n : Nat} (hfit : ServersFit dpf mode n)
    (lower : Str → Str) (readRing : List Byte → Res (List Entity)) (armor : Entity → Res (List Byte)) (id : Str) :
    let b := bucket hash (R * C) keys (position hash (R * C) id)
    (b ≠ [] → getKey H dpf read hash lower readRing armor mode db n id =
      (recoverKeyFromBlock lower readRing (packets b) id >>= armor)) ∧
    (b = [] → (getKey H dpf read hash lower readRing armor mode db n id).isCrash) := by
  have hp := position_lt hash h0 id
  have hl : (storedBlocks hash (R * C) keys).length = R * C := by simp [storedBlocks]
  obtain ⟨qs, st, answers, z, h1, h2, h3⟩ := fetch hS hread hfit (by omega) (i := position hash (R * C) id) (by omega)
  have hb : (storedBlocks hash (R * C) keys)[position hash (R * C) id]'(by omega) =
      storedBlock hash (R * C) keys (position hash (R * C) id) := by
    simp [storedBlocks]
  rw [hb] at h3
  have hrun : getKey H dpf read hash lower readRing armor mode db n id =
      (unPadBlock (storedBlock hash (R * C) keys (position hash (R * C) id) ++ List.replicate z 0) >>= fun r =>
        recoverKeyFromBlock lower readRing r id >>= armor) := by
    unfold getKey
    rw [hR, hCc, hashToIndex_spec hh h0 hN, ok_bind]
    dsimp only
    rw [h1, ok_bind]
    dsimp only
    rw [h2, ok_bind, h3, ok_bind]
  intro b
  refine ⟨fun hne => ?_, fun he => ?_⟩
  · rw [hrun]
    unfold storedBlock
    rw [if_neg hne, unPad_signal, ok_bind]
  · rw [hrun]
    unfold storedBlock
    rw [if_pos he, List.nil_append]
    have := (C13_unpad_crashes_iff (List.replicate z (0 : Byte))).mpr (fun x hx => List.eq_of_mem_replicate hx)
    cases hu : unPadBlock (List.replicate z (0 : Byte)) with
    | crash m => trivial
    | ok a => rw [hu] at this; cases this
    | err a => rw [hu] at this; cases this

end Verif.Pgp
