import Verif.Props.MerklePir
import Verif.Props.MerkleExact

/-! # C10: what authenticated retrieval gives when checksums do not tell the records apart -/

namespace Verif.MerklePir.Spec
open Res Verif.Merkle Verif.Merkle.Spec

/-- The last position of a record with this checksum. -/
structure LastWith (ck : List Byte → U64) (records : List (List Byte)) (c : U64) (j : Nat) : Prop where
  has : ∃ h : j < records.length, ck records[j] = c
  last : ∀ k (h : k < records.length), ck records[k] = c → k ≤ j

/-- The siblings on the way up from position `j`. -/
def treeProof (H : List Byte → List Byte) (records : List (List Byte)) (j : Nat) : Proof :=
  ⟨(List.range (depth records)).map (fun l => node H 32 records l (sibling (j / 2 ^ l))), BitVec.ofNat 32 j⟩

end Verif.MerklePir.Spec

namespace Verif.MerklePir
open Res Verif.Database Verif.Merkle Verif.Merkle.Spec Verif.Padding Verif.Point Verif.Point.Spec Verif.MerklePir.Spec

/-- A record with some proof, in the shape the database stores it. -/
structure Labelled (proofLen : Nat) (proof : Proof) (d stored : List Byte) : Prop where
  holds : ∃ enc, stored = d ++ (enc ++ [0x80]) ∧ enc.length = proofLen ∧ ∀ tail, decodeProof enc tail = ok proof

/-- What the client makes of it. -/
theorem checkBlock_labelled {H : List Byte → List Byte} {info : Info} {d s : List Byte} {proof : Proof}
    (h : Labelled info.proofLen proof d s) (n : Nat) :
    checkBlock H info (zeroExtend n s) =
      (verifyProof H d proof info.root >>= fun v => if v then ok d else err "REJECT!") := by
  obtain ⟨enc, rfl, h2, h3⟩ := h.holds
  unfold checkBlock zeroExtend
  rw [show d ++ (enc ++ [0x80]) = (d ++ enc) ++ [0x80] by simp, unPad_signal]
  simp only [ok_bind]
  have hl : (d ++ enc).length - info.proofLen = d.length := by simp; omega
  rw [if_neg (by simp; omega), hl, List.take_left, List.drop_left, h3]
  simp only [ok_bind]

/-- The proof made for a record is the one for the last position with its checksum. -/
theorem generateProof_last {H : List Byte → List Byte} {ck : List Byte → U64} {records : List (List Byte)} {t : Tree}
    (hT : IsTree H 32 ck records t) (hsize : records.length ≤ 2 ^ 31)
    (hdist : Nat.clog 2 (records.map ck).dedup.length = depth records) {d : List Byte} (hd : d ∈ records) {j : Nat}
    (hj : LastWith ck records (ck d) j) : generateProof ck t d = ok (treeProof H records j) := by
  obtain ⟨proof, hp, hlen, ⟨hi, hc⟩, hs⟩ := generateProof_spec hT hsize hdist hd
  obtain ⟨i0, hi0, rfl⟩ := List.getElem_of_mem hd
  obtain ⟨k, hk⟩ := hT.map.complete i0 hi0 hi0
  obtain ⟨hklt, -, hck⟩ := hT.map.sound _ _ hk
  obtain ⟨hjlt, hcj⟩ := hj.has
  have hkj : k = j := le_antisymm (hj.last k hklt hck) (hT.map.last _ _ hk j hjlt hjlt hcj)
  subst hkj
  have hidx : proof.index = BitVec.ofNat 32 k := by
    have hp' := hp
    unfold generateProof at hp'
    rw [hk] at hp'
    simp only [bind_eq_ok, ok.injEq] at hp'
    obtain ⟨hs', -, rfl⟩ := hp'
    rfl
  have hn : proof.index.toNat = k := by
    rw [hidx, BitVec.toNat_ofNat, Nat.mod_eq_of_lt (by omega)]
  rw [hp]
  congr 1
  obtain ⟨hashes, index⟩ := proof
  simp only at hidx hn hlen hs
  unfold treeProof
  rw [hidx]
  congr 1
  apply List.ext_getElem (by simp [hlen])
  intro l h1 h2
  have := hs l (by omega)
  rw [List.getElem?_eq_getElem h1, hn] at this
  simp only [List.getElem_map, List.getElem_range]
  exact Option.some.inj this

/-- Every checksum of a record has a last position. -/
theorem last_exists (ck : List Byte → U64) (records : List (List Byte)) {d : List Byte} (hd : d ∈ records) :
    ∃ j, LastWith ck records (ck d) j := by
  classical
  obtain ⟨i, hi, rfl⟩ := List.getElem_of_mem hd
  let p : Nat → Prop := fun k => ∃ h : k < records.length, ck records[k] = ck records[i]
  have hp : p i := ⟨hi, rfl⟩
  have hb : i ≤ records.length := le_of_lt hi
  refine ⟨Nat.findGreatest p records.length, Nat.findGreatest_spec (P := p) hb hp, fun k hk hc => ?_⟩
  exact Nat.le_findGreatest (le_of_lt hk) ⟨hk, hc⟩

/-- The database that is generated when the checksums need all levels. -/
theorem createRandomMerkle_labelled (H : List Byte → List Byte) (hH : ∀ s, (H s).length = 32) (ck : List Byte → U64)
    (read : Nat → Res (List Byte)) (dbLen numRows blockLen : Nat) (hrows : 0 < numRows) (hbl : 0 < blockLen)
    (data : List Byte) (hread : read (dbLen / (8 * blockLen) * blockLen) = ok data)
    (hdl : data.length = dbLen / (8 * blockLen) * blockLen)
    (h0 : 0 < dbLen / (8 * blockLen)) (hsize : dbLen / (8 * blockLen) ≤ 2 ^ 31) (N : Nat) (hN : dbLen / (8 * blockLen) = N)
    (hdist : Nat.clog 2 ((recordsOf data N blockLen).map ck).dedup.length = Nat.clog 2 N) :
    ∃ db stored, createRandomMerkle H ck read dbLen numRows blockLen = ok db ∧ db.info.pirType = "merkle" ∧
      db.info.numColumns = N / numRows ∧
      db.info.root = node H 32 (recordsOf data N blockLen) (depth (recordsOf data N blockLen)) 0 ∧
      Stores db stored ∧ List.Forall₂ (fun d s => ∀ j, LastWith ck (recordsOf data N blockLen) (ck d) j →
          Labelled db.info.proofLen (treeProof H (recordsOf data N blockLen) j) d s)
        ((recordsOf data N blockLen).take (numRows * (N / numRows))) stored := by
  rw [hN] at hread hdl h0 hsize
  have hreclen : (recordsOf data N blockLen).length = N := by simp [recordsOf]
  obtain ⟨t, ht, hT⟩ := newUsing_spec H 32 ck (recordsOf data N blockLen)
    (by intro h; rw [h] at hreclen; simp at hreclen; omega) (by omega)
  have hr := root_eq hT
  have hle : numRows * (N / numRows) ≤ N := Nat.mul_div_le N numRows
  have hseal : ∀ d ∈ (recordsOf data N blockLen).take (numRows * (N / numRows)), ∃ s, sealRecord ck t d = ok s ∧
      (s.length = d.length + encodedProofLength 32 t + 1 ∧ ∀ j, LastWith ck (recordsOf data N blockLen) (ck d) j →
        Labelled (encodedProofLength 32 t) (treeProof H (recordsOf data N blockLen) j) d s) := by
    intro d hd
    have hd := List.mem_of_mem_take hd
    obtain ⟨j, hj⟩ := last_exists ck _ hd
    have hp := generateProof_last hT (by omega) (by rw [hdist]; unfold depth; rw [hreclen]) hd hj
    obtain ⟨enc, h1, h2, -⟩ := C09_announced_length H hH ck _ t (by omega) ht d _ hp hd []
    refine ⟨d ++ padWithSignalByte enc, by simp [sealRecord, hp, h1], ?_, ?_⟩
    · simp [padWithSignalByte, h2]; omega
    · intro j' hj'
      have hp' := generateProof_last hT (by omega) (by rw [hdist]; unfold depth; rw [hreclen]) hd hj'
      refine ⟨enc, rfl, h2, fun tail => ?_⟩
      obtain ⟨enc', h1', -, h3'⟩ := C09_announced_length H hH ck _ t (by omega) ht d _ hp hd tail
      have : enc' = enc := by have := h1'.symm.trans h1; simpa using this
      subst this
      rw [h3']
      rw [hp] at hp'
      exact hp'
  obtain ⟨stored, hs1, hs2⟩ := generateMerkleProofs_spec _ _ hseal
  have hentries : makeMerkleEntries ck (recordsOf data N blockLen) t numRows (N / numRows) = ok stored.flatten := by
    unfold makeMerkleEntries
    rw [slice_of_le (by omega) (by omega)]
    simp only [ok_bind, List.drop_zero, Nat.sub_zero]
    exact hs1
  have hrun : createRandomMerkle H ck read dbLen numRows blockLen = ok ⟨stored.flatten,
      { numRows := numRows, numColumns := N / numRows, blockSize := blockLen + encodedProofLength 32 t + 1,
        blockLengths := List.replicate (numRows * (N / numRows)) (blockLen + encodedProofLength 32 t + 1),
        pirType := "merkle",
        root := node H 32 (recordsOf data N blockLen) (depth (recordsOf data N blockLen)) 0,
        proofLen := encodedProofLength 32 t }⟩ := by
    unfold createRandomMerkle
    rw [if_neg (by omega), hN]
    simp only
    rw [hread]
    simp only [ok_bind]
    rw [cutBlocks_eq data N blockLen (by omega)]
    simp only [ok_bind]
    change (match newUsing H 32 ck (recordsOf data N blockLen) with | err m => _ | crash m => _ | ok tree => _) = _
    rw [ht]
    simp only
    rw [if_neg (by omega), fill_eq]
    simp only [ok_bind]
    have hentries' : makeMerkleEntries ck (List.map (fun i => List.take blockLen (List.drop (i * blockLen) data))
        (List.range N)) t numRows (N / numRows) = ok stored.flatten := hentries
    rw [hentries']
    simp only [ok_bind]
    rw [hr]
    rfl
  refine ⟨_, stored, hrun, rfl, rfl, rfl, ?_, hs2.imp (fun _ _ h => h.2)⟩
  obtain ⟨hlen, hget⟩ := forall₂_get hs2
  have htl : ((recordsOf data N blockLen).take (numRows * (N / numRows))).length = numRows * (N / numRows) := by
    rw [List.length_take]; omega
  have hstl : ∀ s ∈ stored, s.length = blockLen + encodedProofLength 32 t + 1 := by
    intro s hs
    obtain ⟨k, hk, rfl⟩ := List.getElem_of_mem hs
    have := (hget k (by omega) hk).1
    rw [this]
    congr 2
    simp only [recordsOf, List.getElem_take, List.getElem_map, List.getElem_range, List.length_take, List.length_drop]
    have : (k + 1) * blockLen ≤ N * blockLen := Nat.mul_le_mul_right _ (by omega)
    rw [Nat.succ_mul] at this
    omega
  refine ⟨?_, ⟨[], by simp⟩, ?_, ?_⟩
  · simp only; omega
  · simp only
    rw [eq_comm, List.eq_replicate_iff]
    refine ⟨by simp; omega, ?_⟩
    intro b hb
    obtain ⟨s, hs, rfl⟩ := List.mem_map.mp hb
    exact hstl s hs
  · intro b hb
    rw [hstl b hb]

/-- C10, exactly, when the checksums of the records need as many tree levels as the records: the database is generated, and a client
that looks up record `i` with honest servers obtains it if the last record with the same checksum has the same content. If it has
another, the client rejects the honest answers, unless the verification exhibits a collision of the hash function. -/
theorem C10_exact (H : List Byte → List Byte) (hH : ∀ s, (H s).length = 32)
    (ck : List Byte → U64) (dbread : Nat → Res (List Byte)) (dbLen numRows blockLen : Nat) (hrows : 0 < numRows)
    (hbl : 0 < blockLen) (data : List Byte) (hdata : dbread (dbLen / (8 * blockLen) * blockLen) = ok data)
    (hdl : data.length = dbLen / (8 * blockLen) * blockLen)
    (h0 : 0 < dbLen / (8 * blockLen)) (hsize : dbLen / (8 * blockLen) ≤ 2 ^ 31) (records : List (List Byte))
    (hrec : records = recordsOf data (dbLen / (8 * blockLen)) blockLen)
    (hdist : Nat.clog 2 (records.map ck).dedup.length = Nat.clog 2 (dbLen / (8 * blockLen))) :
    ∃ db, createRandomMerkle H ck dbread dbLen numRows blockLen = ok db ∧
      ∀ (dpf : Dpf) (read : Nat → Res (List Byte)), Delivers read → ∀ mode n, ServersFit dpf mode n →
      ∀ i, i < numRows * (dbLen / (8 * blockLen) / numRows) → ∀ (hi : i < records.length) (j : Nat) (hj : j < records.length),
        LastWith ck records (ck records[i]) j →
        (records[j] = records[i] → retrieveAuth H dpf read mode db i n = ok records[i]) ∧
        (records[j] ≠ records[i] → NoCollision H 32 records records[i] (treeProof H records j) →
          retrieveAuth H dpf read mode db i n = err "REJECT!") := by
  subst hrec
  obtain ⟨db, stored, hdb, htype, hC, hroot, hst, hf⟩ := createRandomMerkle_labelled H hH ck dbread dbLen numRows blockLen hrows
    hbl data hdata hdl h0 hsize _ rfl hdist
  refine ⟨db, hdb, ?_⟩
  intro dpf read hread mode n hfit i hi hi' j hj' hj
  obtain ⟨hlen, hget⟩ := forall₂_get hf
  have hle : numRows * (dbLen / (8 * blockLen) / numRows) ≤ dbLen / (8 * blockLen) := Nat.mul_div_le _ _
  have hreclen : (recordsOf data (dbLen / (8 * blockLen)) blockLen).length = dbLen / (8 * blockLen) := by
    simp [recordsOf]
  have htl : i < ((recordsOf data (dbLen / (8 * blockLen)) blockLen).take
      (numRows * (dbLen / (8 * blockLen) / numRows))).length := by
    rw [List.length_take]; omega
  have hcols : db.info.numColumns < 2 ^ 63 := by
    rw [hC]
    have := Nat.div_le_self (dbLen / (8 * blockLen)) numRows
    omega
  have hret : retrieve dpf read mode db i n = ok (zeroExtend db.info.blockSize stored[i]) := by
    rcases hfit with ⟨rfl, hn, hn2⟩ | ⟨rfl, rfl, hdpf⟩
    · exact C01_retrieve dpf read hread db stored hst i n (by omega) hn hn2
    · exact C02_retrieve dpf hdpf read db stored hst hcols i (by omega)
  have hlab := hget i htl (by omega)
  rw [List.getElem_take] at hlab
  have hlab := hlab j hj
  rw [retrieveAuth_eq htype, hret, ok_bind, checkBlock_labelled hlab, hroot]
  have hD : depth (recordsOf data (dbLen / (8 * blockLen)) blockLen) ≤ 31 := depth_le (by omega)
  have hidx : (treeProof H (recordsOf data (dbLen / (8 * blockLen)) blockLen) j).index.toNat = j := by
    show (BitVec.ofNat 32 j).toNat = j
    rw [BitVec.toNat_ofNat, Nat.mod_eq_of_lt (by omega)]
  have hplen : (treeProof H (recordsOf data (dbLen / (8 * blockLen)) blockLen) j).hashes.length =
      depth (recordsOf data (dbLen / (8 * blockLen)) blockLen) := by simp [treeProof]
  constructor
  · intro he
    have hv := verify_spec H 32 (recordsOf data (dbLen / (8 * blockLen)) blockLen) (by omega)
      (treeProof H (recordsOf data (dbLen / (8 * blockLen)) blockLen) j) hplen (by rw [hidx]; exact hj') (by
        intro l hl
        rw [hidx]
        simp [treeProof, hl])
    simp only [hidx, he] at hv
    rw [hv, ok_bind, if_pos rfl]
  · intro hne hnc
    have hbool : ∃ v, verifyProof H (recordsOf data (dbLen / (8 * blockLen)) blockLen)[i]
        (treeProof H (recordsOf data (dbLen / (8 * blockLen)) blockLen) j)
        (node H 32 (recordsOf data (dbLen / (8 * blockLen)) blockLen)
          (depth (recordsOf data (dbLen / (8 * blockLen)) blockLen)) 0) = ok v := by
      unfold verifyProof generateProofHash
      rw [indexToBytes_eq (BitVec.isLt _)]
      exact ⟨_, rfl⟩
    obtain ⟨v, hv⟩ := hbool
    rw [hv, ok_bind]
    cases v
    · rfl
    · exfalso
      obtain ⟨t, ht, hT⟩ := newUsing_spec H 32 ck (recordsOf data (dbLen / (8 * blockLen)) blockLen)
        (by intro h; rw [h] at hreclen; simp at hreclen; omega) (by omega)
      have := C08_full_length_partial H 32 hH ck _ t _ (by omega) ht (root_eq hT) _ _ hplen (by
        intro h hh
        simp only [treeProof, List.mem_map] at hh
        obtain ⟨l, -, rfl⟩ := hh
        exact node_length hH _ _ _) hv hnc
      rw [hidx, List.getElem?_eq_getElem hj'] at this
      exact hne (Option.some.inj this)

/-- C10, exactly, otherwise: if the checksums need fewer levels and there is a record to store, the generator ends the program. -/
theorem C10_generator_crashes (H : List Byte → List Byte)
    (ck : List Byte → U64) (dbread : Nat → Res (List Byte)) (dbLen numRows blockLen : Nat) (hrows : 0 < numRows)
    (hbl : 0 < blockLen) (data : List Byte) (hdata : dbread (dbLen / (8 * blockLen) * blockLen) = ok data)
    (hdl : data.length = dbLen / (8 * blockLen) * blockLen) (hfew : numRows ≤ dbLen / (8 * blockLen))
    (hsize : dbLen / (8 * blockLen) ≤ 2 ^ 31)
    (hdist : Nat.clog 2 ((recordsOf data (dbLen / (8 * blockLen)) blockLen).map ck).dedup.length
      < Nat.clog 2 (dbLen / (8 * blockLen))) :
    (createRandomMerkle H ck dbread dbLen numRows blockLen).isCrash := by
  generalize hN : dbLen / (8 * blockLen) = N at *
  have hreclen : (recordsOf data N blockLen).length = N := by simp [recordsOf]
  obtain ⟨t, ht, hc⟩ := C07_duplicates_crash H 32 ck (recordsOf data N blockLen) (by omega) (by rw [hreclen]; exact hdist)
  have hle : numRows * (N / numRows) ≤ N := Nat.mul_div_le N numRows
  have hpos : 0 < numRows * (N / numRows) := Nat.mul_pos hrows (Nat.div_pos hfew hrows)
  have hent : (makeMerkleEntries ck (recordsOf data N blockLen) t numRows (N / numRows)).isCrash := by
    unfold makeMerkleEntries
    rw [slice_of_le (by omega) (by omega)]
    simp only [ok_bind, List.drop_zero, Nat.sub_zero]
    cases hl : (recordsOf data N blockLen).take (numRows * (N / numRows)) with
    | nil =>
      exfalso
      have := congrArg List.length hl
      rw [List.length_take, hreclen, List.length_nil] at this
      omega
    | cons d l =>
      have hd : d ∈ recordsOf data N blockLen := List.mem_of_mem_take (by rw [hl]; exact List.mem_cons_self)
      have hcd := hc d hd
      unfold generateMerkleProofs
      rw [List.foldlM_cons]
      unfold sealRecord
      cases hg : generateProof ck t d with
      | ok p => rw [hg] at hcd; simp at hcd
      | err m => rw [hg] at hcd; simp at hcd
      | crash m => simp
  unfold createRandomMerkle
  rw [if_neg (by omega), hN]
  simp only
  rw [hdata]
  simp only [ok_bind]
  rw [cutBlocks_eq data N blockLen (by omega)]
  simp only [ok_bind]
  change (match newUsing H 32 ck (recordsOf data N blockLen) with | err m => _ | crash m => _ | ok tree => _ : Res Bytes).isCrash
  rw [ht]
  simp only
  rw [if_neg (by omega), fill_eq]
  simp only [ok_bind]
  rw [isCrash_bind]
  exact Or.inl hent

/-! ### Concrete cases -/

/-- A hash function that depends on every byte. -/
def polyHash (s : List Byte) : List Byte :=
  (List.range 32).map (fun k => s.foldl (fun a b => a * (2 * b + BitVec.ofNat 8 k + 1) + b + BitVec.ofNat 8 k) (BitVec.ofNat 8 k))

theorem polyHash_length (s : List Byte) : (polyHash s).length = 32 := by simp [polyHash]

/-- A checksum that looks at the first byte only. -/
def headSum (r : List Byte) : U64 := BitVec.ofNat 64 (r.headD 0).toNat

/-- Four records, of which the first two have the same checksum. -/
def clashing : List Byte := [1, 2, 1, 3, 4, 5, 6, 7]

theorem clashing_records : recordsOf clashing 4 2 = [[1, 2], [1, 3], [4, 5], [6, 7]] := by decide

theorem clashing_last : LastWith headSum [[1, 2], [1, 3], [4, 5], [6, 7]] 1 1 := by
  refine ⟨⟨by decide, by decide⟩, fun k hk hc => ?_⟩
  have : k = 0 ∨ k = 1 ∨ k = 2 ∨ k = 3 := by simp at hk; omega
  rcases this with rfl | rfl | rfl | rfl
  · decide
  · decide
  · exact absurd (show headSum [4, 5] = 1 from hc) (by decide)
  · exact absurd (show headSum [6, 7] = 1 from hc) (by decide)

theorem clashing_free : NoCollision polyHash 32 [[1, 2], [1, 3], [4, 5], [6, 7]] [1, 2]
    (treeProof polyHash [[1, 2], [1, 3], [4, 5], [6, 7]] 1) := by
  have hdep : depth ([[1, 2], [1, 3], [4, 5], [6, 7]] : List (List Byte)) = 2 := by decide
  have htp : treeProof polyHash [[1, 2], [1, 3], [4, 5], [6, 7]] 1 =
      ⟨[node polyHash 32 [[1, 2], [1, 3], [4, 5], [6, 7]] 0 0, node polyHash 32 [[1, 2], [1, 3], [4, 5], [6, 7]] 1 1], 1⟩ := by
    unfold treeProof
    rw [hdep]
    rfl
  rw [htp]
  constructor
  · have key : ∀ a ∈ verifierInputs polyHash [1, 2] ⟨[node polyHash 32 [[1, 2], [1, 3], [4, 5], [6, 7]] 0 0,
        node polyHash 32 [[1, 2], [1, 3], [4, 5], [6, 7]] 1 1], 1⟩,
        ∀ b ∈ ([[1, 2, 0, 0, 0, 0], [1, 3, 1, 0, 0, 0], [4, 5, 2, 0, 0, 0], [6, 7, 3, 0, 0, 0],
          node polyHash 32 [[1, 2], [1, 3], [4, 5], [6, 7]] 0 0 ++ node polyHash 32 [[1, 2], [1, 3], [4, 5], [6, 7]] 0 1,
          node polyHash 32 [[1, 2], [1, 3], [4, 5], [6, 7]] 0 2 ++ node polyHash 32 [[1, 2], [1, 3], [4, 5], [6, 7]] 0 3,
          node polyHash 32 [[1, 2], [1, 3], [4, 5], [6, 7]] 1 0 ++ node polyHash 32 [[1, 2], [1, 3], [4, 5], [6, 7]] 1 1] :
            List (List Byte)), polyHash a = polyHash b → a = b := by
      decide +kernel
    intro a ha b hb
    refine key a ha b ?_
    cases hb with
    | leaf p hp =>
      have : p = 0 ∨ p = 1 ∨ p = 2 ∨ p = 3 := by simp at hp; omega
      rcases this with rfl | rfl | rfl | rfl
      · exact List.mem_cons_self
      · exact List.mem_cons_of_mem _ List.mem_cons_self
      · exact List.mem_cons_of_mem _ (List.mem_cons_of_mem _ List.mem_cons_self)
      · exact List.mem_cons_of_mem _ (List.mem_cons_of_mem _ (List.mem_cons_of_mem _ List.mem_cons_self))
    | inner l p hl hp =>
      rw [hdep] at hl hp
      have : l = 0 ∧ (p = 0 ∨ p = 1) ∨ l = 1 ∧ p = 0 := by
        rcases Nat.lt_or_ge l 1 with h | h
        · have : l = 0 := by omega
          subst this
          simp at hp
          omega
        · have : l = 1 := by omega
          subst this
          simp at hp
          omega
      rcases this with ⟨rfl, rfl | rfl⟩ | ⟨rfl, rfl⟩ <;> simp
  · decide +kernel

/-- The second record is found, and the first is not: its honest answers are rejected. -/
example : ∃ db, createRandomMerkle polyHash headSum (fun _ => ok clashing) 64 2 2 = ok db ∧
    ∀ (dpf : Dpf) (read : Nat → Res (List Byte)), Delivers read →
      retrieveAuth polyHash dpf read 0 db 1 3 = ok [1, 3] ∧ retrieveAuth polyHash dpf read 0 db 0 3 = err "REJECT!" := by
  obtain ⟨db, hdb, h⟩ := C10_exact polyHash polyHash_length headSum (fun _ => ok clashing) 64 2 2 (by decide) (by decide) clashing
    rfl rfl (by decide) (by decide) _ clashing_records.symm (by decide)
  refine ⟨db, hdb, fun dpf read hread => ⟨?_, ?_⟩⟩
  · exact (h dpf read hread 0 3 (servers_fit_three dpf) 1 (by decide) (by decide) 1 (by decide) clashing_last).1 rfl
  · exact (h dpf read hread 0 3 (servers_fit_three dpf) 0 (by decide) (by decide) 1 (by decide) clashing_last).2 (by decide)
      clashing_free

/-- Three of these records need fewer levels than there are: the generator ends the program. -/
example : (createRandomMerkle polyHash headSum (fun _ => ok [1, 2, 1, 3, 4, 5]) 48 1 2).isCrash :=
  C10_generator_crashes polyHash headSum (fun _ => ok [1, 2, 1, 3, 4, 5]) 48 1 2 (by decide) (by decide) [1, 2, 1, 3, 4, 5] rfl
    rfl (by decide) (by decide) (by decide)

end Verif.MerklePir
