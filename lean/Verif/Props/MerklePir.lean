import Verif.Lemmas.MerklePir
import Verif.Spec.MerklePir

set_option linter.unusedSimpArgs false

/-! # Authenticated retrieval and padding (C05, C07, C10, C11, C12, C13) -/

namespace Verif.Padding
open Res

/-! ### C13: padding is invertible -/

/-- C13: padding to a multiple of the block length is undone by unpadding, and the padded length is a multiple. -/
theorem C13_pad_unpad (b : List Byte) (n : Nat) (hn : 0 < n) :
    ∃ p, padBlock b n = ok p ∧ unPadBlock p = ok b ∧ n ∣ p.length ∧ b.length < p.length := by
  refine ⟨_, by unfold padBlock; rw [if_neg (by omega)], unPad_signal b _, ?_, ?_⟩
  · simp only [List.length_append, List.length_replicate, List.length_singleton]
    have h1 := Nat.div_add_mod (b.length + 1) n
    have h2 := Nat.mod_lt (b.length + 1) hn
    refine ⟨(b.length + 1) / n + 1, ?_⟩
    rw [Nat.mul_add, Nat.mul_one]
    omega
  · simp only [List.length_append, List.length_replicate, List.length_singleton]
    omega

/-- C13: the signal byte followed by any number of zeros is undone by unpadding. -/
theorem C13_signal_unpad (b : List Byte) (n : Nat) :
    unPadBlock (padWithSignalByte b ++ List.replicate n 0) = ok b := unPad_signal b n

/-- C13: unpadding crashes exactly on strings of zeros (the empty string included). -/
theorem C13_unpad_crashes_iff (b : List Byte) : (unPadBlock b).isCrash ↔ ∀ x ∈ b, x = 0 := by
  unfold unPadBlock
  obtain ⟨n, hn⟩ := trimZeros_split b
  constructor
  · intro h x hx
    by_cases h0 : (trimZeros b).length = 0
    · rw [List.length_eq_zero_iff] at h0
      rw [hn, h0, List.nil_append] at hx
      exact List.eq_of_mem_replicate hx
    · simp [h0] at h
  · intro h
    have : b = List.replicate b.length 0 := List.eq_replicate_iff.mpr ⟨rfl, h⟩
    have h2 : trimZeros b = [] := by
      rw [this]
      have := trimZeros_append_zeros [] b.length
      rw [List.nil_append] at this
      rw [this]; rfl
    simp [h2]

example : padBlock [0, 0x80, 0] 4 = ok [0, 0x80, 0, 0x80, 0, 0, 0, 0] := by decide
example : unPadBlock [0, 0x80, 0, 0x80, 0, 0, 0, 0] = ok [0, 0x80, 0] := by decide
example : (unPadBlock [0, 0]).isCrash := (C13_unpad_crashes_iff _).mpr (by simp)

end Verif.Padding

namespace Verif.MerklePir
open Res Verif.Database Verif.Merkle Verif.Merkle.Spec Verif.Padding Verif.Point Verif.Point.Spec

/-! ### The checksum of the tree -/

/-- Two 10-byte records with the same FNV-1a checksum. -/
def twinA : List Byte := [99, 184, 200, 53, 45, 71, 58, 18, 217, 180]
def twinB : List Byte := [75, 217, 193, 80, 49, 255, 108, 61, 114, 79]

/-- C07: distinct records of the same length can have the same checksum, and then building their proofs crashes,
whatever the hash function. -/
theorem C07_distinct_records_refuted :
    twinA ≠ twinB ∧ twinA.length = twinB.length ∧ ∀ H : List Byte → List Byte, ∃ t, new H [twinA, twinB] = ok t ∧
      (generateProof fnv1a t twinA).isCrash ∧ (generateProof fnv1a t twinB).isCrash := by
  refine ⟨by decide, by decide, ?_⟩
  intro H
  have hc : fnv1a twinA = fnv1a twinB := by decide
  obtain ⟨t, ht, h⟩ := C07_duplicates_crash H 32 fnv1a [twinA, twinB] (by simp) (by
    rw [List.map_cons, List.map_cons, hc]; decide)
  exact ⟨t, ht, h _ (by simp), h _ (by simp)⟩

/-! ### Honest exchanges -/

/-- Servers started for the number of servers the client uses: selection strings for one or at least three, a DPF that
meets its contract for two. -/
def ServersFit (dpf : Dpf) (mode n : Nat) : Prop :=
  (mode = 0 ∧ 0 < n ∧ n ≠ 2) ∨ (mode = 2 ∧ n = 2 ∧ Correct dpf)

/-- What happens when every server is honest. -/
theorem honest_exchange (dpf : Dpf) (read : Nat → Res (List Byte)) (hread : Delivers read) (mode n : Nat)
    (hfit : ServersFit dpf mode n) (db : Bytes) (blocks : List (List Byte)) (hdb : Stores db blocks)
    (hcols : db.info.numColumns < 2 ^ 63) (i : Nat) (hi : i < blocks.length) :
    ∃ qs st answers, query dpf read db.info i n = ok (qs, st) ∧ qs.mapM (answer dpf mode db) = ok answers ∧
      answers.length = n ∧ (∀ a ∈ answers, a.length = db.info.numRows * db.info.blockSize) ∧
      (∃ iy, st = ⟨((i / db.info.numColumns : Nat) : Int), iy⟩) ∧ i / db.info.numColumns < db.info.numRows ∧
      reconstructValue answers db.info st = ok (zeroExtend db.info.blockSize blocks[i]) := by
  have hi' := hi
  rw [hdb.count] at hi'
  obtain ⟨hC, hx, hy, hxy⟩ := index_split hi'
  rcases hfit with ⟨rfl, hn, hn2⟩ | ⟨rfl, rfl, hdpf⟩
  · have hret := C01_retrieve dpf read hread db blocks hdb i n hi hn hn2
    obtain ⟨rand, -, hrl, hq⟩ := query_shares dpf hread (i := i) hC hn hn2
    have hmem := shares_mem_length (C := db.info.numColumns) (y := i % db.info.numColumns) hrl
    obtain ⟨as, h1, h2, h3⟩ := mapM_ok (f := answer dpf 0 db)
      (l := shares db.info.numColumns (i % db.info.numColumns) (n - 1) rand) (by
        intro v hv
        obtain ⟨a, ha, -⟩ := answerVec_spec hdb v (by rw [hmem v hv]; omega)
        exact ⟨a, ha⟩)
    have hsl := shares_length db.info.numColumns (i % db.info.numColumns) (n - 1) rand
    refine ⟨_, _, as, hq, h1, by rw [h2, hsl]; omega, ?_, ⟨_, rfl⟩, hx, ?_⟩
    · intro a ha
      obtain ⟨k, hk, rfl⟩ := List.getElem_of_mem ha
      obtain ⟨b, hb1, hb2⟩ := h3 k (by omega)
      rw [List.getElem?_eq_getElem hk] at hb1
      simp only [Option.some.injEq] at hb1
      obtain ⟨b', hb', hbl, -⟩ := answerVec_spec hdb
        (shares db.info.numColumns (i % db.info.numColumns) (n - 1) rand)[k]
        (by rw [hmem _ (List.getElem_mem _)]; omega)
      have : b' = b := by
        have h4 : answerVec db (shares db.info.numColumns (i % db.info.numColumns) (n - 1) rand)[k] = ok b := hb2
        have := hb'.symm.trans h4
        simpa using this
      rw [hb1, ← this]
      exact hbl
    · unfold retrieve at hret
      rw [hq] at hret
      simp only [ok_bind, h1] at hret
      exact hret
  · have hret := C02_retrieve dpf hdpf read db blocks hdb hcols i hi
    have hdom := lt_bitsLen db.info.numColumns
    obtain ⟨k0, k1, x0, x1, hg, he0, he1, hl0, hl1, hb⟩ := hdpf (i % db.info.numColumns)
      (bitsLen db.info.numColumns) (bitsLen_le hcols) (by omega)
    obtain ⟨a0, ha0, hal0, -⟩ := answerVec_spec hdb x0 (by omega)
    obtain ⟨a1, ha1, hal1, -⟩ := answerVec_spec hdb x1 (by omega)
    have hq : query dpf read db.info i 2 = ok ([k0, k1],
        ⟨((i / db.info.numColumns : Nat) : Int), ((i % db.info.numColumns : Nat) : Int)⟩) := by
      unfold query
      have hinv : invalidQueryInputsIT (i : Int) 2 = false := by simp [invalidQueryInputsIT]
      rw [hinv]
      simp only [Bool.false_eq_true, if_false, if_true]
      rw [indices i db.info.numColumns hC]
      simp only [ok_bind]
      have : toU64 ((i % db.info.numColumns : Nat) : Int) = i % db.info.numColumns := by
        have hlt : i % db.info.numColumns < 2 ^ 64 := by omega
        unfold toU64
        omega
      rw [this, hg]
      rfl
    have hm : [k0, k1].mapM (answer dpf 2 db) = ok [a0, a1] := by
      simp [answer, he0, he1, ha0, ha1]
    refine ⟨_, _, [a0, a1], hq, hm, rfl, ?_, ⟨_, rfl⟩, hx, ?_⟩
    · intro a ha
      simp only [List.mem_cons, List.not_mem_nil, or_false] at ha
      rcases ha with rfl | rfl
      · exact hal0
      · exact hal1
    · unfold retrieve at hret
      have hq' : query dpf read db.info (i : Int) 2 = _ := hq
      rw [hq'] at hret
      simp only [ok_bind, hm] at hret
      exact hret

/-! ### C10: authenticated retrieval is complete -/

/-- The database holds the sealed records in order. -/
structure Holds (H : List Byte → List Byte) (db : Bytes) (records : List (List Byte)) : Prop where
  type : db.info.pirType = "merkle"
  stored : ∃ stored, Stores db stored ∧ List.Forall₂ (Sealed H db.info.root db.info.proofLen) records stored

/-- Cutting a byte string into records of equal length. -/
def recordsOf (data : List Byte) (n len : Nat) : List (List Byte) :=
  (List.range n).map (fun i => (data.drop (i * len)).take len)

/-- The database generator produces a database that holds the records drawn. -/
theorem createRandomMerkle_holds (H : List Byte → List Byte) (hH : ∀ s, (H s).length = 32) (ck : List Byte → U64)
    (read : Nat → Res (List Byte)) (dbLen numRows blockLen : Nat) (hrows : 0 < numRows) (hbl : 0 < blockLen)
    (data : List Byte) (hread : read (dbLen / (8 * blockLen) * blockLen) = ok data)
    (hdl : data.length = dbLen / (8 * blockLen) * blockLen)
    (h0 : 0 < dbLen / (8 * blockLen)) (hsize : dbLen / (8 * blockLen) ≤ 2 ^ 31)
    (hck : ChecksumsFaithful ck (recordsOf data (dbLen / (8 * blockLen)) blockLen))
    (hdist : Nat.clog 2 (recordsOf data (dbLen / (8 * blockLen)) blockLen).dedup.length =
      Nat.clog 2 (dbLen / (8 * blockLen))) :
    ∃ db, createRandomMerkle H ck read dbLen numRows blockLen = ok db ∧ db.info.numRows = numRows ∧
      db.info.numColumns = dbLen / (8 * blockLen) / numRows ∧
      Holds H db ((recordsOf data (dbLen / (8 * blockLen)) blockLen).take
        (numRows * (dbLen / (8 * blockLen) / numRows))) := by
  generalize hN : dbLen / (8 * blockLen) = N at *
  have hreclen : (recordsOf data N blockLen).length = N := by simp [recordsOf]
  obtain ⟨t, ht, hT⟩ := newUsing_spec H 32 ck (recordsOf data N blockLen)
    (by intro h; rw [h] at hreclen; simp at hreclen; omega) (by omega)
  have hr := root_eq hT
  have hle : numRows * (N / numRows) ≤ N := Nat.mul_div_le N numRows
  have hseal : ∀ d ∈ (recordsOf data N blockLen).take (numRows * (N / numRows)), ∃ s, sealRecord ck t d = ok s ∧
      Sealed H (node H 32 (recordsOf data N blockLen) (depth (recordsOf data N blockLen)) 0)
        (encodedProofLength 32 t) d s := by
    intro d hd
    exact sealed_of_mem hH ht (by omega) hck (by rw [hreclen]; exact hdist) hr (List.mem_of_mem_take hd)
  obtain ⟨stored, hs1, hs2⟩ := generateMerkleProofs_spec _ _ hseal
  have hentries : makeMerkleEntries ck (recordsOf data N blockLen) t numRows (N / numRows) = ok stored.flatten := by
    unfold makeMerkleEntries
    rw [slice_of_le (by omega) (by omega)]
    simp only [ok_bind, List.drop_zero, Nat.sub_zero]
    exact hs1
  have hrun : createRandomMerkle H ck read dbLen numRows blockLen = ok ⟨stored.flatten,
      { numRows := numRows, numColumns := N / numRows, blockSize := blockLen + encodedProofLength 32 t + 1,
        blockLengths := List.replicate (numRows * (N / numRows)) (blockLen + encodedProofLength 32 t + 1),
        pirType := "merkle",
        root := node H 32 (recordsOf data N blockLen) (depth (recordsOf data N blockLen)) 0,
        proofLen := encodedProofLength 32 t }⟩ := by
    unfold createRandomMerkle
    rw [if_neg (by omega), hN]
    simp only
    rw [hread]
    simp only [ok_bind]
    rw [cutBlocks_eq data N blockLen (by omega)]
    simp only [ok_bind]
    change (match newUsing H 32 ck (recordsOf data N blockLen) with | err m => _ | crash m => _ | ok tree => _) = _
    rw [ht]
    simp only
    rw [if_neg (by omega), fill_eq]
    simp only [ok_bind]
    have hentries' : makeMerkleEntries ck (List.map (fun i => List.take blockLen (List.drop (i * blockLen) data))
        (List.range N)) t numRows (N / numRows) = ok stored.flatten := hentries
    rw [hentries']
    simp only [ok_bind]
    rw [hr]
    rfl
  refine ⟨_, hrun, rfl, rfl, rfl, stored, ?_, hs2⟩
  obtain ⟨hlen, hget⟩ := forall₂_get hs2
  have htl : ((recordsOf data N blockLen).take (numRows * (N / numRows))).length = numRows * (N / numRows) := by
    rw [List.length_take]; omega
  have hstl : ∀ s ∈ stored, s.length = blockLen + encodedProofLength 32 t + 1 := by
    intro s hs
    obtain ⟨k, hk, rfl⟩ := List.getElem_of_mem hs
    have := (hget k (by omega) hk).length
    rw [this]
    congr 2
    simp only [recordsOf, List.getElem_take, List.getElem_map, List.getElem_range, List.length_take, List.length_drop]
    have : (k + 1) * blockLen ≤ N * blockLen := Nat.mul_le_mul_right _ (by omega)
    rw [Nat.succ_mul] at this
    omega
  refine ⟨?_, ⟨[], by simp⟩, ?_, ?_⟩
  · simp only; omega
  · simp only
    rw [eq_comm, List.eq_replicate_iff]
    refine ⟨by simp; omega, ?_⟩
    intro b hb
    obtain ⟨s, hs, rfl⟩ := List.mem_map.mp hb
    exact hstl s hs
  · intro b hb
    rw [hstl b hb]

theorem retrieveAuth_eq {H : List Byte → List Byte} {dpf : Dpf} {read : Nat → Res (List Byte)} {mode : Nat} {db : Bytes}
    (htype : db.info.pirType = "merkle") (index n : Int) :
    retrieveAuth H dpf read mode db index n = (retrieve dpf read mode db index n >>= checkBlock H db.info) := by
  unfold retrieveAuth retrieve reconstructPIR
  rw [htype]
  simp only [show ¬ ("merkle" = "classical" ∨ "merkle" = "") by decide, if_false, if_true]
  cases query dpf read db.info index n with
  | ok a =>
    simp only [ok_bind]
    cases List.mapM (answer dpf mode db) a.1 <;> simp
  | err m => rfl
  | crash m => rfl

/-- Every record held is returned exactly by an honest exchange. -/
theorem retrieveAuth_holds {H : List Byte → List Byte} {db : Bytes} {records : List (List Byte)}
    (hh : Holds H db records) (dpf : Dpf) (read : Nat → Res (List Byte)) (hread : Delivers read) (mode n : Nat)
    (hfit : ServersFit dpf mode n) (hcols : db.info.numColumns < 2 ^ 63) (i : Nat) (hi : i < records.length) :
    retrieveAuth H dpf read mode db i n = ok records[i] := by
  obtain ⟨stored, hst, hf⟩ := hh.stored
  obtain ⟨hlen, hget⟩ := forall₂_get hf
  rw [retrieveAuth_eq hh.type]
  have : retrieve dpf read mode db i n = ok (zeroExtend db.info.blockSize stored[i]) := by
    rcases hfit with ⟨rfl, hn, hn2⟩ | ⟨rfl, rfl, hdpf⟩
    · exact C01_retrieve dpf read hread db stored hst i n (by omega) hn hn2
    · exact C02_retrieve dpf hdpf read db stored hst hcols i (by omega)
  rw [this]
  simp only [ok_bind]
  exact checkBlock_sealed (hget i hi (by omega)) _

/-- C10 as claimed: for distinct records of the random source, the generated Merkle database answers every index with
its record. -/
def C10_Statement : Prop :=
  ∀ (H : List Byte → List Byte), (∀ s, (H s).length = 32) → ∀ (dbLen numRows blockLen : Nat), 0 < numRows →
    0 < blockLen → 0 < dbLen / (8 * blockLen) → dbLen / (8 * blockLen) ≤ 2 ^ 31 → ∀ (data : List Byte),
    data.length = dbLen / (8 * blockLen) * blockLen → (recordsOf data (dbLen / (8 * blockLen)) blockLen).Nodup →
    ∃ db, createRandomMerkle H fnv1a (fun _ => ok data) dbLen numRows blockLen = ok db ∧
      ∀ (dpf : Dpf) (read : Nat → Res (List Byte)), Delivers read → ∀ mode n, ServersFit dpf mode n →
      ∀ i, i < numRows * (dbLen / (8 * blockLen) / numRows) →
        retrieveAuth H dpf read mode db i n = ok ((data.drop (i * blockLen)).take blockLen)

/-- C10 for records that the tree's checksum tells apart (duplicates are allowed as long as they do not reduce the
number of tree levels). Missing from the full claim: distinct records with colliding checksums, see
`C10_refuted`. -/
theorem C10_honest_servers_partial (H : List Byte → List Byte) (hH : ∀ s, (H s).length = 32)
    (ck : List Byte → U64) (dbread : Nat → Res (List Byte)) (dbLen numRows blockLen : Nat) (hrows : 0 < numRows)
    (hbl : 0 < blockLen) (data : List Byte) (hdata : dbread (dbLen / (8 * blockLen) * blockLen) = ok data)
    (hdl : data.length = dbLen / (8 * blockLen) * blockLen)
    (h0 : 0 < dbLen / (8 * blockLen)) (hsize : dbLen / (8 * blockLen) ≤ 2 ^ 31)
    (hck : ChecksumsFaithful ck (recordsOf data (dbLen / (8 * blockLen)) blockLen))
    (hdist : Nat.clog 2 (recordsOf data (dbLen / (8 * blockLen)) blockLen).dedup.length =
      Nat.clog 2 (dbLen / (8 * blockLen))) :
    ∃ db, createRandomMerkle H ck dbread dbLen numRows blockLen = ok db ∧
      ∀ (dpf : Dpf) (read : Nat → Res (List Byte)), Delivers read → ∀ mode n, ServersFit dpf mode n →
      ∀ i, i < numRows * (dbLen / (8 * blockLen) / numRows) →
        retrieveAuth H dpf read mode db i n = ok ((data.drop (i * blockLen)).take blockLen) := by
  obtain ⟨db, hdb, hR, hC, hh⟩ := createRandomMerkle_holds H hH ck dbread dbLen numRows blockLen hrows hbl data hdata
    hdl h0 hsize hck hdist
  refine ⟨db, hdb, ?_⟩
  intro dpf read hread mode n hfit i hi
  have hle : numRows * (dbLen / (8 * blockLen) / numRows) ≤ dbLen / (8 * blockLen) := Nat.mul_div_le _ _
  have hreclen : (recordsOf data (dbLen / (8 * blockLen)) blockLen).length = dbLen / (8 * blockLen) := by
    simp [recordsOf]
  have hcols : db.info.numColumns < 2 ^ 63 := by
    rw [hC]
    have := Nat.div_le_self (dbLen / (8 * blockLen)) numRows
    omega
  rw [retrieveAuth_holds hh dpf read hread mode n hfit hcols i (by rw [List.length_take]; omega)]
  simp [recordsOf]

/-- Three distinct two-byte records meet the hypotheses of `C10_honest_servers_partial`. -/
example : ChecksumsFaithful fnv1a (recordsOf [1, 2, 3, 4, 5, 6] 3 2) ∧
    Nat.clog 2 (recordsOf [1, 2, 3, 4, 5, 6] 3 2).dedup.length = Nat.clog 2 3 ∧ 48 / (8 * 2) = 3 := by
  unfold ChecksumsFaithful
  decide

theorem servers_fit_three (dpf : Dpf) : ServersFit dpf 0 3 := Or.inl ⟨rfl, by decide, by decide⟩

/-- C10 as claimed is false: the two records of `C07_distinct_records_refuted` make the generator crash. -/
theorem C10_refuted : ¬ C10_Statement := by
  intro h
  have hrec : recordsOf (twinA ++ twinB) (160 / (8 * 10)) 10 = [twinA, twinB] := by decide
  obtain ⟨db, hdb, -⟩ := h toyHash toyHash_length 160 1 10 (by decide) (by decide) (by decide) (by decide)
    (twinA ++ twinB) (by decide) (by rw [hrec]; decide)
  obtain ⟨-, -, hc⟩ := C07_distinct_records_refuted
  obtain ⟨t, ht, hA, -⟩ := hc toyHash
  unfold createRandomMerkle at hdb
  rw [if_neg (by decide)] at hdb
  simp only [ok_bind] at hdb
  rw [cutBlocks_eq _ _ _ (by decide)] at hdb
  simp only [ok_bind] at hdb
  have ht' : newUsing toyHash 32 fnv1a (List.map (fun i => List.take 10 (List.drop (i * 10) (twinA ++ twinB)))
      (List.range (160 / (8 * 10)))) = ok t := ht
  rw [ht'] at hdb
  simp only at hdb
  rw [if_neg (by decide), fill_eq] at hdb
  simp only [ok_bind] at hdb
  have hent : (makeMerkleEntries fnv1a (List.map (fun i => List.take 10 (List.drop (i * 10) (twinA ++ twinB)))
      (List.range (160 / (8 * 10)))) t 1 (160 / (8 * 10) / 1)).isCrash := by
    change (makeMerkleEntries fnv1a [twinA, twinB] t 1 2).isCrash
    unfold makeMerkleEntries
    rw [slice_of_le (by decide) (by decide)]
    simp only [ok_bind]
    change (generateMerkleProofs fnv1a t [twinA, twinB]).isCrash
    unfold generateMerkleProofs
    rw [List.foldlM_cons]
    unfold sealRecord
    cases hg : generateProof fnv1a t twinA with
    | ok p => rw [hg] at hA; simp at hA
    | err m => rw [hg] at hA; simp at hA
    | crash m => simp
  cases hm : makeMerkleEntries fnv1a (List.map (fun i => List.take 10 (List.drop (i * 10) (twinA ++ twinB)))
      (List.range (160 / (8 * 10)))) t 1 (160 / (8 * 10) / 1) with
  | ok p => rw [hm] at hent; simp at hent
  | err m => rw [hm] at hent; simp at hent
  | crash m => rw [hm] at hdb; simp at hdb

/-! ### C05, authenticated -/

/-- C05: the order of the answers does not matter to the authenticated client either. -/
theorem C05_authenticated_order (H : List Byte → List Byte) (answers answers' : List (List Byte)) (info : Info)
    (st : State) (h : answers.Perm answers') :
    reconstructPIR H answers info st = reconstructPIR H answers' info st := by
  unfold reconstructPIR
  rw [C05_point_order answers answers' info st h]

/-! ### C11: what a malicious server can make the client accept -/

/-- One malicious answer decides the reconstructed value: whatever the other servers answered. -/
theorem one_answer_decides (info : Info) (ix : Nat) (iy : Int) (hix : ix < info.numRows) (others : List (List Byte))
    (hlen : ∀ a ∈ others, a.length = info.numRows * info.blockSize) (value : List Byte)
    (hv : value.length = info.blockSize) :
    ∃ forged, forged.length = info.numRows * info.blockSize ∧
      reconstructValue (forged :: others) info ⟨ix, iy⟩ = ok value := by
  have hb := row_bound (C := info.blockSize) hix
  have hothers : ∀ a ∈ others, ∃ s, part info ⟨ix, iy⟩ a = ok s := fun a ha => ⟨_, part_of_row (hlen a ha) hix⟩
  generalize hR : (others.map (fun a => valueOf (part info ⟨ix, iy⟩ a))).foldl (fun s x => fastxor s s x)
    (List.replicate info.blockSize 0) = R
  have hparts : ∀ x ∈ others.map (fun a => valueOf (part info ⟨ix, iy⟩ a)), x.length = info.blockSize := by
    intro x hx
    obtain ⟨a, ha, rfl⟩ := List.mem_map.mp hx
    obtain ⟨s, hs⟩ := hothers a ha
    rw [hs]
    exact part_length hs
  have hRl : R.length = info.blockSize := by
    rw [← hR, (foldl_xor_getD _ _ (by intro x hx; rw [hparts x hx]; simp) 0).1]
    simp
  refine ⟨List.replicate (ix * info.blockSize) 0 ++ fastxor R R value ++
    List.replicate (info.numRows * info.blockSize - (ix * info.blockSize + info.blockSize)) 0, ?_, ?_⟩
  · simp only [List.length_append, List.length_replicate, fastxor_length, hRl]
    omega
  · generalize hf : List.replicate (ix * info.blockSize) 0 ++ fastxor R R value ++
      List.replicate (info.numRows * info.blockSize - (ix * info.blockSize + info.blockSize)) 0 = forged
    have hfl : forged.length = info.numRows * info.blockSize := by
      rw [← hf]
      simp only [List.length_append, List.length_replicate, fastxor_length, hRl]
      omega
    have hpf : part info ⟨ix, iy⟩ forged = ok (fastxor R R value) := by
      rw [part_of_row hfl hix, ← hf]
      congr 1
      unfold rowOf
      rw [List.append_assoc, List.drop_left' (by simp), List.take_left' (by rw [fastxor_length, hRl])]
    rw [reconstructValue_eq, if_pos (by
      intro a ha
      rcases List.mem_cons.mp ha with rfl | ha
      · exact ⟨_, hpf⟩
      · exact hothers a ha)]
    congr 1
    have hall : ∀ x ∈ (forged :: others).map (fun a => valueOf (part info ⟨ix, iy⟩ a)),
        x.length = (List.replicate info.blockSize (0 : Byte)).length := by
      intro x hx
      rw [List.map_cons] at hx
      rcases List.mem_cons.mp hx with rfl | hx
      · rw [hpf]; simp [valueOf, hRl]
      · rw [hparts x hx]; simp
    apply ext_getD (by
      rw [(foldl_xor_getD _ _ hall 0).1]; simp [hv])
    intro t ht
    rw [List.map_cons, List.foldl_cons, hpf]
    have hstart : fastxor (List.replicate info.blockSize 0) (List.replicate info.blockSize 0) (fastxor R R value) =
        fastxor R R value := by
      apply ext_getD (by simp [hRl])
      intro t _
      rw [getD_xor (by simp [hRl]), getD_replicate]
      exact BitVec.zero_xor
    rw [show valueOf (ok (fastxor R R value)) = fastxor R R value from rfl, hstart]
    have hlf : (fastxor R R value).length = info.blockSize := by rw [fastxor_length, hRl]
    rw [(foldl_xor_getD _ _ (by intro x hx; rw [hparts x hx, hlf]) t).2]
    have hRt := (foldl_xor_getD (others.map (fun a => valueOf (part info ⟨ix, iy⟩ a)))
      (List.replicate info.blockSize 0) (by intro x hx; rw [hparts x hx]; simp) t).2
    rw [hR, getD_replicate] at hRt
    have hRt' : R.getD t 0 = xsum (others.map (fun a => valueOf (part info ⟨ix, iy⟩ a))).length
        (fun k => ((others.map (fun a => valueOf (part info ⟨ix, iy⟩ a))).getD k []).getD t 0) := by
      rw [hRt]; exact BitVec.zero_xor
    rw [← hRt', getD_xor (by omega), BitVec.xor_comm (R.getD t 0), BitVec.xor_assoc, BitVec.xor_self, BitVec.xor_zero]

theorem set_perm {α : Type _} : ∀ (l : List α) (k : Nat) (a : α), k < l.length → (l.set k a).Perm (a :: l.eraseIdx k)
  | [], _, _, h => by simp at h
  | x :: l, 0, a, _ => by simp
  | x :: l, k + 1, a, h => by
    rw [List.set_cons_succ, List.eraseIdx_cons_succ]
    exact ((set_perm l k a (by simpa using h)).cons x).trans (List.Perm.swap a x _)

/-- C11: in an exchange with honest servers for index `i`, any one server can replace its answer so that the client
accepts any value a database of this shape could hold, in particular a record other than the requested one together
with its own genuine proof. -/
theorem C11_one_server_chooses_the_value (H : List Byte → List Byte) (db : Bytes) (records : List (List Byte))
    (hh : Holds H db records) (dpf : Dpf) (read : Nat → Res (List Byte)) (hread : Delivers read) (mode n : Nat)
    (hfit : ServersFit dpf mode n) (hcols : db.info.numColumns < 2 ^ 63) (i : Nat) (hi : i < records.length) :
    ∃ qs st answers, query dpf read db.info i n = ok (qs, st) ∧ qs.mapM (answer dpf mode db) = ok answers ∧
      answers.length = n ∧ reconstructPIR H answers db.info st = ok records[i] ∧
      ∀ k, k < n → ∀ value, value.length = db.info.blockSize → ∃ forged,
        forged.length = db.info.numRows * db.info.blockSize ∧
        reconstructPIR H (answers.set k forged) db.info st = checkBlock H db.info value := by
  obtain ⟨stored, hst, hf⟩ := hh.stored
  obtain ⟨hlen, hget⟩ := forall₂_get hf
  obtain ⟨qs, st, answers, h1, h2, h3, h4, ⟨iy, rfl⟩, h6, h7⟩ := honest_exchange dpf read hread mode n hfit db stored hst
    hcols i (by omega)
  have hpir : ∀ as : List (List Byte), reconstructPIR H as db.info ⟨((i / db.info.numColumns : Nat) : Int), iy⟩ =
      (reconstructValue as db.info ⟨((i / db.info.numColumns : Nat) : Int), iy⟩ >>= checkBlock H db.info) := by
    intro as
    unfold reconstructPIR
    rw [hh.type]
    simp only [show ¬ ("merkle" = "classical" ∨ "merkle" = "") by decide, if_false, if_true]
  refine ⟨qs, _, answers, h1, h2, h3, ?_, ?_⟩
  · rw [hpir, h7]
    simp only [ok_bind]
    exact checkBlock_sealed (hget i hi (by omega)) _
  · intro k hk value hv
    obtain ⟨forged, hfl, hfr⟩ := one_answer_decides db.info (i / db.info.numColumns) iy h6 (answers.eraseIdx k)
      (fun a ha => h4 a (List.mem_of_mem_eraseIdx ha)) value hv
    refine ⟨forged, hfl, ?_⟩
    rw [hpir, C05_point_order _ _ _ _ (set_perm answers k forged (by omega)), hfr]
    rfl

/-- C11: the server that knows which record is requested can have any other record of the database accepted. -/
theorem C11_record_substitution (H : List Byte → List Byte) (db : Bytes) (records : List (List Byte))
    (hh : Holds H db records) (dpf : Dpf) (read : Nat → Res (List Byte)) (hread : Delivers read) (mode n : Nat)
    (hfit : ServersFit dpf mode n) (hcols : db.info.numColumns < 2 ^ 63) (i j : Nat) (hi : i < records.length)
    (hj : j < records.length) :
    ∃ qs st answers, query dpf read db.info i n = ok (qs, st) ∧ qs.mapM (answer dpf mode db) = ok answers ∧
      ∀ k, k < n → ∃ forged, reconstructPIR H (answers.set k forged) db.info st = ok records[j] := by
  obtain ⟨qs, st, answers, h1, h2, -, -, h5⟩ := C11_one_server_chooses_the_value H db records hh dpf read hread mode n
    hfit hcols i hi
  refine ⟨qs, st, answers, h1, h2, ?_⟩
  intro k hk
  obtain ⟨stored, hst, hf⟩ := hh.stored
  obtain ⟨hlen, hget⟩ := forall₂_get hf
  have hfit' := hst.fits stored[j] (List.getElem_mem _)
  obtain ⟨forged, -, hr⟩ := h5 k hk (zeroExtend db.info.blockSize stored[j]) (by
    unfold zeroExtend; simp; omega)
  exact ⟨forged, by rw [hr]; exact checkBlock_sealed (hget j hj (by omega)) _⟩

/-- C11, weakened to what concerns genuine records: with one dishonest server, a record that the client accepts for
index `i` is record `i`. -/
def C11_Statement : Prop :=
  ∀ (H : List Byte → List Byte), (∀ s, (H s).length = 32) → ∀ (db : Bytes) (records : List (List Byte)),
    Holds H db records → db.info.numColumns < 2 ^ 63 → ∀ (dpf : Dpf) (read : Nat → Res (List Byte)), Delivers read →
    ∀ mode n, ServersFit dpf mode n → 2 ≤ n → ∀ i (hi : i < records.length) qs st answers,
    query dpf read db.info i n = ok (qs, st) → qs.mapM (answer dpf mode db) = ok answers →
    ∀ k forged d, k < n → reconstructPIR H (answers.set k forged) db.info st = ok d → d ∈ records → d = records[i]

/-- C11 as claimed is false, for every hash function: two different records are enough. -/
theorem C11_refuted : ¬ C11_Statement := by
  intro h
  have hrec : recordsOf [1, 2] (16 / (8 * 1)) 1 = [[1], [2]] := by decide
  obtain ⟨db, -, hR, hC, hh⟩ := createRandomMerkle_holds toyHash toyHash_length fnv1a (fun _ => ok [1, 2]) 16 1 1
    (by decide) (by decide) [1, 2] rfl (by decide) (by decide) (by decide)
    (by rw [hrec]; unfold ChecksumsFaithful; decide) (by rw [hrec]; decide)
  have ht : (recordsOf [1, 2] (16 / (8 * 1)) 1).take (1 * (16 / (8 * 1) / 1)) = [[1], [2]] := by decide
  rw [ht] at hh
  have hcols : db.info.numColumns < 2 ^ 63 := by rw [hC]; decide
  obtain ⟨qs, st, answers, h1, h2, h3⟩ := C11_record_substitution toyHash db [[1], [2]] hh plainDpf sevens
    sevens_delivers 0 3 (servers_fit_three _) hcols 0 1 (by decide) (by decide)
  obtain ⟨forged, hf⟩ := h3 0 (by decide)
  have := h toyHash toyHash_length db [[1], [2]] hh hcols plainDpf sevens sevens_delivers 0 3 (servers_fit_three _)
    (by decide) 0 (by decide) qs st answers h1 h2 0 forged [2] (by decide) hf (by simp)
  simp at this

theorem decodeProof_hashes {p tail : List Byte} {proof : Proof} (h : decodeProof p tail = ok proof)
    (hn : proof.hashes.length < 2 ^ 27 - 1) : ∀ x ∈ proof.hashes, x.length = 32 := by
  unfold decodeProof at h
  simp only [bind_eq_ok] at h
  obtain ⟨b, -, c, -, hs, hl, h⟩ := h
  split at h
  · simp at h
  · simp only [bind_eq_ok, Res.ok.injEq] at h
    obtain ⟨ix, -, rfl⟩ := h
    simp only at hn ⊢
    have hlen : hs.length = c.toNat := by
      have := forLoop_inv_ok (fun i (hs : List (List Byte)) => hs.length = i) rfl (by
        intro i t t' _ ht hb
        simp only [bind_eq_ok, Res.ok.injEq] at hb
        obtain ⟨x, -, rfl⟩ := hb
        simp [ht]) hl
      exact this
    have := forLoop_inv_ok (fun _ (hs : List (List Byte)) => ∀ x ∈ hs, x.length = 32) (by simp) (by
      intro i t t' hi ht hb
      simp only [bind_eq_ok, Res.ok.injEq] at hb
      obtain ⟨y, hy, rfl⟩ := hb
      rw [Nat.mod_eq_of_lt (by omega), Nat.mod_eq_of_lt (by omega)] at hy
      have := slice_length hy
      intro x hx
      rcases List.mem_append.mp hx with hx | hx
      · exact ht x hx
      · rw [List.mem_singleton.mp hx]; omega) hl
    exact this

theorem unPad_prefix {value block : List Byte} (h : unPadBlock value = ok block) :
    value = block ++ value.drop block.length := by
  unfold unPadBlock at h
  dsimp only at h
  split at h
  · cases h
  · simp only [Res.ok.injEq] at h
    have h1 : trimZeros value <+: value := by
      unfold trimZeros
      rw [← List.reverse_suffix, List.reverse_reverse]
      exact List.dropWhile_suffix _
    have h2 : block <+: value := by
      rw [← h]
      exact (List.take_prefix _ _).trans h1
    obtain ⟨rest, hrest⟩ := h2
    rw [← hrest, List.drop_left]

/-- What the check accepts is the record part of the value, and its proof verifies. -/
theorem checkBlock_splits {H : List Byte → List Byte} {info : Info} {value d : List Byte}
    (h : checkBlock H info value = ok d) :
    ∃ proof, MerklePir.Spec.Splits info value d proof ∧ verifyProof H d proof info.root = ok true := by
  unfold checkBlock at h
  rw [bind_eq_ok] at h
  obtain ⟨block, hu, h⟩ := h
  split at h
  · simp at h
  · rename_i hge
    simp only [bind_eq_ok] at h
    obtain ⟨proof, hdec, v, hv, h⟩ := h
    split at h
    · rename_i hvt
      simp only [Res.ok.injEq] at h
      subst h
      rw [hvt] at hv
      refine ⟨proof, ⟨block.drop (block.length - info.proofLen), value.drop block.length, ?_, ?_, ?_, hdec⟩, hv⟩
      · rw [List.take_append_drop]; exact hu
      · rw [List.length_drop]; omega
      · rw [List.take_append_drop]; exact unPad_prefix hu
    · simp at h

/-- C11, what does hold: whatever the servers answer, an accepted value comes with a proof, and if that proof is as
long as the tree is high and its verification shows no collision, the value is a record of the committed database, the
one the proof points to. Missing from the full claim: that this is the requested record, see `C11_refuted`, and shorter
or longer proofs, see `C08_refuted`. -/
theorem C11_some_record_partial (H : List Byte → List Byte) (hH : ∀ s, (H s).length = 32) (ck : List Byte → U64)
    (records : List (List Byte)) (t : Tree) (hsize : records.length ≤ 2 ^ 31) (ht : newUsing H 32 ck records = ok t)
    (info : Info) (htype : info.pirType = "merkle") (hr : root t = ok info.root) (st : State)
    (answers : List (List Byte)) (d : List Byte) (hacc : reconstructPIR H answers info st = ok d) :
    ∃ proof, MerklePir.Spec.Presented answers info st d proof ∧ verifyProof H d proof info.root = ok true ∧
      (proof.hashes.length = depth records → NoCollision H 32 records d proof →
        records[proof.index.toNat]? = some d) := by
  unfold reconstructPIR at hacc
  rw [htype] at hacc
  simp only [show ¬ ("merkle" = "classical" ∨ "merkle" = "") by decide, if_false, if_true] at hacc
  rw [bind_eq_ok] at hacc
  obtain ⟨value, hval, hacc⟩ := hacc
  obtain ⟨proof, hsp, hv⟩ := checkBlock_splits hacc
  refine ⟨proof, ⟨value, hval, hsp⟩, hv, fun hfull hnc => ?_⟩
  obtain ⟨encoded, tail, -, -, -, hdec⟩ := hsp
  have hD : depth records ≤ 31 := depth_le hsize
  exact C08_full_length_partial H 32 hH ck records t info.root hsize ht hr _ proof hfull
    (decodeProof_hashes hdec (by omega)) hv hnc

/-- C11: if blocks are long enough, a server that knows the index can have a string accepted that is no record at all:
two inner digests of the tree, without any hash in the proof. -/
theorem C11_forged_record_accepted (H : List Byte → List Byte) (hH : ∀ s, (H s).length = 32) (ck : List Byte → U64)
    (all records : List (List Byte)) (t : Tree) (h2 : 2 ≤ all.length) (hsize : all.length ≤ 2 ^ 32)
    (ht : newUsing H 32 ck all = ok t) (db : Bytes) (hr : root t = ok db.info.root) (hh : Holds H db records)
    (hpl : 8 ≤ db.info.proofLen) (hroom : 61 + db.info.proofLen ≤ db.info.blockSize) (dpf : Dpf)
    (read : Nat → Res (List Byte)) (hread : Delivers read) (mode n : Nat)
    (hfit : ServersFit dpf mode n) (hcols : db.info.numColumns < 2 ^ 63) (i : Nat) (hi : i < records.length) :
    ∃ qs st answers, query dpf read db.info i n = ok (qs, st) ∧ qs.mapM (answer dpf mode db) = ok answers ∧
      ∃ d, d.length = 60 ∧ ∀ k, k < n → ∃ forged, reconstructPIR H (answers.set k forged) db.info st = ok d := by
  obtain ⟨qs, st, answers, h1, h2', -, -, h5⟩ := C11_one_server_chooses_the_value H db records hh dpf read hread mode n
    hfit hcols i hi
  obtain ⟨t', r, d, proof, ht', hr', hd, hp, hv, -⟩ := C08_short_proof_accepted H hH ck all h2 hsize
  have : t' = t := by have := ht'.symm.trans ht; simpa using this
  subst this
  have : r = db.info.root := by have := hr'.symm.trans hr; simpa using this
  subst this
  refine ⟨qs, st, answers, h1, h2', d, hd, ?_⟩
  intro k hk
  -- no hashes, then filler, then the index
  let enc : List Byte := putLE32 0 ++ List.replicate (db.info.proofLen - 8) 0 ++ putLE32 proof.index
  have hel : enc.length = db.info.proofLen := by simp [enc]; omega
  obtain ⟨forged, -, hf⟩ := h5 k hk (zeroExtend db.info.blockSize (d ++ (enc ++ [0x80]))) (by
    unfold zeroExtend; simp [hel, hd]; omega)
  refine ⟨forged, ?_⟩
  rw [hf]
  refine checkBlock_sealed ⟨proof, enc, rfl, hel, ?_, hv⟩ _
  intro tail
  unfold decodeProof
  rw [slice_of_le (by omega) (by simp [enc])]
  simp only [ok_bind, List.drop_zero, Nat.sub_zero]
  have htk : (enc ++ tail).take 4 = putLE32 0 := by
    simp only [enc, List.append_assoc]
    rw [List.take_left' (putLE32_length _)]
  rw [htk, putLE32_get rfl]
  simp only [ok_bind]
  rw [show (0 : U32).toNat = 0 from rfl, forLoop_zero]
  simp only [ok_bind]
  rw [if_neg (by omega)]
  have hdr : enc.drop (enc.length - 4) = putLE32 proof.index := by
    have : enc.length - 4 = (putLE32 0 ++ List.replicate (db.info.proofLen - 8) (0 : Byte)).length := by
      rw [hel]; simp; omega
    rw [this]
    exact List.drop_left
  rw [hdr, putLE32_get rfl]
  simp only [ok_bind]
  rw [← hp]

/-! ### C12: malicious answers -/

/-- C12 (point part) as claimed: whatever is answered, the client of a database made by this library does not panic. -/
def C12_Statement : Prop :=
  ∀ (H : List Byte → List Byte), (∀ s, (H s).length = 32) → ∀ (db : Bytes) (records : List (List Byte)),
    Holds H db records → ∀ (ix iy : Nat), ix < db.info.numRows → ∀ answers,
    ¬ (reconstructPIR H answers db.info ⟨ix, iy⟩).isCrash

/-- C12: a single server can crash the client whatever the others answer, without knowing what was requested: an empty
answer is enough. -/
theorem C12_empty_answer_crashes (H : List Byte → List Byte) (info : Info) (hbs : 0 < info.blockSize) (ix iy : Nat)
    (answers : List (List Byte)) (hempty : [] ∈ answers) :
    (reconstructPIR H answers info ⟨ix, iy⟩).isCrash := by
  have hval : reconstructValue answers info ⟨ix, iy⟩ = crash "slice bounds out of range" := by
    rw [reconstructValue_eq, if_neg]
    intro h
    obtain ⟨s, hs⟩ := h [] hempty
    unfold part sliceInt at hs
    split at hs
    · simp at hs
    · rw [slice_eq_ok] at hs
      obtain ⟨-, h2, -⟩ := hs
      simp only [List.length_nil, Nat.le_zero, Int.toNat_eq_zero] at h2
      have : (0 : Int) < info.blockSize * ((ix : Int) + 1) := by positivity
      omega
  unfold reconstructPIR
  rw [hval]
  split
  · simp
  · split <;> simp

/-- C12: a server that knows the index can also crash the client with an answer of the right length, by making the
value all zeros. -/
theorem C12_zero_value_crashes (H : List Byte → List Byte) (db : Bytes) (records : List (List Byte))
    (hh : Holds H db records) (dpf : Dpf) (read : Nat → Res (List Byte)) (hread : Delivers read) (mode n : Nat)
    (hfit : ServersFit dpf mode n) (hcols : db.info.numColumns < 2 ^ 63) (i : Nat) (hi : i < records.length) :
    ∃ qs st answers, query dpf read db.info i n = ok (qs, st) ∧ qs.mapM (answer dpf mode db) = ok answers ∧
      ∀ k, k < n → ∃ forged, forged.length = db.info.numRows * db.info.blockSize ∧
        (reconstructPIR H (answers.set k forged) db.info st).isCrash := by
  obtain ⟨qs, st, answers, h1, h2, -, -, h5⟩ := C11_one_server_chooses_the_value H db records hh dpf read hread mode n
    hfit hcols i hi
  refine ⟨qs, st, answers, h1, h2, ?_⟩
  intro k hk
  obtain ⟨forged, hl, hf⟩ := h5 k hk (List.replicate db.info.blockSize 0) (by simp)
  refine ⟨forged, hl, ?_⟩
  rw [hf]
  unfold checkBlock
  rw [isCrash_bind]
  exact Or.inl ((C13_unpad_crashes_iff _).mpr (fun x hx => List.eq_of_mem_replicate hx))

/-- C12: so can a value that, without its padding, is shorter than a proof. -/
theorem C12_short_value_crashes (H : List Byte → List Byte) (db : Bytes) (records : List (List Byte))
    (hh : Holds H db records) (dpf : Dpf) (read : Nat → Res (List Byte)) (hread : Delivers read) (mode n : Nat)
    (hfit : ServersFit dpf mode n) (hcols : db.info.numColumns < 2 ^ 63) (i : Nat) (hi : i < records.length)
    (body : List Byte) (hb : body.length < db.info.blockSize) (hshort : body.length < db.info.proofLen) :
    ∃ qs st answers, query dpf read db.info i n = ok (qs, st) ∧ qs.mapM (answer dpf mode db) = ok answers ∧
      ∀ k, k < n → ∃ forged, forged.length = db.info.numRows * db.info.blockSize ∧
        (reconstructPIR H (answers.set k forged) db.info st).isCrash := by
  obtain ⟨qs, st, answers, h1, h2, -, -, h5⟩ := C11_one_server_chooses_the_value H db records hh dpf read hread mode n
    hfit hcols i hi
  refine ⟨qs, st, answers, h1, h2, ?_⟩
  intro k hk
  obtain ⟨forged, hl, hf⟩ := h5 k hk (body ++ [0x80] ++ List.replicate (db.info.blockSize - body.length - 1) 0)
    (by simp; omega)
  refine ⟨forged, hl, ?_⟩
  rw [hf]
  unfold checkBlock
  rw [unPad_signal]
  simp only [ok_bind]
  rw [if_pos hshort]
  trivial

/-- The hypotheses on the value can be met: the empty value is shorter than every proof. -/
example (info : Info) (h : 8 ≤ info.proofLen) (hb : 0 < info.blockSize) :
    ([] : List Byte).length < info.blockSize ∧ ([] : List Byte).length < info.proofLen :=
  ⟨hb, by rw [List.length_nil]; omega⟩

/-- C12 as claimed is false. -/
theorem C12_refuted : ¬ C12_Statement := by
  intro h
  have hrec : recordsOf [1, 2] (16 / (8 * 1)) 1 = [[1], [2]] := by decide
  obtain ⟨db, hdb, hR, hC, hh⟩ := createRandomMerkle_holds toyHash toyHash_length fnv1a (fun _ => ok [1, 2]) 16 1 1
    (by decide) (by decide) [1, 2] rfl (by decide) (by decide) (by decide)
    (by rw [hrec]; unfold ChecksumsFaithful; decide) (by rw [hrec]; decide)
  refine h toyHash toyHash_length db _ hh 0 0 (by omega) [[]] (C12_empty_answer_crashes toyHash db.info ?_ 0 0 _ (by simp))
  obtain ⟨stored, hst, hf⟩ := hh.stored
  obtain ⟨hlen, hget⟩ := forall₂_get hf
  have h0 : 0 < stored.length := by rw [← hlen]; decide
  have h1 := hst.fits stored[0] (List.getElem_mem _)
  have h2 := (hget 0 (by decide) h0).length
  omega

/-- C12 (point part), what does hold: answers of the right length never crash the unauthenticated client. Missing: other
lengths, see `C12_empty_answer_crashes`. -/
theorem C12_classical_right_length_partial (H : List Byte → List Byte) (info : Info)
    (htype : info.pirType = "classical" ∨ info.pirType = "") (ix iy : Nat) (hix : ix < info.numRows)
    (answers : List (List Byte)) (hlen : ∀ a ∈ answers, a.length = info.numRows * info.blockSize) :
    ∃ v, reconstructPIR H answers info ⟨ix, iy⟩ = ok v ∧ v.length = info.blockSize := by
  unfold reconstructPIR
  rw [if_pos htype, reconstructValue_eq, if_pos (fun a ha => ⟨_, part_of_row (hlen a ha) hix⟩)]
  refine ⟨_, rfl, ?_⟩
  rw [(foldl_xor_getD _ _ (by
    intro x hx
    obtain ⟨a, ha, rfl⟩ := List.mem_map.mp hx
    rw [part_of_row (hlen a ha) hix]
    have := part_length (part_of_row (iy := iy) (hlen a ha) hix)
    simpa [valueOf] using this) 0).1]
  simp

/-- C12 (authenticated), what does hold: the client does not crash on a value that, without its padding, is at least as
long as a proof, if the number of hashes announced in it fits in the block. Missing: the other values, see
`C12_zero_value_crashes`. -/
theorem C12_authenticated_well_formed_partial (H : List Byte → List Byte) (info : Info) (value body : List Byte)
    (zeros : Nat) (hval : value = body ++ [0x80] ++ List.replicate zeros 0) (hpl : 8 ≤ info.proofLen)
    (hlen : info.proofLen ≤ body.length) (count : U32)
    (hcount : (body.drop (body.length - info.proofLen)).take 4 = putLE32 count) (hsmall : count.toNat < 2 ^ 27 - 1)
    (hfits : 4 + 32 * count.toNat ≤ info.proofLen) : ¬ (checkBlock H info value).isCrash := by
  subst hval
  unfold checkBlock
  rw [unPad_signal]
  simp only [ok_bind]
  rw [if_neg (by omega)]
  set p := body.drop (body.length - info.proofLen) with hp
  have hpl' : p.length = info.proofLen := by rw [hp, List.length_drop]; omega
  set tail := (body ++ [0x80] ++ List.replicate zeros (0 : Byte)).drop body.length with htail
  have hdec : ∃ proof, decodeProof p tail = ok proof := by
    unfold decodeProof
    rw [slice_of_le (by omega) (by simp; omega)]
    simp only [ok_bind, List.drop_zero, Nat.sub_zero]
    rw [List.take_append_of_le_length (by omega), hcount, putLE32_get rfl]
    simp only [ok_bind]
    obtain ⟨hs, h1, -⟩ := forLoop_inv (n := count.toNat) (body := fun i (hs : List (List Byte)) => do
        let h ← slice (p ++ tail) ((4 + 32 * i) % 2 ^ 32) ((4 + 32 * (i + 1)) % 2 ^ 32)
        ok (hs ++ [h])) (s := []) (fun _ _ => True) trivial (by
          intro i t hi _
          rw [Nat.mod_eq_of_lt (by omega), Nat.mod_eq_of_lt (by omega),
            slice_of_le (by omega) (by rw [List.length_append]; omega)]
          exact ⟨_, rfl, trivial⟩)
    rw [h1]
    simp only [ok_bind]
    rw [if_neg (by omega)]
    have hd4 : (p.drop (p.length - 4)).length = 4 := by rw [List.length_drop]; omega
    have hx : p.drop (p.length - 4) = putLE32 (BitVec.ofNat 32 (ofLE (p.drop (p.length - 4)))) := by
      unfold putLE32
      have hlt := ofLE_lt (p.drop (p.length - 4))
      rw [hd4] at hlt
      rw [BitVec.toNat_ofNat, Nat.mod_eq_of_lt (by omega)]
      have := leBytes_ofLE (p.drop (p.length - 4))
      rw [hd4] at this
      exact this.symm
    rw [putLE32_get hx]
    exact ⟨_, rfl⟩
  obtain ⟨proof, hproof⟩ := hdec
  rw [hproof]
  simp only [ok_bind]
  unfold verifyProof generateProofHash
  rw [indexToBytes_eq proof.index.isLt]
  simp only [ok_bind]
  split <;> simp

example : ∃ (body : List Byte) (count : U32), 8 ≤ body.length ∧ (body.drop (body.length - 8)).take 4 = putLE32 count ∧
    4 + 32 * count.toNat ≤ 8 := ⟨[1, 2, 0, 0, 0, 0, 7, 0, 0, 0], 0, by decide, by decide, by decide⟩

end Verif.MerklePir
