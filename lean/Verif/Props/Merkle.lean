import Verif.Lemmas.Merkle

set_option linter.unusedSimpArgs false

/-! # Merkle tree properties (C07, C08, C09) -/

namespace Verif.Merkle
open Res Verif.Merkle.Spec

/-! ### C07: proofs of stored records verify -/

/-- The checksum of the tree's index tells the records apart. -/
def ChecksumsFaithful (ck : List Byte → U64) (data : List (List Byte)) : Prop :=
  ∀ a ∈ data, ∀ b ∈ data, ck a = ck b → a = b

/-- C07 as claimed: every record of every non-empty list has a proof that verifies and names a position of that
content. -/
def C07_Statement : Prop :=
  ∀ (H : List Byte → List Byte), (∀ s, (H s).length = 32) → ∀ (data : List (List Byte)), data ≠ [] →
    data.length ≤ 2 ^ 31 →
    ∃ t r, new H data = ok t ∧ root t = ok r ∧ ∀ d ∈ data, ∃ proof, generateProof fnv1a t d = ok proof ∧
      verifyProof H d proof r = ok true ∧ data[proof.index.toNat]? = some d

/-- A tree is built for every non-empty list, with the root of the specification. -/
theorem C07_tree_root (H : List Byte → List Byte) (hashLen : Nat) (ck : List Byte → U64) (data : List (List Byte))
    (h0 : data ≠ []) (hsize : data.length ≤ 2 ^ 32) :
    ∃ t, newUsing H hashLen ck data = ok t ∧ root t = ok (node H hashLen data (depth data) 0) := by
  obtain ⟨t, ht, hT⟩ := newUsing_spec H hashLen ck data h0 hsize
  refine ⟨t, ht, ?_⟩
  have := hT.nodes (depth data) 0 (le_refl _) (by simp)
  rw [Nat.sub_self, Nat.pow_zero, Nat.add_zero] at this
  unfold root idx
  rw [this]

theorem depth_le {data : List (List Byte)} {k : Nat} (h : data.length ≤ 2 ^ k) : depth data ≤ k :=
  Nat.clog_le_of_le_pow h

/-- The root of a built tree. -/
theorem root_eq {H : List Byte → List Byte} {hashLen : Nat} {ck : List Byte → U64} {data : List (List Byte)} {t : Tree}
    (hT : IsTree H hashLen ck data t) : root t = ok (node H hashLen data (depth data) 0) := by
  have := hT.nodes (depth data) 0 (le_refl _) (by simp)
  rw [Nat.sub_self, Nat.pow_zero, Nat.add_zero] at this
  unfold root idx
  rw [this]

/-- The proof of a record, computed: siblings on the way up, and the last position with its checksum. -/
theorem generateProof_spec {H : List Byte → List Byte} {hashLen : Nat} {ck : List Byte → U64}
    {data : List (List Byte)} {t : Tree} (hT : IsTree H hashLen ck data t) (hsize : data.length ≤ 2 ^ 31)
    (hdist : Nat.clog 2 (data.map ck).dedup.length = depth data) {d : List Byte} (hd : d ∈ data) :
    ∃ proof, generateProof ck t d = ok proof ∧ proof.hashes.length = depth data ∧
      (∃ h : proof.index.toNat < data.length, ck data[proof.index.toNat] = ck d) ∧
      (∀ l, l < depth data → proof.hashes[l]? =
        some (node H hashLen data l (sibling (proof.index.toNat / 2 ^ l)))) := by
  obtain ⟨i0, hi0, rfl⟩ := List.getElem_of_mem hd
  obtain ⟨j, hj⟩ := hT.map.complete i0 hi0 hi0
  obtain ⟨hjlt, -, hck⟩ := hT.map.sound _ _ hj
  have hB : data.length ≤ 2 ^ depth data := clog_pow _
  have hD : depth data ≤ 31 := depth_le hsize
  have hB31 : 2 ^ depth data ≤ 2 ^ 31 := Nat.pow_le_pow_right (by omega) hD
  have hBpos : 0 < 2 ^ depth data := Nat.pow_pos (by omega)
  have hidx : (j + t.nodes.length / 2) % 2 ^ 32 = 2 ^ depth data + j := by
    rw [hT.size, Nat.mul_div_cancel_left _ (by omega), Nat.mod_eq_of_lt (by omega)]
    omega
  have hjm : (BitVec.ofNat 32 j).toNat = j := by
    rw [BitVec.toNat_ofNat, Nat.mod_eq_of_lt (by omega)]
  have hfuel : depth data < 2 ^ depth data + j := by
    have := Nat.lt_two_pow_self (n := depth data)
    omega
  obtain ⟨r, h1, h2, -, h4⟩ := proofLoop_spec hT (depth data) (2 ^ depth data + j) j
    (List.replicate (depth data) []) hfuel (le_refl _) (by omega) (by simp)
  rw [Nat.sub_self] at h1 h4
  refine ⟨⟨r, BitVec.ofNat 32 j⟩, ?_, by simpa using h2, ⟨by rw [hjm]; exact hjlt, by simp only [hjm]; exact hck⟩, ?_⟩
  · unfold generateProof
    rw [hj]
    simp only [hidx]
    rw [hT.map.length]
    unfold ceilLog2
    rw [hdist, h1]
    rfl
  · intro l hl
    rw [h4 l (by omega) hl]
    simp only [hjm, Nat.sub_zero]

/-- Verification of a proof made of the right siblings. -/
theorem verify_spec (H : List Byte → List Byte) (hashLen : Nat) (data : List (List Byte))
    (hsize : data.length ≤ 2 ^ 31) (proof : Proof) (hlen : proof.hashes.length = depth data)
    (hi : proof.index.toNat < data.length)
    (hs : ∀ l, l < depth data → proof.hashes[l]? =
        some (node H hashLen data l (sibling (proof.index.toNat / 2 ^ l)))) :
    verifyProof H data[proof.index.toNat] proof (node H hashLen data (depth data) 0) = ok true := by
  have hB : data.length ≤ 2 ^ depth data := clog_pow _
  have hD : depth data ≤ 31 := depth_le hsize
  have hB31 : 2 ^ depth data ≤ 2 ^ 31 := Nat.pow_le_pow_right (by omega) hD
  unfold verifyProof generateProofHash
  rw [indexToBytes_eq proof.index.isLt]
  simp only [ok_bind]
  have hmod : (proof.index.toNat + 2 ^ proof.hashes.length) % 2 ^ 32 =
      2 ^ proof.hashes.length + proof.index.toNat := by
    rw [hlen, Nat.mod_eq_of_lt (by omega)]; omega
  have hleaf : H (data[proof.index.toNat] ++ putLE32 (BitVec.ofNat 32 proof.index.toNat)) =
      node H hashLen data 0 proof.index.toNat := by
    simp [node, leafAt, hi]
  rw [hmod, hleaf, fold_path H hashLen data proof.hashes 0 proof.index.toNat
    (fun k hk => by rw [hs k (by omega)]; simp)]
  rw [hlen, Nat.zero_add, Nat.div_eq_of_lt (by omega)]
  simp

theorem dedup_map_length {ck : List Byte → U64} {data : List (List Byte)} (hck : ChecksumsFaithful ck data) :
    (data.map ck).dedup.length = data.dedup.length := by
  have hp : (data.map ck).dedup.Perm (data.dedup.map ck) := by
    apply (List.perm_ext_iff_of_nodup (List.nodup_dedup _) ?_).mpr
    · intro c; simp
    · apply List.Nodup.map_on _ (List.nodup_dedup _)
      intro a ha b hb
      exact hck a (List.mem_dedup.mp ha) b (List.mem_dedup.mp hb)
  rw [hp.length_eq, List.length_map]

/-- C07 for lists whose distinct records need as many tree levels as the list, when the FNV checksums tell the records
apart. Missing from the full claim: lists with many duplicates and checksum collisions, for which it is false. -/
theorem C07_proofs_verify_partial (H : List Byte → List Byte) (hashLen : Nat) (ck : List Byte → U64)
    (data : List (List Byte)) (h0 : data ≠ []) (hsize : data.length ≤ 2 ^ 31) (hck : ChecksumsFaithful ck data)
    (hdist : Nat.clog 2 data.dedup.length = Nat.clog 2 data.length) :
    ∃ t r, newUsing H hashLen ck data = ok t ∧ root t = ok r ∧ ∀ d ∈ data, ∃ proof, generateProof ck t d = ok proof ∧
      verifyProof H d proof r = ok true ∧ data[proof.index.toNat]? = some d := by
  obtain ⟨t, ht, hT⟩ := newUsing_spec H hashLen ck data h0 (by omega)
  refine ⟨t, _, ht, root_eq hT, ?_⟩
  intro d hd
  have hdd : Nat.clog 2 (data.map ck).dedup.length = depth data := by
    rw [dedup_map_length hck]
    exact hdist
  obtain ⟨proof, hp, hlen, ⟨hi, hc⟩, hs⟩ := generateProof_spec hT hsize hdd hd
  have he : data[proof.index.toNat] = d := hck _ (List.getElem_mem hi) _ hd hc
  refine ⟨proof, hp, ?_, by rw [List.getElem?_eq_getElem hi, he]⟩
  rw [← he]
  exact verify_spec H hashLen data hsize proof hlen hi hs

/-- C07 for distinct records: the proof names exactly the position of the record. -/
theorem C07_distinct_partial (H : List Byte → List Byte) (hashLen : Nat) (ck : List Byte → U64)
    (data : List (List Byte)) (h0 : data ≠ []) (hsize : data.length ≤ 2 ^ 31) (hck : ChecksumsFaithful ck data)
    (hnodup : data.Nodup) :
    ∃ t r, newUsing H hashLen ck data = ok t ∧ root t = ok r ∧ ∀ i (hi : i < data.length), ∃ proof,
      generateProof ck t data[i] = ok proof ∧ verifyProof H data[i] proof r = ok true ∧ proof.index.toNat = i := by
  obtain ⟨t, r, ht, hr, hall⟩ := C07_proofs_verify_partial H hashLen ck data h0 hsize hck (by rw [hnodup.dedup])
  refine ⟨t, r, ht, hr, ?_⟩
  intro i hi
  obtain ⟨proof, h1, h2, h3⟩ := hall data[i] (List.getElem_mem hi)
  refine ⟨proof, h1, h2, ?_⟩
  obtain ⟨hlt, he⟩ := List.getElem?_eq_some_iff.mp h3
  exact (List.nodup_iff_injective_get.mp hnodup
    (a₁ := ⟨proof.index.toNat, hlt⟩) (a₂ := ⟨i, hi⟩) (by simpa using he)) |> Fin.mk.inj_iff.mp

/-- A list with many duplicates makes proof generation crash for every record, whatever the hash function. -/
theorem C07_duplicates_crash (H : List Byte → List Byte) (hashLen : Nat) (ck : List Byte → U64)
    (data : List (List Byte)) (hsize : data.length ≤ 2 ^ 31)
    (hdup : Nat.clog 2 (data.map ck).dedup.length < Nat.clog 2 data.length) :
    ∃ t, newUsing H hashLen ck data = ok t ∧ ∀ d ∈ data, (generateProof ck t d).isCrash := by
  have h0 : data ≠ [] := by
    rintro rfl
    simp at hdup
  obtain ⟨t, ht, hT⟩ := newUsing_spec H hashLen ck data h0 (by omega)
  refine ⟨t, ht, ?_⟩
  intro d hd
  obtain ⟨i0, hi0, rfl⟩ := List.getElem_of_mem hd
  obtain ⟨j, hj⟩ := hT.map.complete i0 hi0 hi0
  obtain ⟨hjlt, -, -⟩ := hT.map.sound _ _ hj
  have hB : data.length ≤ 2 ^ depth data := clog_pow _
  have hD : depth data ≤ 31 := depth_le hsize
  have hB31 : 2 ^ depth data ≤ 2 ^ 31 := Nat.pow_le_pow_right (by omega) hD
  have hidx : (j + t.nodes.length / 2) % 2 ^ 32 = 2 ^ depth data + j := by
    rw [hT.size, Nat.mul_div_cancel_left _ (by omega), Nat.mod_eq_of_lt (by omega)]
    omega
  unfold generateProof
  rw [hj]
  simp only [hidx]
  have hfuel : depth data < 2 ^ depth data + j := by
    have := Nat.lt_two_pow_self (n := depth data)
    omega
  have hc := proofLoop_crash hT (depth data) (2 ^ depth data + j) j
    (List.replicate (ceilLog2 t.data.length) []) hfuel (le_refl _) (by omega)
    (by rw [hT.map.length]; simpa [ceilLog2, depth] using hdup) (by omega)
  rw [Nat.sub_self] at hc
  rw [isCrash_bind]
  exact Or.inl hc

/-- C07 as claimed is false: three records of which two are equal. -/
theorem C07_refuted : ¬ C07_Statement := by
  intro h
  have hl : ∀ s : List Byte, ((fun _ => List.replicate 32 (1 : Byte)) s).length = 32 := by intro s; simp
  obtain ⟨t, r, h1, -, h3⟩ := h (fun _ => List.replicate 32 1) hl [[1], [1], [2]] (by simp) (by simp)
  obtain ⟨t', h1', hc⟩ := C07_duplicates_crash (fun _ => List.replicate 32 1) 32 fnv1a [[1], [1], [2]] (by simp)
    (by decide)
  have : t = t' := by
    have := h1.symm.trans h1'
    simpa using this
  subst this
  obtain ⟨proof, hp, -⟩ := h3 [1] (by simp)
  have := hc [1] (by simp)
  rw [hp] at this
  simp at this

/-- The hypotheses of `C07_proofs_verify_partial` hold of three records of which two are adjacent duplicates of a
longer list, with the code's checksum. -/
example : ChecksumsFaithful fnv1a [[1], [2], [3], [1]] ∧
    Nat.clog 2 ([[1], [2], [3], [1]] : List (List Byte)).dedup.length = Nat.clog 2 4 := by
  unfold ChecksumsFaithful
  decide

example : ChecksumsFaithful fnv1a [[1], [2], [3, 4]] ∧ ([[1], [2], [3, 4]] : List (List Byte)).Nodup := by
  unfold ChecksumsFaithful
  decide

/-! ### C08: a verified proof implies membership -/

/-- C08 as claimed: an accepted proof is for the record at its position, unless the verification shows a collision
with the tree or a preimage of the padding digest. -/
def C08_Statement : Prop :=
  ∀ (H : List Byte → List Byte), (∀ s, (H s).length = 32) → ∀ (data : List (List Byte)) (t : Tree) (r : List Byte),
    data.length ≤ 2 ^ 31 → new H data = ok t → root t = ok r → ∀ (d : List Byte) (proof : Proof),
    verifyProof H d proof r = ok true → NoCollision H 32 data d proof → data[proof.index.toNat]? = some d

/-- Path of hashes with the position in the tree or the position with the leading bit. -/
theorem pathInputs_congr (H : List Byte → List Byte) : ∀ (hs : List (List Byte)) (x : List Byte) (p q : Nat),
    (∀ k, k < hs.length → p / 2 ^ k % 2 = q / 2 ^ k % 2) → pathInputs H hs x p = pathInputs H hs x q := by
  intro hs
  induction hs with
  | nil => intros; rfl
  | cons h hs ih =>
    intro x p q hpq
    have h0 := hpq 0 (by simp)
    simp only [Nat.pow_zero, Nat.div_one] at h0
    simp only [pathInputs, h0]
    congr 1
    apply ih
    intro k hk
    have := hpq (k + 1) (by simpa using hk)
    rwa [Nat.pow_succ', ← Nat.div_div_eq_div_mul, ← Nat.div_div_eq_div_mul] at this

theorem div_pow_parity {D k i : Nat} (hk : k < D) : (i + 2 ^ D) / 2 ^ k % 2 = i / 2 ^ k % 2 := by
  have : 2 ^ D = 2 ^ (D - k - 1) * 2 * 2 ^ k := by
    rw [← Nat.pow_succ, ← Nat.pow_add]; congr 1; omega
  rw [this, Nat.add_mul_div_right _ _ (Nat.pow_pos (by omega))]
  omega

theorem low_bits {D k a : Nat} (hk : k < D) (hD : D ≤ 32) : (a % 2 ^ 32) / 2 ^ k % 2 = a / 2 ^ k % 2 := by
  have h1 : 2 ^ 32 = 2 ^ k * (2 * 2 ^ (31 - k)) := by
    rw [← Nat.pow_succ', ← Nat.pow_add]; congr 1; omega
  rw [h1, Nat.mod_mul_right_div_self, Nat.mod_mul_right_mod]

/-- C08 for proofs with as many hashes as the tree has levels: what is accepted is the record whose position is given
by the low bits of the proof index, and the index is that position. Missing from the full claim: proofs of another
length, for which it is false. -/
theorem C08_full_length_partial (H : List Byte → List Byte) (hashLen : Nat) (hH : ∀ s, (H s).length = hashLen)
    (ck : List Byte → U64) (data : List (List Byte)) (t : Tree) (r : List Byte) (hsize : data.length ≤ 2 ^ 31)
    (ht : newUsing H hashLen ck data = ok t) (hr : root t = ok r) (d : List Byte) (proof : Proof)
    (hfull : proof.hashes.length = depth data) (hlens : ∀ h ∈ proof.hashes, h.length = hashLen)
    (hv : verifyProof H d proof r = ok true) (hnc : NoCollision H hashLen data d proof) :
    data[proof.index.toNat]? = some d := by
  have h0 : data ≠ [] := by
    rintro rfl
    simp [newUsing] at ht
  obtain ⟨t', ht', hT⟩ := newUsing_spec H hashLen ck data h0 (by omega)
  have : t' = t := by have := ht'.symm.trans ht; simpa using this
  subst this
  rw [root_eq hT] at hr
  simp only [Res.ok.injEq] at hr
  subst hr
  have hD : depth data ≤ 31 := depth_le hsize
  unfold verifyProof generateProofHash at hv
  rw [indexToBytes_eq proof.index.isLt] at hv
  simp only [ok_bind, Res.ok.injEq, beq_iff_eq] at hv
  rw [BitVec.ofNat_toNat, BitVec.setWidth_eq] at hv
  have hpar : ∀ k, k < proof.hashes.length → proof.index.toNat / 2 ^ k % 2 =
      (proof.index.toNat + 2 ^ proof.hashes.length) % 2 ^ 32 / 2 ^ k % 2 := by
    intro k hk
    rw [low_bits hk (by omega), div_pow_parity hk]
  have hinj : ∀ a ∈ pathInputs H proof.hashes (H (d ++ putLE32 proof.index))
      ((proof.index.toNat + 2 ^ proof.hashes.length) % 2 ^ 32), ∀ b, TreeInput H hashLen data b → H a = H b → a = b := by
    rw [← pathInputs_congr H proof.hashes _ _ _ hpar]
    intro a ha
    exact hnc.inj a (List.mem_cons_of_mem _ ha)
  have hleaf := sound_path H hashLen hH data proof.hashes 0 _ _ (by omega) hlens (hH _) hinj hv.symm
  generalize hq : (proof.index.toNat + 2 ^ proof.hashes.length) % 2 ^ 32 % 2 ^ proof.hashes.length = q at hleaf
  rw [node, leafAt] at hleaf
  have hmem : d ++ putLE32 proof.index ∈ verifierInputs H d proof := List.mem_cons_self
  cases hdq : data[q]? with
  | none =>
    rw [hdq] at hleaf
    exact absurd hleaf (hnc.zero _ hmem)
  | some e =>
    rw [hdq] at hleaf
    obtain ⟨hqlt, he⟩ := List.getElem?_eq_some_iff.mp hdq
    have := hnc.inj _ hmem _ (TreeInput.leaf q hqlt) (by rw [he]; exact hleaf)
    rw [he] at this
    obtain ⟨h1, h2⟩ := List.append_inj' this (by simp)
    have h3 := congrArg BitVec.toNat (putLE32_inj h2)
    rw [BitVec.toNat_ofNat, Nat.mod_eq_of_lt (by omega)] at h3
    rw [h3, hdq, h1]

/-- Whoever knows two digests can have a string accepted that is no record: every tree of at least two records, over
every hash function, has a 60-byte string and a proof without any hash that are accepted. -/
theorem C08_short_proof_accepted (H : List Byte → List Byte) (hH : ∀ s, (H s).length = 32) (ck : List Byte → U64)
    (data : List (List Byte)) (h2 : 2 ≤ data.length) (hsize : data.length ≤ 2 ^ 32) :
    ∃ t r d proof, newUsing H 32 ck data = ok t ∧ root t = ok r ∧ d.length = 60 ∧ proof.hashes = [] ∧
      verifyProof H d proof r = ok true ∧
      verifierInputs H d proof =
        [node H 32 data (depth data - 1) 0 ++ node H 32 data (depth data - 1) 1] := by
  obtain ⟨t, ht, hT⟩ := newUsing_spec H 32 ck data (by rintro rfl; simp at h2) hsize
  have hDpos : 0 < depth data := Nat.clog_pos (by omega) (by omega)
  obtain ⟨D, hD⟩ : ∃ D, depth data = D + 1 := ⟨depth data - 1, by omega⟩
  have hL := node_length (hashLen := 32) hH data D 0
  have hR := node_length (hashLen := 32) hH data D 1
  generalize hLd : node H 32 data D 0 = L at hL
  generalize hRd : node H 32 data D 1 = R at hR
  have hdrop : (R.drop 28).length = 4 := by rw [List.length_drop, hR]
  have hidx : putLE32 (BitVec.ofNat 32 (ofLE (R.drop 28))) = R.drop 28 := by
    unfold putLE32
    have hlt := ofLE_lt (R.drop 28)
    rw [hdrop] at hlt
    rw [BitVec.toNat_ofNat, Nat.mod_eq_of_lt (by omega)]
    have := leBytes_ofLE (R.drop 28)
    rwa [hdrop] at this
  have hcat : L ++ R.take 28 ++ putLE32 (BitVec.ofNat 32 (ofLE (R.drop 28))) = L ++ R := by
    rw [hidx, List.append_assoc, List.take_append_drop]
  refine ⟨t, _, L ++ R.take 28, ⟨[], BitVec.ofNat 32 (ofLE (R.drop 28))⟩, ht, root_eq hT, ?_, rfl, ?_, ?_⟩
  · simp [hL, hR]
  · unfold verifyProof generateProofHash
    rw [indexToBytes_eq (BitVec.isLt _)]
    simp only [ok_bind, List.foldl_nil, BitVec.ofNat_toNat, BitVec.setWidth_eq]
    rw [hcat, hD, node, Nat.mul_zero, Nat.zero_add, hRd, hLd]
    simp
  · simp only [verifierInputs, pathInputs]
    rw [hcat, hD, Nat.add_sub_cancel, hLd, hRd]

/-- A toy hash function without collisions on short strings of different lengths. -/
def toyHash (s : List Byte) : List Byte := (s ++ List.replicate 31 0).take 31 ++ [BitVec.ofNat 8 s.length]

theorem toyHash_length (s : List Byte) : (toyHash s).length = 32 := by simp [toyHash]

/-- C08 as claimed is false: no hash is needed in a proof. -/
theorem C08_refuted : ¬ C08_Statement := by
  intro h
  obtain ⟨t, r, d, proof, ht, hr, hd, hp, hv, hin⟩ :=
    C08_short_proof_accepted toyHash toyHash_length fnv1a [[1], [2]] (by simp) (by simp)
  have hdep : depth ([[1], [2]] : List (List Byte)) = 1 := by decide
  have := h toyHash toyHash_length [[1], [2]] t r (by simp) ht hr d proof hv ⟨?_, ?_⟩
  · have hm := List.mem_of_getElem? this
    simp at hm
    rcases hm with rfl | rfl <;> simp at hd
  · rw [hin]
    intro a ha b hb
    simp only [List.mem_singleton] at ha
    subst ha
    rw [hdep]
    cases hb with
    | leaf p hp =>
      have : p = 0 ∨ p = 1 := by simp at hp; omega
      rcases this with rfl | rfl <;> decide +revert
    | inner l p hl hp =>
      rw [hdep] at hl hp
      have : l = 0 := by omega
      subst this
      have : p = 0 := by simpa using hp
      subst this
      intro _
      rfl
  · rw [hin, hdep]
    intro a ha
    simp only [List.mem_singleton] at ha
    subst ha
    decide

/-- The hypotheses of `C08_full_length_partial` can hold: the honest proof of the second of two records. -/
example : ∃ t r proof, newUsing toyHash 32 fnv1a [[1], [2]] = ok t ∧ root t = ok r ∧
    proof.hashes.length = depth ([[1], [2]] : List (List Byte)) ∧ (∀ h ∈ proof.hashes, h.length = 32) ∧
    verifyProof toyHash [2] proof r = ok true ∧ NoCollision toyHash 32 [[1], [2]] [2] proof := by
  have hdep : depth ([[1], [2]] : List (List Byte)) = 1 := by decide
  obtain ⟨t, ht, hT⟩ := newUsing_spec toyHash 32 fnv1a [[1], [2]] (by simp) (by simp)
  refine ⟨t, _, ⟨[toyHash [1, 0, 0, 0, 0]], 1⟩, ht, root_eq hT, by rw [hdep]; rfl,
    by simp [toyHash_length], by rw [hdep]; decide, ?_, ?_⟩
  · intro a ha b hb
    have hv : verifierInputs toyHash [2] ⟨[toyHash [1, 0, 0, 0, 0]], 1⟩ =
        [[2, 1, 0, 0, 0], toyHash [1, 0, 0, 0, 0] ++ toyHash [2, 1, 0, 0, 0]] := by decide
    rw [hv] at ha
    simp only [List.mem_cons, List.not_mem_nil, or_false] at ha
    cases hb with
    | leaf p hp =>
      have : p = 0 ∨ p = 1 := by simp at hp; omega
      clear hT ht t; rcases this with rfl | rfl <;> rcases ha with rfl | rfl <;> decide +revert
    | inner l p hl hp =>
      rw [hdep] at hl hp
      have : l = 0 := by omega
      subst this
      have : p = 0 := by simpa using hp
      subst this
      rcases ha with rfl | rfl <;> decide
  · intro a ha
    have hv : verifierInputs toyHash [2] ⟨[toyHash [1, 0, 0, 0, 0]], 1⟩ =
        [[2, 1, 0, 0, 0], toyHash [1, 0, 0, 0, 0] ++ toyHash [2, 1, 0, 0, 0]] := by decide
    rw [hv] at ha
    simp only [List.mem_cons, List.not_mem_nil, or_false] at ha
    rcases ha with rfl | rfl <;> decide

/-! ### C09: proof wire format -/

theorem flatten_length32 : ∀ (hs : List (List Byte)), (∀ h ∈ hs, h.length = 32) → hs.flatten.length = 32 * hs.length
  | [], _ => rfl
  | h :: hs, hl => by
    rw [List.flatten_cons, List.length_append, flatten_length32 hs (fun x hx => hl x (List.mem_cons_of_mem _ hx)),
      hl h (by simp), List.length_cons]
    omega

theorem encodeProof_eq (p : Proof) (hlens : ∀ h ∈ p.hashes, h.length = 32) :
    encodeProof p = ok (putLE32 (BitVec.ofNat 32 p.hashes.length) ++ p.hashes.flatten ++ putLE32 p.index) := by
  unfold encodeProof
  simp only
  rw [copyAt_of_le (by simp)]
  simp only [ok_bind]
  set n := p.hashes.length with hn
  set pre := putLE32 (BitVec.ofNat 32 n) with hpre
  have hprel : pre.length = 4 := by simp [hpre]
  have hloop := forLoop_eq (n := n) (body := fun i (out : List Byte) => do
      let h ← idx p.hashes i
      let _ ← slice out (4 + i * h.length) (4 + (i + 1) * h.length)
      copyAt out (4 + i * h.length) h)
    (fun i => pre ++ (p.hashes.take i).flatten ++ List.replicate (32 * (n - i) + 4) 0) (by
      intro i hi
      have hl32 : p.hashes[i].length = 32 := hlens _ (List.getElem_mem hi)
      rw [idx_of_lt hi]
      simp only [ok_bind, hl32]
      have hfl : ((p.hashes.take i).flatten).length = 32 * i := by
        rw [flatten_length32 _ (fun h hh => hlens h (List.mem_of_mem_take hh)), List.length_take]
        congr 1; omega
      rw [slice_of_le (by omega) (by simp only [List.length_append, List.length_replicate, hprel, hfl]; omega)]
      simp only [ok_bind]
      rw [copyAt_of_le (by simp only [List.length_append, List.length_replicate, hprel, hfl, hl32]; omega)]
      have hpl : (pre ++ (p.hashes.take i).flatten).length = 4 + i * 32 := by
        rw [List.length_append, hprel, hfl]; omega
      rw [List.take_left' hpl, hl32, List.drop_append, List.drop_eq_nil_of_le (by omega), hpl,
        show 4 + i * 32 + 32 - (4 + i * 32) = 32 by omega, List.drop_replicate, List.take_add_one,
        List.getElem?_eq_getElem hi]
      rw [show 32 * (n - i) + 4 - 32 = 32 * (n - (i + 1)) + 4 by omega]
      simp only [List.append_assoc, Option.toList_some, List.flatten_append, List.flatten_cons, List.flatten_nil,
        List.append_nil, List.nil_append])
  have hg0 : List.take 0 (List.replicate (4 + n * 32 + 4) (0 : Byte)) ++ pre ++
      List.drop (0 + pre.length) (List.replicate (4 + n * 32 + 4) 0) =
      pre ++ (p.hashes.take 0).flatten ++ List.replicate (32 * (n - 0) + 4) 0 := by
    simp only [List.take_zero, List.nil_append, List.flatten_nil, List.append_nil, hprel, List.drop_replicate]
    congr 2; omega
  rw [hg0, hloop]
  simp only [ok_bind]
  have hfl : p.hashes.flatten.length = 32 * n := flatten_length32 _ hlens
  rw [show p.hashes.take n = p.hashes from List.take_length]
  have hpl : (pre ++ p.hashes.flatten).length = 4 + 32 * n := by rw [List.length_append, hprel, hfl]
  have htot : (pre ++ p.hashes.flatten ++ List.replicate (32 * (n - n) + 4) (0 : Byte)).length - 4 = 4 + 32 * n := by
    rw [List.length_append, hpl, List.length_replicate]; omega
  rw [htot, copyAt_of_le (by rw [List.length_append, hpl, List.length_replicate, putLE32_length]; omega),
    List.take_left' hpl, List.drop_eq_nil_of_le (by
      rw [List.length_append, hpl, List.length_replicate, putLE32_length]; omega), List.append_nil]

theorem slice_hash (hs : List (List Byte)) (hlens : ∀ h ∈ hs, h.length = 32) (pre post : List Byte)
    (hpre : pre.length = 4) {i : Nat} (hi : i < hs.length) :
    slice (pre ++ hs.flatten ++ post) (4 + 32 * i) (4 + 32 * (i + 1)) = ok hs[i] := by
  have hfl := flatten_length32 hs hlens
  rw [slice_of_le (by omega) (by simp only [List.length_append, hpre, hfl]; omega)]
  congr 1
  have hsplit : hs.flatten = (hs.take i).flatten ++ (hs[i] ++ (hs.drop (i + 1)).flatten) := by
    rw [← List.flatten_cons, ← List.flatten_append, List.getElem_cons_drop, List.take_append_drop]
  have h1 : ((hs.take i).flatten).length = 32 * i := by
    rw [flatten_length32 _ (fun h hh => hlens h (List.mem_of_mem_take hh)), List.length_take]
    congr 1; omega
  rw [hsplit, show 4 + 32 * (i + 1) - (4 + 32 * i) = 32 by omega]
  have h2 : pre ++ ((hs.take i).flatten ++ (hs[i] ++ (hs.drop (i + 1)).flatten)) ++ post =
      (pre ++ (hs.take i).flatten) ++ (hs[i] ++ ((hs.drop (i + 1)).flatten ++ post)) := by
    simp [List.append_assoc]
  rw [h2, List.drop_left' (by rw [List.length_append, hpre, h1]),
    List.take_left' (hlens _ (List.getElem_mem hi))]

theorem putLE32_get {b : List Byte} {x : U32} (h : b = putLE32 x) : getLE32 b = ok x := by
  have := getLE32_put x []
  rwa [List.append_nil, ← h] at this

theorem decodeProof_encoded (p : Proof) (hlens : ∀ h ∈ p.hashes, h.length = 32)
    (hn : p.hashes.length < 2 ^ 27 - 1) (tail : List Byte) :
    decodeProof (putLE32 (BitVec.ofNat 32 p.hashes.length) ++ p.hashes.flatten ++ putLE32 p.index) tail = ok p := by
  have hfl := flatten_length32 p.hashes hlens
  unfold decodeProof
  rw [slice_of_le (by omega) (by simp only [List.length_append, putLE32_length]; omega)]
  simp only [ok_bind, List.drop_zero, List.append_assoc, Nat.sub_zero]
  rw [List.take_left' (putLE32_length _), putLE32_get rfl]
  simp only [ok_bind, BitVec.toNat_ofNat]
  rw [Nat.mod_eq_of_lt (by omega)]
  have hloop := forLoop_eq (n := p.hashes.length) (body := fun i (hs : List (List Byte)) => do
      let h ← slice (putLE32 (BitVec.ofNat 32 p.hashes.length) ++ (p.hashes.flatten ++ (putLE32 p.index ++ tail)))
        ((4 + 32 * i) % 2 ^ 32) ((4 + 32 * (i + 1)) % 2 ^ 32)
      ok (hs ++ [h])) (fun i => p.hashes.take i) (by
      intro i hi
      rw [Nat.mod_eq_of_lt (by omega), Nat.mod_eq_of_lt (by omega), ← List.append_assoc,
        slice_hash p.hashes hlens _ _ (putLE32_length _) hi]
      simp only [ok_bind]
      rw [List.take_add_one, List.getElem?_eq_getElem hi]
      rfl)
  rw [List.take_zero, List.take_length] at hloop
  rw [hloop]
  simp only [ok_bind]
  rw [if_neg (by simp)]
  have hl : (putLE32 (BitVec.ofNat 32 p.hashes.length) ++ (p.hashes.flatten ++ putLE32 p.index)).length - 4 =
      (putLE32 (BitVec.ofNat 32 p.hashes.length) ++ p.hashes.flatten).length := by
    simp
    omega
  rw [hl, ← List.append_assoc, List.drop_left, putLE32_get rfl]
  rfl

/-- C09: encoding then decoding gives the proof back, whatever bytes follow the encoding in memory, and the encoding
takes 8 bytes more than the hashes. -/
theorem C09_proof_round_trip (p : Proof) (hlens : ∀ h ∈ p.hashes, h.length = 32) (hn : p.hashes.length < 2 ^ 27 - 1)
    (tail : List Byte) :
    ∃ enc, encodeProof p = ok enc ∧ enc.length = 8 + 32 * p.hashes.length ∧ decodeProof enc tail = ok p := by
  refine ⟨_, encodeProof_eq p hlens, ?_, decodeProof_encoded p hlens hn tail⟩
  simp only [List.length_append, putLE32_length, flatten_length32 _ hlens]
  omega

/-- C09: the proofs a tree generates have the length the tree announces. -/
theorem C09_announced_length (H : List Byte → List Byte) (hH : ∀ s, (H s).length = 32) (ck : List Byte → U64)
    (data : List (List Byte)) (t : Tree) (hsize : data.length ≤ 2 ^ 31) (ht : newUsing H 32 ck data = ok t)
    (d : List Byte) (proof : Proof) (hp : generateProof ck t d = ok proof) (hd : d ∈ data) (tail : List Byte) :
    ∃ enc, encodeProof proof = ok enc ∧ enc.length = encodedProofLength 32 t ∧ decodeProof enc tail = ok proof := by
  have h0 : data ≠ [] := by
    rintro rfl
    simp [newUsing] at ht
  obtain ⟨t', ht', hT⟩ := newUsing_spec H 32 ck data h0 (by omega)
  have : t' = t := by have := ht'.symm.trans ht; simpa using this
  subst this
  have hD : depth data ≤ 31 := depth_le hsize
  have hle : (data.map ck).dedup.length ≤ data.length := by
    have := (List.dedup_sublist (data.map ck)).length_le
    simpa using this
  have hdist : Nat.clog 2 (data.map ck).dedup.length = depth data := by
    rcases Nat.lt_or_ge (Nat.clog 2 (data.map ck).dedup.length) (depth data) with hlt | hge
    · obtain ⟨t'', ht'', hc⟩ := C07_duplicates_crash H 32 ck data hsize hlt
      have : t'' = t' := by have := ht''.symm.trans ht'; simpa using this
      subst this
      have := hc d hd
      rw [hp] at this
      simp at this
    · exact le_antisymm (Nat.clog_mono_right 2 hle) hge
  obtain ⟨proof', hp', hlen, -, hs⟩ := generateProof_spec hT hsize hdist hd
  have : proof' = proof := by have := hp'.symm.trans hp; simpa using this
  subst this
  have hlens : ∀ h ∈ proof'.hashes, h.length = 32 := by
    intro h hh
    obtain ⟨i, hi, rfl⟩ := List.getElem_of_mem hh
    have := hs i (by omega)
    rw [List.getElem?_eq_getElem hi] at this
    simp only [Option.some.injEq] at this
    rw [this]
    exact node_length hH _ _ _
  obtain ⟨enc, h1, h2, h3⟩ := C09_proof_round_trip proof' hlens (by omega) tail
  refine ⟨enc, h1, ?_, h3⟩
  rw [h2, hlen]
  unfold encodedProofLength ceilLog2
  rw [hT.map.length, hdist]
  omega

example : ∃ p : Proof, p.hashes.length = 2 ∧ (∀ h ∈ p.hashes, h.length = 32) ∧ p.index = 3 :=
  ⟨⟨[toyHash [1], toyHash [2]], 3⟩, rfl, by simp [toyHash_length], rfl⟩

end Verif.Merkle
