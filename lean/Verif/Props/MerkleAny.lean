import Verif.Props.ClientAuth
import Verif.Lemmas.Local

/-! # C126, C127: everything that passes for a record, with proofs of any length -/

namespace Verif.Merkle
open Res Verif.Merkle.Spec

theorem pathInputs_append (H : List Byte → List Byte) : ∀ (u v : List (List Byte)) (x : List Byte) (pos : Nat),
    pathInputs H (u ++ v) x pos =
      pathInputs H u x pos ++ pathInputs H v (u.foldl (foldHash H) (x, pos)).1 (pos / 2 ^ u.length) := by
  intro u
  induction u with
  | nil => intro v x pos; simp [pathInputs]
  | cons h u ih =>
    intro v x pos
    have hf : foldHash H (x, pos) h = (H (if pos % 2 = 0 then x ++ h else h ++ x), pos / 2) := by
      unfold foldHash; simp only; split <;> rfl
    rw [List.cons_append, pathInputs, pathInputs, List.foldl_cons, hf]
    rw [ih, List.cons_append, List.length_cons, Nat.pow_succ', Nat.div_div_eq_div_mul]

theorem foldHash_snd (H : List Byte → List Byte) : ∀ (u : List (List Byte)) (x : List Byte) (pos : Nat),
    (u.foldl (foldHash H) (x, pos)).2 = pos / 2 ^ u.length := by
  intro u
  induction u with
  | nil => intro x pos; simp
  | cons h u ih =>
    intro x pos
    rw [List.foldl_cons]
    have hf : foldHash H (x, pos) h = (H (if pos % 2 = 0 then x ++ h else h ++ x), pos / 2) := by
      unfold foldHash; simp only; split <;> rfl
    rw [hf, ih, List.length_cons, Nat.pow_succ', Nat.div_div_eq_div_mul]

/-- The last digest of a path that is not empty is of a digest before it and a hash of the path. -/
theorem path_last (H : List Byte → List Byte) : ∀ (u : List (List Byte)) (x : List Byte) (pos : Nat), u ≠ [] →
    ∃ s y h, s ∈ pathInputs H u x pos ∧ (u.foldl (foldHash H) (x, pos)).1 = H s ∧
      (y = x ∨ ∃ s' ∈ pathInputs H u x pos, y = H s') ∧ h ∈ u ∧ (s = y ++ h ∨ s = h ++ y) := by
  intro u
  induction u with
  | nil => intro x pos h; exact absurd rfl h
  | cons h u ih =>
    intro x pos _
    have hf : foldHash H (x, pos) h = (H (if pos % 2 = 0 then x ++ h else h ++ x), pos / 2) := by
      unfold foldHash; simp only; split <;> rfl
    rw [List.foldl_cons, hf, pathInputs]
    by_cases hu : u = []
    · subst hu
      refine ⟨_, x, h, List.mem_cons_self, rfl, Or.inl rfl, by simp, ?_⟩
      split <;> simp
    · obtain ⟨s, y, h', h1, h2, h3, h4, h5⟩ := ih (H (if pos % 2 = 0 then x ++ h else h ++ x)) (pos / 2) hu
      refine ⟨s, y, h', List.mem_cons_of_mem _ h1, h2, Or.inr ?_, List.mem_cons_of_mem _ h4, h5⟩
      rcases h3 with h3 | ⟨s', h3, h3'⟩
      · exact ⟨_, List.mem_cons_self, h3⟩
      · exact ⟨s', List.mem_cons_of_mem _ h3, h3'⟩

/-- The position with the leading bit, in 32 bits, turns the same way as the index at every step of any path. -/
theorem turns (i n k : Nat) (hi : i < 2 ^ 32) (hk : k < n) : i / 2 ^ k % 2 = (i + 2 ^ n) % 2 ^ 32 / 2 ^ k % 2 := by
  by_cases h : k < 32
  · rw [low_bits h (le_refl _), div_pow_parity hk]
  · have hp : 2 ^ 32 ≤ 2 ^ k := Nat.pow_le_pow_right (by omega) (by omega)
    rw [Nat.div_eq_of_lt (by omega), Nat.div_eq_of_lt (Nat.lt_of_lt_of_le (Nat.mod_lt _ (by decide)) hp)]

/-- C126: whatever the length of the proof, what is accepted under the root of the records is the record at the position
of the proof, or two digests of neighbouring nodes taken for a record, or it is accepted because a record was taken for
two digests; unless the verification shows a collision or a preimage of the padding digest. -/
theorem C126_accepted (H : List Byte → List Byte) (hashLen : Nat) (hH : ∀ s, (H s).length = hashLen)
    (ck : List Byte → U64) (data : List (List Byte)) (t : Tree) (r : List Byte) (hsize : data.length ≤ 2 ^ 31)
    (ht : newUsing H hashLen ck data = ok t) (hr : root t = ok r) (d : List Byte) (proof : Proof)
    (hlens : ∀ h ∈ proof.hashes, h.length = hashLen) (hv : verifyProof H d proof r = ok true)
    (hnc : NoCollision H hashLen data d proof) :
    (proof.hashes.length = depth data ∧ data[proof.index.toNat]? = some d) ∨
    (∃ l p, l + 1 + proof.hashes.length = depth data ∧ p < 2 ^ proof.hashes.length ∧
      d ++ putLE32 proof.index = node H hashLen data l (2 * p) ++ node H hashLen data l (2 * p + 1)) ∨
    (depth data < proof.hashes.length ∧ ∃ p, ∃ hp : p < data.length, ∃ s ∈ verifierInputs H d proof,
      ∃ h ∈ proof.hashes, data[p] ++ putLE32 (BitVec.ofNat 32 p) = H s ++ h ∨
        data[p] ++ putLE32 (BitVec.ofNat 32 p) = h ++ H s) := by
  rcases Nat.lt_trichotomy proof.hashes.length (depth data) with hlt | heq | hgt
  · right; left
    have h0 : data ≠ [] := by
      rintro rfl
      simp [newUsing] at ht
    obtain ⟨t', ht', hT⟩ := newUsing_spec H hashLen ck data h0 (by omega)
    have : t' = t := by have := ht'.symm.trans ht; simpa using this
    subst this
    rw [root_eq hT] at hr
    simp only [Res.ok.injEq] at hr
    subst hr
    unfold verifyProof generateProofHash at hv
    rw [indexToBytes_eq proof.index.isLt] at hv
    simp only [ok_bind, Res.ok.injEq, beq_iff_eq] at hv
    rw [BitVec.ofNat_toNat, BitVec.setWidth_eq] at hv
    have hinj : ∀ a ∈ pathInputs H proof.hashes (H (d ++ putLE32 proof.index))
        ((proof.index.toNat + 2 ^ proof.hashes.length) % 2 ^ 32), ∀ b, TreeInput H hashLen data b → H a = H b →
          a = b := by
      rw [← pathInputs_congr H proof.hashes _ _ _ (fun k hk => turns _ _ k proof.index.isLt hk)]
      intro a ha
      exact hnc.inj a (List.mem_cons_of_mem _ ha)
    obtain ⟨l, hl⟩ : ∃ l, l + 1 + proof.hashes.length = depth data :=
      ⟨depth data - proof.hashes.length - 1, by omega⟩
    have hnode := sound_path H hashLen hH data proof.hashes (l + 1) _ _ (by omega) hlens (hH _) hinj hv.symm
    generalize hp : (proof.index.toNat + 2 ^ proof.hashes.length) % 2 ^ 32 % 2 ^ proof.hashes.length = p at hnode
    have hplt : p < 2 ^ proof.hashes.length := by
      rw [← hp]
      exact Nat.mod_lt _ (Nat.pow_pos (by omega))
    refine ⟨l, p, hl, hplt, ?_⟩
    rw [node] at hnode
    exact hnc.inj _ List.mem_cons_self _
      (TreeInput.inner l p (by omega) (by rw [show depth data - (l + 1) = proof.hashes.length by omega]; exact hplt)) hnode
  · left
    exact ⟨heq, C08_full_length_partial H hashLen hH ck data t r hsize ht hr d proof heq hlens hv hnc⟩
  · right; right
    refine ⟨hgt, ?_⟩
    have h0 : data ≠ [] := by
      rintro rfl
      simp [newUsing] at ht
    obtain ⟨t', ht', hT⟩ := newUsing_spec H hashLen ck data h0 (by omega)
    have : t' = t := by have := ht'.symm.trans ht; simpa using this
    subst this
    rw [root_eq hT] at hr
    simp only [Res.ok.injEq] at hr
    subst hr
    unfold verifyProof generateProofHash at hv
    rw [indexToBytes_eq proof.index.isLt] at hv
    simp only [ok_bind, Res.ok.injEq, beq_iff_eq] at hv
    rw [BitVec.ofNat_toNat, BitVec.setWidth_eq] at hv
    have hcongr := pathInputs_congr H proof.hashes (H (d ++ putLE32 proof.index)) _ _
      (fun k hk => turns proof.index.toNat proof.hashes.length k proof.index.isLt hk)
    generalize (proof.index.toNat + 2 ^ proof.hashes.length) % 2 ^ 32 = pos at hv hcongr
    generalize hn : proof.hashes.length - depth data = n
    have hsplit : proof.hashes = proof.hashes.take n ++ proof.hashes.drop n := (List.take_append_drop _ _).symm
    have hpath : ∀ a ∈ pathInputs H proof.hashes (H (d ++ putLE32 proof.index)) pos, a ∈ verifierInputs H d proof := by
      intro a ha
      unfold verifierInputs
      rw [hcongr]
      exact List.mem_cons_of_mem _ ha
    generalize hu : proof.hashes.take n = u at hsplit
    generalize hw : proof.hashes.drop n = w at hsplit
    have hul : u.length = n := by rw [← hu, List.length_take]; omega
    have hwl : w.length = depth data := by rw [← hw, List.length_drop]; omega
    rw [hsplit, List.foldl_append] at hv
    rw [hsplit, pathInputs_append] at hpath
    have hune : u ≠ [] := by
      rintro rfl
      simp at hul
      omega
    obtain ⟨s, y, h, h1, h2, h3, h4, h5⟩ := path_last H u (H (d ++ putLE32 proof.index)) pos hune
    generalize hst : u.foldl (foldHash H) (H (d ++ putLE32 proof.index), pos) = st at hv hpath h2
    have hpos := foldHash_snd H u (H (d ++ putLE32 proof.index)) pos
    rw [hst] at hpos
    obtain ⟨x, q⟩ := st
    simp only at hpos h2 hpath
    subst hpos
    have hleaf := sound_path H hashLen hH data w 0 x _ (by omega)
      (fun h' hm => hlens h' (by rw [hsplit]; exact List.mem_append_right _ hm)) (by rw [h2]; exact hH s)
      (fun a ha => hnc.inj a (hpath a (List.mem_append_right _ ha))) hv.symm
    generalize pos / 2 ^ u.length % 2 ^ w.length = q at hleaf
    have hs : s ∈ verifierInputs H d proof := hpath s (List.mem_append_left _ h1)
    rw [node, leafAt, h2] at hleaf
    cases hdq : data[q]? with
    | none =>
      rw [hdq] at hleaf
      exact absurd hleaf (hnc.zero _ hs)
    | some e =>
      rw [hdq] at hleaf
      obtain ⟨hqlt, he⟩ := List.getElem?_eq_some_iff.mp hdq
      have heq := hnc.inj _ hs _ (TreeInput.leaf q hqlt) (by rw [he]; exact hleaf)
      have hy : ∃ s' ∈ verifierInputs H d proof, y = H s' := by
        rcases h3 with h3 | ⟨s', h3, h3'⟩
        · exact ⟨_, List.mem_cons_self, h3⟩
        · exact ⟨s', hpath s' (List.mem_append_left _ h3), h3'⟩
      obtain ⟨s', hs', rfl⟩ := hy
      refine ⟨q, hqlt, s', hs', h, by rw [hsplit]; exact List.mem_append_left _ h4, ?_⟩
      rw [← heq]
      exact h5

/-- C126: with the digests of the code, both confusions take strings of 60 bytes. So in a database without records of
this length, whatever is accepted and has another length is the record at the position of the proof, and its proof is as
long as the tree is high. -/
theorem C126_stored (H : List Byte → List Byte) (hH : ∀ s, (H s).length = 32) (ck : List Byte → U64)
    (data : List (List Byte)) (t : Tree) (r : List Byte) (hsize : data.length ≤ 2 ^ 31)
    (h60 : ∀ x ∈ data, x.length ≠ 60) (ht : newUsing H 32 ck data = ok t) (hr : root t = ok r) (d : List Byte)
    (proof : Proof) (hlens : ∀ h ∈ proof.hashes, h.length = 32) (hv : verifyProof H d proof r = ok true)
    (hnc : NoCollision H 32 data d proof) :
    (proof.hashes.length = depth data ∧ data[proof.index.toNat]? = some d) ∨
    (proof.hashes.length < depth data ∧ ∃ l p, l < depth data ∧ p < 2 ^ (depth data - (l + 1)) ∧
      d = (node H 32 data l (2 * p) ++ node H 32 data l (2 * p + 1)).take 60) := by
  rcases C126_accepted H 32 hH ck data t r hsize ht hr d proof hlens hv hnc with h | ⟨l, p, hl, hpl, h⟩ |
    ⟨-, p, hp, s, -, h, hm, he⟩
  · exact Or.inl h
  · refine Or.inr ⟨by omega, l, p, by omega,
      by rw [show depth data - (l + 1) = proof.hashes.length by omega]; exact hpl, ?_⟩
    have h1 := congrArg List.length h
    simp only [List.length_append, node_length hH, putLE32_length] at h1
    rw [← h, List.take_append_of_le_length (by omega), List.take_of_length_le (by omega)]
  · exfalso
    have h1 := hlens h hm
    have h2 : (data[p] ++ putLE32 (BitVec.ofNat 32 p)).length = 64 := by
      rcases he with he | he <;> rw [he] <;> simp [hH, h1]
    rw [List.length_append, putLE32_length] at h2
    exact h60 _ (List.getElem_mem hp) (by omega)

/-- C126: the third case can be brought about by whoever chooses one record: with 32 of its 60 bytes made from any string
`d`, this record vouches for `d`, which is accepted whatever it is. -/
theorem C126_planted (H : List Byte → List Byte) (hH : ∀ s, (H s).length = 32) (ck : List Byte → U64)
    (data : List (List Byte)) (hsize : data.length ≤ 2 ^ 30) (p : Nat) (hp : p < data.length) (d w : List Byte)
    (hw : w.length = 28) (hrec : data[p] = H (d ++ putLE32 (BitVec.ofNat 32 (2 * p))) ++ w) :
    data[p].length = 60 ∧ ∃ t r proof, newUsing H 32 ck data = ok t ∧ root t = ok r ∧
      (∀ h ∈ proof.hashes, h.length = 32) ∧ proof.hashes.length = depth data + 1 ∧ proof.index.toNat = 2 * p ∧
      verifyProof H d proof r = ok true := by
  have h0 : data ≠ [] := by
    rintro rfl
    simp at hp
  refine ⟨by rw [hrec]; simp [hH, hw], ?_⟩
  obtain ⟨t, ht, hT⟩ := newUsing_spec H 32 ck data h0 (by omega)
  have hD : depth data ≤ 30 := by
    unfold depth
    exact Nat.clog_le_of_le_pow hsize
  have hpD : p < 2 ^ depth data := Nat.lt_of_lt_of_le hp (clog_pow _)
  generalize hhs : (List.range (depth data)).map (fun k => node H 32 data k (sibling (p / 2 ^ k))) = hs
  have hhl : hs.length = depth data := by rw [← hhs]; simp
  have hidx : (BitVec.ofNat 32 (2 * p)).toNat = 2 * p := by
    rw [BitVec.toNat_ofNat, Nat.mod_eq_of_lt (by omega)]
  refine ⟨t, _, ⟨(w ++ putLE32 (BitVec.ofNat 32 p)) :: hs, BitVec.ofNat 32 (2 * p)⟩, ht, root_eq hT,
    ?_, by simp [hhl], hidx, ?_⟩
  · intro h hm
    rcases List.mem_cons.mp hm with rfl | hm
    · simp [hw]
    · rw [← hhs] at hm
      obtain ⟨k, -, rfl⟩ := List.mem_map.mp hm
      exact node_length hH _ _ _
  · unfold verifyProof generateProofHash
    dsimp only
    rw [hidx, indexToBytes_eq (by omega), ok_bind, List.length_cons, List.foldl_cons]
    have hpow : 2 ^ (hs.length + 1) ≤ 2 ^ 31 := Nat.pow_le_pow_right (by omega) (by omega)
    have h2 := Nat.pow_succ' (m := hs.length) (n := 2)
    rw [Nat.mod_eq_of_lt (by omega)]
    have hstep : foldHash H (H (d ++ putLE32 (BitVec.ofNat 32 (2 * p))), 2 * p + 2 ^ (hs.length + 1))
        (w ++ putLE32 (BitVec.ofNat 32 p)) = (node H 32 data 0 p, 2 ^ hs.length + p) := by
      unfold foldHash
      dsimp only
      rw [if_pos (by omega), show (2 * p + 2 ^ (hs.length + 1)) / 2 = 2 ^ hs.length + p by omega, node, leafAt,
        List.getElem?_eq_getElem hp]
      dsimp only
      rw [hrec, List.append_assoc]
    rw [hstep, fold_path H 32 data hs 0 p (by
      intro k hk
      rw [← hhs, List.getElem?_map, List.getElem?_range (by omega)]
      simp), hhl, Nat.div_eq_of_lt hpD, Nat.zero_add]
    simp

/-- Two records, the second of 60 bytes, for which the planted proof is accepted. -/
example : ∃ t r proof, newUsing toyHash 32 fnv1a
      [[1], toyHash ([9, 9] ++ putLE32 (BitVec.ofNat 32 (2 * 1))) ++ List.replicate 28 7] = ok t ∧ root t = ok r ∧
    verifyProof toyHash [9, 9] proof r = ok true := by
  obtain ⟨-, t, r, proof, h1, h2, -, -, -, h3⟩ := C126_planted toyHash toyHash_length fnv1a
    [[1], toyHash ([9, 9] ++ putLE32 (BitVec.ofNat 32 (2 * 1))) ++ List.replicate 28 7] (by simp) 1 (by simp) [9, 9]
    (List.replicate 28 7) (by simp) rfl
  exact ⟨t, r, proof, h1, h2, h3⟩

/-- The hypotheses of `C126_accepted` and `C126_stored` hold of the honest proof of the second of two records. -/
example : ∃ t r proof, newUsing toyHash 32 fnv1a [[1], [2]] = ok t ∧ root t = ok r ∧
    (∀ h ∈ proof.hashes, h.length = 32) ∧ (∀ x ∈ ([[1], [2]] : List (List Byte)), x.length ≠ 60) ∧
    verifyProof toyHash [2] proof r = ok true ∧ NoCollision toyHash 32 [[1], [2]] [2] proof := by
  obtain ⟨t, ht, hT⟩ := newUsing_spec toyHash 32 fnv1a [[1], [2]] (by simp) (by simp)
  refine ⟨t, _, ⟨[toyHash ([1] ++ putLE32 0)], 1⟩, ht, root_eq hT, by simp [toyHash_length], by simp, by decide, ?_⟩
  have hdep : depth ([[1], [2]] : List (List Byte)) = 1 := by decide
  refine ⟨?_, by decide⟩
  intro a ha b hb
  simp only [verifierInputs, pathInputs, List.mem_cons, List.not_mem_nil, or_false] at ha
  cases hb with
  | leaf p hp =>
    have : p = 0 ∨ p = 1 := by simp at hp; omega
    rcases ha with rfl | rfl <;> rcases this with rfl | rfl <;> decide +revert
  | inner l p hl hp =>
    rw [hdep] at hl hp
    have : l = 0 := by omega
    subst this
    have : p = 0 := by simpa using hp
    subst this
    rcases ha with rfl | rfl <;> decide +revert

end Verif.Merkle

namespace Verif.MerklePir
open Res Verif.Merkle Verif.Merkle.Spec Verif.Point Verif.Database

/-- Every hash of a decoded proof has 32 bytes, however many there are. -/
theorem decodeProof_all {p tail : List Byte} {proof : Proof} (h : decodeProof p tail = ok proof) :
    ∀ x ∈ proof.hashes, x.length = 32 := by
  unfold decodeProof at h
  simp only [bind_eq_ok] at h
  obtain ⟨b, -, c, -, hs, hl, h⟩ := h
  split at h
  · simp at h
  · simp only [bind_eq_ok, Res.ok.injEq] at h
    obtain ⟨ix, -, rfl⟩ := h
    have hc : c.toNat ≤ 2 ^ 27 - 1 := by
      by_contra hgt
      obtain ⟨u, u', hb⟩ := Local.forLoop_at hl (2 ^ 27 - 1) (by omega)
      simp only [bind_eq_ok] at hb
      obtain ⟨y, hy, -⟩ := hb
      have := (slice_eq_ok.mp hy).1
      norm_num at this
    exact forLoop_inv_ok (fun _ (hs : List (List Byte)) => ∀ x ∈ hs, x.length = 32) (by simp) (by
      intro i t t' hi ht hb
      simp only [bind_eq_ok, Res.ok.injEq] at hb
      obtain ⟨y, hy, rfl⟩ := hb
      rw [Nat.mod_eq_of_lt (by omega), Nat.mod_eq_of_lt (by omega)] at hy
      have := slice_length hy
      intro x hx
      rcases List.mem_append.mp hx with hx | hx
      · exact ht x hx
      · rw [List.mem_singleton.mp hx]; omega) hl

/-- C126 for the client: whatever the servers answer, a value accepted under the root of records none of which has 60
bytes is one of these records or the first 60 bytes of two neighbouring digests. -/
theorem C126_client (H : List Byte → List Byte) (hH : ∀ s, (H s).length = 32) (ck : List Byte → U64)
    (records : List (List Byte)) (t : Tree) (hsize : records.length ≤ 2 ^ 31) (h60 : ∀ x ∈ records, x.length ≠ 60)
    (ht : newUsing H 32 ck records = ok t) (info : Info) (htype : info.pirType = "merkle") (hr : root t = ok info.root)
    (st : State) (answers : List (List Byte)) (d : List Byte) (hacc : reconstructPIR H answers info st = ok d) :
    ∃ proof, MerklePir.Spec.Presented answers info st d proof ∧ verifyProof H d proof info.root = ok true ∧
      (NoCollision H 32 records d proof →
      records[proof.index.toNat]? = some d ∨
      ∃ l p, l < depth records ∧ p < 2 ^ (depth records - (l + 1)) ∧
        d = (node H 32 records l (2 * p) ++ node H 32 records l (2 * p + 1)).take 60) := by
  unfold reconstructPIR at hacc
  rw [htype] at hacc
  simp only [show ¬ ("merkle" = "classical" ∨ "merkle" = "") by decide, if_false, if_true] at hacc
  rw [bind_eq_ok] at hacc
  obtain ⟨value, hval, hacc⟩ := hacc
  obtain ⟨proof, hsp, hv⟩ := checkBlock_splits hacc
  refine ⟨proof, ⟨value, hval, hsp⟩, hv, fun hnc => ?_⟩
  obtain ⟨encoded, tail, -, -, -, hdec⟩ := hsp
  rcases C126_stored H hH ck records t info.root hsize h60 ht hr _ proof (decodeProof_all hdec) hv hnc with h | ⟨-, h⟩
  · exact Or.inl h.2
  · exact Or.inr h

end Verif.MerklePir

namespace Verif.Client
open Res Verif.Cmd Verif.Pgp Verif.Pgp.Spec Verif.Query Verif.Client.Spec Verif.Point Verif.Point.Spec Verif.MerklePir
  Verif.Merkle Verif.Merkle.Spec Verif.Padding Verif.Layout

/-- No two neighbouring digests of the tree over `blocks` read as a key of `id`. -/
def DigestsNoKey (L : Lib) (blocks : List (List Byte)) (id : Str) : Prop :=
  ∀ l p b e, l < depth blocks → p < 2 ^ (depth blocks - (l + 1)) →
    unPadBlock ((node L.H 32 blocks l (2 * p) ++ node L.H 32 blocks l (2 * p + 1)).take 60) = ok b →
    recoverKeyFromBlock L.lower L.readRing b id ≠ ok e

theorem lookup_authentic_any (L : Lib) (hH : ∀ s, (L.H s).length = 32) {ck : List Byte → Merkle.U64} {n : Nat}
    {keys loaded : List Key} (hp : keys.Perm loaded) {parse : Key → Entity} (hparse : Parses L.readRing parse loaded)
    (hnamed : NamedBy L.lower parse loaded) {N : Nat} (hsize : N ≤ 2 ^ 31) {t : Tree}
    (ht : newUsing L.H 32 ck (storedBlocks L.hash N keys) = ok t) {info : Database.Info}
    (htype : info.pirType = "merkle") (hroot : root t = ok info.root) {run : List (List Byte) → Res (List (List Byte))}
    (h60 : ∀ x ∈ storedBlocks L.hash N keys, x.length ≠ 60) {id : Str}
    (hno : DigestsNoKey L (storedBlocks L.hash N keys) id) {a : List Byte} (h : lookup L n run info id = ok a) :
    ∃ queries st answers d proof, lookupQueries L n info id = ok (queries, st) ∧ run queries = ok answers ∧
      MerklePir.Spec.Presented answers info st d proof ∧ verifyProof L.H d proof info.root = ok true ∧
      (NoCollision L.H 32 (storedBlocks L.hash N keys) d proof → ∃ k ∈ loaded, k.id = id ∧ L.armor (parse k) = ok a) := by
  unfold lookup at h
  simp only [bind_eq_ok] at h
  obtain ⟨⟨qs, st⟩, hq, answers, hrun, d, hrec, b, hb, e, he, ha⟩ := h
  have hl : (storedBlocks L.hash N keys).length = N := by simp [storedBlocks]
  obtain ⟨proof, hpr, hv, hmem⟩ := C126_client L.H hH ck _ t (by rw [hl]; exact hsize) h60 ht info htype hroot st answers d hrec
  refine ⟨qs, st, answers, d, proof, hq, hrun, hpr, hv, fun hnc => ?_⟩
  rcases hmem hnc with hm | ⟨l, p, hl', hp', hd⟩
  · have hj : proof.index.toNat < N := by
      have := (List.getElem?_eq_some_iff.mp hm).1
      omega
    have hd : d = storedBlock L.hash N keys proof.index.toNat := by
      have := (List.getElem?_eq_some_iff.mp hm).2
      rw [← this]
      simp [storedBlocks]
    exact stored_shown L hp hparse hnamed hd hb he ha
  · rw [hd] at hb
    exact absurd he (hno l p b e hl' hp' hb)

/-- C127: whatever the servers answer, once the first database info to arrive has the right type and root, a key that
any of the programs shows is the loaded key of the e-mail, unless the verification shows a collision. It is only required
that no stored block has exactly 60 bytes and that no two neighbouring digests of the tree read as a key of the e-mail. -/
theorem C127_shown (L : Lib) (hH : ∀ s, (L.H s).length = 32) (ck : List Byte → Merkle.U64)
    (W : Predicate.World) (gob : Predicate.Msg → List Byte) (mk : Int → Time) (hh : HashLong L.hash)
    (sort : List Key → List Key) (hs : SortsById sort) (order : Orders) (ho : OrdersFair order) (loaded : List Key)
    (rebalanced : Bool) (h10 : 10 ≤ loaded.length) (h32 : loaded.length ≤ 2 ^ 32) (R C : Nat)
    (hd : calculateNumRowsAndColumns (preSquareNumBlocks loaded.length) rebalanced = (R, C)) (hsize : R * C ≤ 2 ^ 31)
    (parse : Key → Entity) (hparse : Parses L.readRing parse loaded) (hnamed : NamedBy L.lower parse loaded)
    (h60 : ∀ x ∈ storedBlocks L.hash (R * C) (sort loaded), x.length ≠ 60)
    (db : Database.Bytes) (hdb : generateRealKeyMerkle L.H ck L.hash sort order loaded rebalanced = ok db)
    (net : Net) (S : Schedule) (servers : List String) (id : String)
    (hno : DigestsNoKey L (storedBlocks L.hash (R * C) (sort loaded)) (bytes id)) (a : List Byte)
    (hshown :
      (∃ conns f typed, connect net.dial servers = ok conns ∧ FirstInfoHonest net S conns db.info.root ∧
        (f.scheme = "pointPIR" ∨ f.scheme = "pointVPIR") ∧ id = (if f.id = "" then typed else f.id) ∧
        main L W gob mk net S servers f typed = ok (.key a)) ∨
      (FirstInfoHonest net S servers db.info.root ∧ downloadKey L net S servers id = ok (.result a)) ∨
      (FirstInfoHonest net S servers db.info.root ∧ ∃ req : Request, req.value "email" = id ∧
        a ≠ bytes "key not found in block" ∧ handleRetrieve L net S servers req = ok (.body a))) :
    ∃ peers i d proof, Received L net S peers i (bytes id) d proof ∧ verifyProof L.H d proof db.info.root = ok true ∧
      (NoCollision L.H 32 (storedBlocks L.hash (R * C) (sort loaded)) d proof →
        ∃ k ∈ loaded, k.id = bytes id ∧ L.armor (parse k) = ok a) := by
  obtain ⟨t, ht, hr⟩ := merkle_root hh hs ho h10 h32 hd hdb
  obtain ⟨n, peers, i, h1, h2, hl⟩ := shown_lookup hshown
  have hro' : (pointInfo i).root = db.info.root := h2
  obtain ⟨qs, st, answers, d, proof, hq, hrun, hpr, hv, hk⟩ := lookup_authentic_any L hH (hs loaded).1 hparse hnamed hsize
    ht (info := pointInfo i) h1 (by rw [hro']; exact hr) h60 hno hl
  rw [hro'] at hv
  exact ⟨peers, i, d, proof, ⟨n, qs, st, answers, hq, hrun, hpr⟩, hv, hk⟩

/-- C127: both requirements hold if no key ring of fewer than 60 bytes has a key in it, as in OpenPGP, where the
self-signature alone is longer. -/
theorem C127_rings (L : Lib) (hring : ∀ b es, b.length < 60 → L.readRing b = ok es → es = []) (keys loaded : List Key)
    (hp : keys.Perm loaded) (parse : Key → Entity) (hparse : Parses L.readRing parse loaded) (N : Nat) (id : Str) :
    (∀ x ∈ storedBlocks L.hash N keys, x.length ≠ 60) ∧ DigestsNoKey L (storedBlocks L.hash N keys) id := by
  constructor
  · intro x hx h60
    unfold storedBlocks at hx
    obtain ⟨j, -, rfl⟩ := List.mem_map.mp hx
    unfold storedBlock at h60
    by_cases hne : bucket L.hash N keys j = []
    · rw [if_pos hne] at h60
      simp at h60
    · rw [if_neg hne] at h60
      have hbm : ∀ k ∈ bucket L.hash N keys j, k ∈ loaded := fun k hk => hp.mem_iff.mp (List.mem_filter.mp hk).1
      have := hring _ _ (by simp at h60; omega) (hparse _ hne hbm)
      exact hne (List.map_eq_nil_iff.mp this)
  · intro l p b e _ _ hb he
    have hlen : b.length < 60 := by
      unfold unPadBlock at hb
      dsimp only at hb
      split at hb
      · cases hb
      · rename_i hz
        simp only [ok.injEq] at hb
        rw [← hb, List.length_take]
        have : ∀ s : List Byte, (trimZeros s).length ≤ s.length := by
          intro s
          unfold trimZeros
          rw [List.length_reverse]
          exact (List.dropWhile_sublist _).length_le.trans (by simp)
        have h1 := this ((node L.H 32 (storedBlocks L.hash N keys) l (2 * p) ++
          node L.H 32 (storedBlocks L.hash N keys) l (2 * p + 1)).take 60)
        rw [List.length_take] at h1
        omega
    unfold recoverKeyFromBlock at he
    rw [bind_eq_ok] at he
    obtain ⟨es, hes, he⟩ := he
    rw [hring b es hlen hes] at he
    simp at he

/-- The two requirements of `C127_shown` hold of the twenty keys, whose other hypotheses are met in the example of
`C62_authentic_partial`. -/
example : (∀ x ∈ storedBlocks treeLib.hash (1 * 2) (sortDesc twenty), x.length ≠ 60) ∧
    DigestsNoKey treeLib (storedBlocks treeLib.hash (1 * 2) (sortDesc twenty)) (bytes "\x03\x01") := by
  refine ⟨by decide, ?_⟩
  intro l p b e hl hp hb he
  have hd : depth (storedBlocks treeLib.hash (1 * 2) (sortDesc twenty)) = 1 := by decide
  rw [hd] at hl hp
  obtain rfl : l = 0 := by omega
  obtain rfl : p = 0 := by simpa using hp
  have h1 : unPadBlock ((node treeLib.H 32 (storedBlocks treeLib.hash (1 * 2) (sortDesc twenty)) 0 (2 * 0) ++
      node treeLib.H 32 (storedBlocks treeLib.hash (1 * 2) (sortDesc twenty)) 0 (2 * 0 + 1)).take 60) =
      ok (List.replicate 32 1 ++ List.replicate 27 2) := by decide +kernel
  rw [h1, ok.injEq] at hb
  subst hb
  have h2 : recoverKeyFromBlock treeLib.lower treeLib.readRing (List.replicate 32 1 ++ List.replicate 27 2)
      (bytes "\x03\x01") = err "no key with the given email id is found" := by decide +kernel
  rw [h2] at he
  cases he

/-- The parser of key rings whose only key has 60 bytes. -/
def ringOfSixty (b : List Byte) : Res (List Entity) := ok (List.replicate (b.length / 60) (entityOf [1]))

/-- The hypotheses of `C127_rings` hold of that parser and its key. -/
example : (∀ b es, b.length < 60 → ringOfSixty b = ok es → es = []) ∧
    Parses ringOfSixty (fun _ => entityOf [1]) [⟨[1], List.replicate 60 5⟩] := by
  constructor
  · intro b es hb h
    unfold ringOfSixty at h
    rw [Nat.div_eq_of_lt hb] at h
    simpa using h.symm
  · intro ks hne hks
    clear hne
    have hlen : (packets ks).length = 60 * ks.length := by
      unfold packets
      induction ks with
      | nil => rfl
      | cons k ks ih =>
        have hk := hks k (by simp)
        rw [List.mem_singleton] at hk
        rw [List.flatMap_cons, List.length_append, ih (fun x hx => hks x (by simp [hx])), hk]
        simp
        omega
    unfold ringOfSixty
    rw [hlen, Nat.mul_div_cancel_left _ (by omega), List.map_const']

end Verif.Client
