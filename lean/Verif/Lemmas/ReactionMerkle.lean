import Verif.Spec.ReactionMerkle
import Verif.Props.MerkleBlind
import Verif.Props.PointPrivacy
import Verif.Lemmas.Reaction

/-! # Lemmas on lying servers of Merkle-authenticated lookups -/

namespace Verif.MerklePir
open Res Verif.Database Verif.Merkle Verif.Merkle.Spec Verif.Padding Verif.Point Verif.Point.Spec Verif.Reaction
open Verif.MerklePir.Spec

theorem xor_length {a b : List Byte} (h : a.length = b.length) : (Spec.xor a b).length = a.length := by
  simp [Spec.xor, h]

theorem xor_getD {a b : List Byte} (h : a.length = b.length) (t : Nat) :
    (Spec.xor a b).getD t 0 = a.getD t 0 ^^^ b.getD t 0 := by
  unfold Spec.xor
  rw [← xor_zipWith h, getD_xor (by omega)]

/-- A difference added twice is none. -/
theorem xor_back {f h : List Byte} (hl : f.length = h.length) : Spec.xor h (Spec.xor f h) = f := by
  apply ext_getD (by rw [xor_length (by rw [xor_length hl]; omega)]; omega)
  intro t _
  rw [xor_getD (by rw [xor_length hl]; omega), xor_getD hl, BitVec.xor_comm (f.getD t 0), ← BitVec.xor_assoc,
    BitVec.xor_self, BitVec.zero_xor]

theorem pir_merkle {H : List Byte → List Byte} {info : Info} (ht : info.pirType = "merkle") (as : List (List Byte))
    (st : Point.State) : reconstructPIR H as info st = (reconstructValue as info st >>= checkBlock H info) := by
  unfold reconstructPIR
  rw [ht]
  simp only [show ¬ ("merkle" = "classical" ∨ "merkle" = "") by decide, if_false, if_true]

/-- Two records checked with the same proof and the same result are equal, if no two of the strings hashed clash. -/
theorem path_inj (H : List Byte → List Byte) : ∀ (hs : List (List Byte)) (x y : List Byte) (pos : Nat),
    x.length = y.length →
    (∀ s, (H s).length = x.length) →
    (∀ a ∈ pathInputs H hs x pos, ∀ b ∈ pathInputs H hs y pos, H a = H b → a = b) →
    (hs.foldl (foldHash H) (x, pos)).1 = (hs.foldl (foldHash H) (y, pos)).1 → x = y := by
  intro hs
  induction hs with
  | nil => intro x y pos _ _ _ h; exact h
  | cons h hs ih =>
    intro x y pos hl hH hinj hfin
    rw [List.foldl_cons, List.foldl_cons] at hfin
    simp only [pathInputs, List.mem_cons, forall_eq_or_imp] at hinj
    have hf : ∀ z : List Byte, foldHash H (z, pos) h = (H (if pos % 2 = 0 then z ++ h else h ++ z), pos / 2) := by
      intro z; unfold foldHash; simp only; split <;> rfl
    rw [hf, hf] at hfin
    have hd := ih _ _ (pos / 2) (by rw [hH, hH]) (by intro s; rw [hH, hH]) (fun a ha b hb => (hinj.2 a ha).2 b hb) hfin
    have := hinj.1.1 hd
    split at this
    · exact List.append_cancel_right this
    · exact List.append_cancel_left this

theorem verify_unique {H : List Byte → List Byte} (hH : ∀ s, (H s).length = 32) {d d' root : List Byte} {proof : Proof}
    (hc : NoClash H d d' proof) (h : verifyProof H d proof root = ok true) (h' : verifyProof H d' proof root = ok true) :
    d = d' := by
  unfold verifyProof generateProofHash at h h'
  rw [indexToBytes_eq proof.index.isLt, BitVec.ofNat_toNat, BitVec.setWidth_eq] at h h'
  simp only [ok_bind, Res.ok.injEq, beq_iff_eq] at h h'
  unfold NoClash hashed at hc
  simp only [List.mem_cons, forall_eq_or_imp] at hc
  have := path_inj H proof.hashes _ _ _ (by rw [hH, hH]) (by intro s; rw [hH, hH]) (fun a ha b hb => (hc.2 a ha).2 b hb)
    (h.symm.trans h')
  exact List.append_cancel_right (hc.1.1 this)

/-- Verification answers. -/
theorem verify_total (H : List Byte → List Byte) (d root : List Byte) (proof : Proof) :
    ∃ b, verifyProof H d proof root = ok b := by
  unfold verifyProof generateProofHash
  rw [indexToBytes_eq proof.index.isLt]
  exact ⟨_, rfl⟩

/-- A sealed record whose first byte was changed is rejected. -/
theorem checkBlock_flipped {H : List Byte → List Byte} (hH : ∀ s, (H s).length = 32) {info : Info} {d s : List Byte}
    (h : Sealed H info.root info.proofLen d s) (hd : d ≠ []) (n : Nat)
    (hc : ∀ proof, storedProof d.length info.proofLen s = ok proof → NoClash H d (flipFirst d) proof)
    {value : List Byte} (hv : value = (flipFirst d ++ (s.drop d.length)) ++ List.replicate n 0) :
    checkBlock H info value = err "REJECT!" := by
  obtain ⟨proof, enc, rfl, h2, h3, h4⟩ := h.holds
  have hfl : (flipFirst d).length = d.length := by cases d <;> rfl
  have hne : d ≠ flipFirst d := by
    cases d with
    | nil => exact absurd rfl hd
    | cons b d =>
      intro he
      have hb : b = b ^^^ 1 := by simpa [flipFirst] using he
      exact (by decide : ∀ b : Byte, b ≠ b ^^^ 1) b hb
  have hcl := hc proof (by
    unfold storedProof
    rw [List.drop_left, ← h2, List.take_left]
    exact h3 _)
  rw [List.drop_left] at hv
  subst hv
  unfold checkBlock
  rw [show flipFirst d ++ (enc ++ [0x80]) ++ List.replicate n 0 = (flipFirst d ++ enc) ++ [0x80] ++ List.replicate n 0 by
    simp, unPad_signal]
  simp only [ok_bind]
  have hl : (flipFirst d ++ enc).length - info.proofLen = (flipFirst d).length := by simp; omega
  rw [if_neg (by simp; omega), hl, List.take_left, List.drop_left, h3]
  simp only [ok_bind]
  obtain ⟨b, hb⟩ := verify_total H (flipFirst d) info.root proof
  rw [hb]
  simp only [ok_bind]
  cases b with
  | false => rfl
  | true => exact absurd (verify_unique hH hcl h4 hb) hne

/-- What the client checks when one server changes its answer by `δ`. -/
theorem exact_reaction (H : List Byte → List Byte) (dpf : Dpf) (read : Nat → Res (List Byte)) (hread : Delivers read)
    (mode n : Nat) (hfit : ServersFit dpf mode n) (db : Bytes) (ht : db.info.pirType = "merkle") (stored : List (List Byte))
    (hst : Stores db stored) (hcols : db.info.numColumns < 2 ^ 63) (i : Nat) (hi : i < stored.length) :
    ∃ qs st answers, query dpf read db.info i n = ok (qs, st) ∧ qs.mapM (answer dpf mode db) = ok answers ∧
      answers.length = n ∧ (∀ a ∈ answers, a.length = db.info.numRows * db.info.blockSize) ∧
      ∀ k (hk : k < answers.length) δ, δ.length = db.info.numRows * db.info.blockSize →
        reconstructPIR H (answers.set k (Spec.xor answers[k] δ)) db.info st =
          checkBlock H db.info (Spec.xor (zeroExtend db.info.blockSize stored[i])
            (rowOf δ db.info.blockSize (i / db.info.numColumns))) := by
  obtain ⟨qs, st, answers, h1, h2, h3, h4, ⟨iy, rfl⟩, h6, h7⟩ := honest_exchange dpf read hread mode n hfit db stored hst
    hcols i hi
  refine ⟨qs, _, answers, h1, h2, h3, h4, fun k hk δ hδ => ?_⟩
  have hak : answers[k].length = δ.length := by rw [hδ]; exact h4 _ (List.getElem_mem _)
  have hfits := hst.fits stored[i] (List.getElem_mem _)
  have hrl : (rowOf δ db.info.blockSize (i / db.info.numColumns)).length = db.info.blockSize := rowOf_length hδ h6
  have := tampered_answer h6 h4 h7 hk hδ
  rw [xor_zipWith hak, xor_zipWith (by rw [hrl]; unfold zeroExtend; simp; omega)] at this
  unfold Spec.xor
  rw [pir_merkle ht, this, ok_bind]

/-- What a server sees of a retrieval. -/
theorem view_eq (H : List Byte → List Byte) (db : Bytes) (ht : db.info.pirType = "merkle") (stored : List (List Byte))
    (hst : Stores db stored) (hcols : db.info.numColumns < 2 ^ 63) {n k : Nat} (hn : 3 ≤ n) (hk : k < n)
    (F : List Byte → Res (List Byte)) (hF : FullLength db F) {i : Nat} (hi : i < stored.length) (dpf : Dpf) {r : List Byte}
    (hr : r.length = (n - 1) * (db.info.numColumns / 8 + 1)) :
    ∃ q, (shares db.info.numColumns (i % db.info.numColumns) (n - 1) r)[k]? = some q ∧
      q.length = db.info.numColumns / 8 + 1 ∧ view H db n k F i dpf r = ok (q, learned H db stored F i q) := by
  have hi' := hi
  rw [hst.count] at hi'
  obtain ⟨hC, hx, hy, hxy⟩ := index_split hi'
  have hq := query_fixed dpf (info := db.info) (i := i) hC (by omega) (by omega) hr
  have hdel : Delivers (fun m => if m = r.length then ok r else ok (List.replicate m 0)) := by
    intro m
    by_cases hm : m = r.length
    · exact ⟨r, by simp [hm], hm.symm⟩
    · exact ⟨List.replicate m 0, by simp [hm], by simp⟩
  obtain ⟨qs, st, answers, h1, h2, h3, h4, h5⟩ := exact_reaction H dpf _ hdel 0 n (Or.inl ⟨rfl, by omega, by omega⟩) db ht
    stored hst hcols i hi
  obtain ⟨rand, hrand, -, hqs⟩ := query_shares dpf hdel (i := i) hC (by omega : 0 < n) (by omega)
  rw [if_pos hr.symm, ok.injEq] at hrand
  subst hrand
  rw [hqs, ok.injEq, Prod.mk.injEq] at h1
  obtain ⟨rfl, rfl⟩ := h1
  have hsl := shares_length db.info.numColumns (i % db.info.numColumns) (n - 1) r
  have hml := shares_mem_length (C := db.info.numColumns) (y := i % db.info.numColumns) hr
  generalize hS : shares db.info.numColumns (i % db.info.numColumns) (n - 1) r = S at *
  have hkS : k < S.length := by omega
  refine ⟨S[k], List.getElem?_eq_getElem hkS, hml _ (List.getElem_mem _), ?_⟩
  obtain ⟨as, g1, g2, g3⟩ := mapM_ok (f := answer dpf 0 db) (l := S) (by
    intro v hv
    obtain ⟨a, ha, -⟩ := answerVec_spec hst v (by rw [hml v hv]; omega)
    exact ⟨a, ha⟩)
  rw [g1, ok.injEq] at h2
  subst h2
  have hka : k < as.length := by omega
  obtain ⟨b, hb1, hb2⟩ := g3 k hkS
  rw [List.getElem?_eq_getElem hka, Option.some.injEq] at hb1
  have hans : answerVec db S[k] = ok as[k] := by rw [hb1]; exact hb2
  unfold view
  rw [hq, ok_bind]
  simp only [g1, ok_bind, idx_of_lt hkS]
  unfold learned
  congr 2
  cases hf : F S[k] with
  | err m => rfl
  | crash m => rfl
  | ok f =>
    simp only [ok_bind, hans]
    have hfl : f.length = as[k].length := by rw [hF _ _ hf, h4 _ (List.getElem_mem _)]
    have := h5 k hka (Spec.xor f as[k]) (by rw [xor_length hfl, hF _ _ hf])
    rw [xor_back hfl] at this
    rw [this]
    congr 3
    rw [List.getD_eq_getElem?_getD, List.getElem?_eq_getElem hi]
    rfl

end Verif.MerklePir
