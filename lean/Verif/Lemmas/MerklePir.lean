import Verif.Model.MerklePir
import Verif.Props.Merkle
import Verif.Props.Point

set_option linter.unusedSimpArgs false

/-! # Lemmas about padding and Merkle databases -/

namespace Verif.Padding
open Res

theorem trimZeros_append_zeros (b : List Byte) (n : Nat) : trimZeros (b ++ List.replicate n 0) = trimZeros b := by
  unfold trimZeros
  rw [List.reverse_append, List.reverse_replicate]
  congr 1
  induction n with
  | zero => simp
  | succ n ih => rw [List.replicate_succ, List.cons_append, List.dropWhile_cons_of_pos (by simp), ih]

theorem trimZeros_signal (b : List Byte) {x : Byte} (hx : x ≠ 0) : trimZeros (b ++ [x]) = b ++ [x] := by
  unfold trimZeros
  rw [List.reverse_append, List.reverse_singleton, List.singleton_append, List.dropWhile_cons_of_neg (by simpa using hx)]
  simp

/-- A byte string is its trimmed version followed by zeros. -/
theorem trimZeros_split (b : List Byte) : ∃ n, b = trimZeros b ++ List.replicate n 0 := by
  induction b using List.reverseRecOn with
  | nil => exact ⟨0, rfl⟩
  | append_singleton c x ih =>
    by_cases hx : x = 0
    · subst hx
      obtain ⟨n, hn⟩ := ih
      refine ⟨n + 1, ?_⟩
      have := trimZeros_append_zeros c 1
      rw [List.replicate_one] at this
      rw [this, List.replicate_succ', ← List.append_assoc, ← hn]
    · exact ⟨0, by rw [trimZeros_signal c hx]; simp⟩

theorem unPad_signal (b : List Byte) (n : Nat) : unPadBlock (b ++ [0x80] ++ List.replicate n 0) = ok b := by
  unfold unPadBlock
  rw [trimZeros_append_zeros, trimZeros_signal b (by decide)]
  simp

end Verif.Padding

namespace Verif.MerklePir
open Res Verif.Database Verif.Merkle Verif.Merkle.Spec Verif.Padding Verif.Point Verif.Point.Spec

/-- A record with a proof that verifies, in the shape the database stores it. -/
structure Sealed (H : List Byte → List Byte) (r : List Byte) (proofLen : Nat) (d stored : List Byte) : Prop where
  holds : ∃ proof enc, stored = d ++ (enc ++ [0x80]) ∧ enc.length = proofLen ∧
    (∀ tail, decodeProof enc tail = ok proof) ∧ verifyProof H d proof r = ok true

theorem Sealed.length {H r pl d s} (h : Sealed H r pl d s) : s.length = d.length + pl + 1 := by
  obtain ⟨_, _, rfl, h2, -⟩ := h.holds
  simp; omega

/-- The client accepts a sealed record and returns the record. -/
theorem checkBlock_sealed {H : List Byte → List Byte} {info : Info} {d s : List Byte}
    (h : Sealed H info.root info.proofLen d s) (n : Nat) : checkBlock H info (zeroExtend n s) = ok d := by
  obtain ⟨proof, enc, rfl, h2, h3, h4⟩ := h.holds
  unfold checkBlock zeroExtend
  rw [show d ++ (enc ++ [0x80]) = (d ++ enc) ++ [0x80] by simp, unPad_signal]
  simp only [ok_bind]
  have hl : (d ++ enc).length - info.proofLen = d.length := by simp; omega
  rw [if_neg (by simp; omega), hl, List.take_left, List.drop_left, h3]
  simp only [ok_bind]
  rw [h4]
  simp

theorem sealed_of_mem {H : List Byte → List Byte} (hH : ∀ s, (H s).length = 32) {ck : List Byte → U64}
    {data : List (List Byte)} {t : Tree} (ht : newUsing H 32 ck data = ok t) (hsize : data.length ≤ 2 ^ 31)
    (hck : ChecksumsFaithful ck data) (hdist : Nat.clog 2 data.dedup.length = Nat.clog 2 data.length)
    {r : List Byte} (hr : root t = ok r) {d : List Byte} (hd : d ∈ data) :
    ∃ s, sealRecord ck t d = ok s ∧ Sealed H r (encodedProofLength 32 t) d s := by
  have h0 : data ≠ [] := by rintro rfl; simp at hd
  obtain ⟨t', r', ht', hr', hall⟩ := C07_proofs_verify_partial H 32 ck data h0 hsize hck hdist
  have : t' = t := by have := ht'.symm.trans ht; simpa using this
  subst this
  have : r' = r := by have := hr'.symm.trans hr; simpa using this
  subst this
  obtain ⟨proof, hp, hv, -⟩ := hall d hd
  obtain ⟨enc, h1, h2, h3⟩ := C09_announced_length H hH ck data t' hsize ht d proof hp hd []
  refine ⟨d ++ padWithSignalByte enc, by simp [sealRecord, hp, h1], ⟨proof, enc, rfl, h2, ?_, hv⟩⟩
  intro tail
  obtain ⟨enc', h1', -, h3'⟩ := C09_announced_length H hH ck data t' hsize ht d proof hp hd tail
  have : enc' = enc := by have := h1'.symm.trans h1; simpa using this
  subst this
  exact h3'

theorem generateMerkleProofs_spec {ck : List Byte → U64} {t : Tree} (S : List Byte → List Byte → Prop)
    (data : List (List Byte)) (hall : ∀ d ∈ data, ∃ s, sealRecord ck t d = ok s ∧ S d s) :
    ∃ stored, generateMerkleProofs ck t data = ok stored.flatten ∧ List.Forall₂ S data stored := by
  unfold generateMerkleProofs
  have key : ∀ (l : List (List Byte)) (acc : List Byte), (∀ d ∈ l, d ∈ data) →
      ∃ stored, l.foldlM (fun result d => do
        let s ← sealRecord ck t d
        ok (result ++ s)) acc = ok (acc ++ stored.flatten) ∧ List.Forall₂ S l stored := by
    intro l
    induction l with
    | nil => intro acc _; exact ⟨[], by simp, List.Forall₂.nil⟩
    | cons d l ih =>
      intro acc hl
      obtain ⟨s, h1, h2⟩ := hall d (hl d (by simp))
      obtain ⟨stored, h3, h4⟩ := ih (acc ++ s) (fun x hx => hl x (by simp [hx]))
      refine ⟨s :: stored, ?_, List.Forall₂.cons h2 h4⟩
      rw [List.foldlM_cons, h1]
      simp only [ok_bind]
      rw [h3]
      simp [List.append_assoc]
  obtain ⟨stored, h1, h2⟩ := key data [] (fun _ h => h)
  exact ⟨stored, by simpa using h1, h2⟩

theorem forall₂_get {α β : Type _} {S : α → β → Prop} {l : List α} {m : List β} (h : List.Forall₂ S l m) :
    l.length = m.length ∧ ∀ i (h1 : i < l.length) (h2 : i < m.length), S l[i] m[i] := by
  induction h with
  | nil => exact ⟨rfl, fun i h1 => by simp at h1⟩
  | cons hab _ ih =>
    refine ⟨by simp [ih.1], ?_⟩
    intro i h1 h2
    cases i with
    | zero => exact hab
    | succ i => exact ih.2 i (by simpa using h1) (by simpa using h2)

theorem cutBlocks_eq (data : List Byte) (n bl : Nat) (h : n * bl ≤ data.length) :
    cutBlocks data n bl = ok ((List.range n).map (fun i => (data.drop (i * bl)).take bl)) := by
  unfold cutBlocks
  have := forLoop_eq (n := n) (body := fun i (bs : List (List Byte)) => do
    let s ← slice data (i * bl) ((i + 1) * bl)
    let b ← copyAt (List.replicate bl 0) 0 s
    ok (bs ++ [b])) (fun k => (List.range k).map (fun i => (data.drop (i * bl)).take bl)) (by
      intro i hi
      have hle : (i + 1) * bl ≤ n * bl := Nat.mul_le_mul_right _ hi
      have h1 : (i + 1) * bl = i * bl + bl := by ring
      rw [slice_of_le (by omega) (by omega)]
      simp only [ok_bind]
      rw [h1, Nat.add_sub_cancel_left]
      have hlen : ((data.drop (i * bl)).take bl).length = bl := by
        rw [List.length_take, List.length_drop]; omega
      rw [copyAt_of_le (by rw [hlen]; simp), hlen]
      simp [List.range_succ])
  simpa using this

theorem fill_eq (n v : Nat) : forLoop n (fun b bl => setAt bl b v) (List.replicate n 0) = ok (List.replicate n v) := by
  have := forLoop_eq (n := n) (body := fun b (bl : List Nat) => setAt bl b v)
    (fun k => List.replicate k v ++ List.replicate (n - k) 0) (by
      intro i hi
      rw [setAt_of_lt (by simp; omega), List.set_append_right _ _ (by simp), List.length_replicate, Nat.sub_self,
        show n - i = (n - (i + 1)) + 1 by omega, List.replicate_succ, List.set_cons_zero,
        List.replicate_succ' (n := i), List.append_assoc]
      rfl)
  simpa using this

end Verif.MerklePir
