import Verif.Props.Merkle

/-! # C07: for which lists of records the claim holds -/

namespace Verif.Merkle
open Res Verif.Merkle.Spec

/-- What C07 claims of one list of records. -/
def ProofsVerify (H : List Byte → List Byte) (hashLen : Nat) (ck : List Byte → U64) (data : List (List Byte)) : Prop :=
  ∃ t r, newUsing H hashLen ck data = ok t ∧ root t = ok r ∧ ∀ d ∈ data, ∃ proof, generateProof ck t d = ok proof ∧
    verifyProof H d proof r = ok true ∧ data[proof.index.toNat]? = some d

/-- C07, exactly: its claim holds of a list of records if and only if the checksums tell the records apart and the distinct records
need as many tree levels as the list. This does not depend on the hash function. -/
theorem C07_exact (H : List Byte → List Byte) (hashLen : Nat) (ck : List Byte → U64)
    (data : List (List Byte)) (h0 : data ≠ []) (hsize : data.length ≤ 2 ^ 31) :
    ProofsVerify H hashLen ck data ↔
      ChecksumsFaithful ck data ∧ Nat.clog 2 data.dedup.length = Nat.clog 2 data.length := by
  constructor
  · rintro ⟨t, r, ht, -, h⟩
    have hf : ChecksumsFaithful ck data := by
      intro a ha b hb hab
      obtain ⟨pa, hpa, -, hia⟩ := h a ha
      obtain ⟨pb, hpb, -, hib⟩ := h b hb
      have e : generateProof ck t a = generateProof ck t b := by
        unfold generateProof
        rw [hab]
      rw [e, hpb, ok.injEq] at hpa
      rw [← hpa, hib] at hia
      exact (Option.some.inj hia).symm
    refine ⟨hf, ?_⟩
    rw [← dedup_map_length hf]
    have hle : Nat.clog 2 (data.map ck).dedup.length ≤ Nat.clog 2 data.length :=
      Nat.clog_mono_right 2 (le_trans (List.dedup_sublist _).length_le (by rw [List.length_map]))
    rcases lt_or_eq_of_le hle with hlt | heq
    · exfalso
      obtain ⟨t', ht', hc⟩ := C07_duplicates_crash H hashLen ck data hsize hlt
      rw [ht, ok.injEq] at ht'
      subst ht'
      obtain ⟨d, hd⟩ := List.exists_mem_of_ne_nil _ h0
      obtain ⟨pf, hpf, -⟩ := h d hd
      have := hc d hd
      rw [hpf] at this
      simp [isCrash] at this
    · exact heq
  · rintro ⟨hf, hc⟩
    exact C07_proofs_verify_partial H hashLen ck data h0 hsize hf hc

/-- C07, exactly, for the crash: proof generation ends in a panic for every record, or for none. It does so if and only if the
distinct checksums need fewer tree levels than the list. -/
theorem C07_crash_exact (H : List Byte → List Byte) (hashLen : Nat) (ck : List Byte → U64)
    (data : List (List Byte)) (h0 : data ≠ []) (hsize : data.length ≤ 2 ^ 31) :
    ∃ t, newUsing H hashLen ck data = ok t ∧ ∀ d ∈ data,
      ((generateProof ck t d).isCrash ↔ Nat.clog 2 (data.map ck).dedup.length < Nat.clog 2 data.length) ∧
      (¬ (generateProof ck t d).isCrash → ∃ proof, generateProof ck t d = ok proof) := by
  obtain ⟨t, ht, hT⟩ := newUsing_spec H hashLen ck data h0 (by omega)
  refine ⟨t, ht, fun d hd => ?_⟩
  have hle : Nat.clog 2 (data.map ck).dedup.length ≤ Nat.clog 2 data.length :=
    Nat.clog_mono_right 2 (le_trans (List.dedup_sublist _).length_le (by rw [List.length_map]))
  rcases lt_or_eq_of_le hle with hlt | heq
  · obtain ⟨t', ht', hc⟩ := C07_duplicates_crash H hashLen ck data hsize hlt
    rw [ht, ok.injEq] at ht'
    subst ht'
    exact ⟨⟨fun _ => hlt, fun _ => hc d hd⟩, fun h => absurd (hc d hd) h⟩
  · obtain ⟨proof, hp, -⟩ := generateProof_spec hT hsize heq hd
    refine ⟨⟨fun h => ?_, fun h => absurd heq (Nat.ne_of_lt h)⟩, fun _ => ⟨proof, hp⟩⟩
    rw [hp] at h
    simp [isCrash] at h

/-- Of three records with checksums by their length, two records of the same length spoil it; with one more length it holds. -/
example : ¬ ProofsVerify (fun _ => [1]) 1 (fun r => BitVec.ofNat 64 r.length) [[1], [2], [1, 2]] := by
  rw [C07_exact _ _ _ _ (by decide) (by decide)]
  rintro ⟨h, -⟩
  exact absurd (h [1] (by decide) [2] (by decide) rfl) (by decide)

example : ProofsVerify (fun _ => [1]) 1 (fun r => BitVec.ofNat 64 r.length) [[1], [1, 2], [1, 2, 3]] := by
  rw [C07_exact _ _ _ _ (by decide) (by decide)]
  refine ⟨?_, by decide⟩
  unfold ChecksumsFaithful
  decide

/-- Three records of which two are equal: every proof ends in a panic. -/
example : ∃ t, newUsing (fun _ => [1]) 1 (fun r => BitVec.ofNat 64 r.length) [[1], [1], [1, 2]] = ok t ∧
    (generateProof (fun r => BitVec.ofNat 64 r.length) t [1, 2]).isCrash := by
  obtain ⟨t, ht, h⟩ := C07_crash_exact (fun _ => [1]) 1 (fun r => BitVec.ofNat 64 r.length) [[1], [1], [1, 2]] (by decide)
    (by decide)
  have e1 : Nat.clog 2 2 = 1 := by decide
  have e2 : Nat.clog 2 3 = 2 := by decide
  exact ⟨t, ht, ((h [1, 2] (by decide)).1).2 (by
    rw [show (([[1], [1], [1, 2]] : List (List Byte)).map (fun r => BitVec.ofNat 64 r.length)).dedup.length = 2 by decide]
    show Nat.clog 2 2 < Nat.clog 2 3
    omega)⟩

end Verif.Merkle
