import Verif.Props.LocalDh
import Verif.Props.MerklePir

/-! # C70: the preprocessing experiment -/

namespace Verif.Local
open Res Verif.Client Verif.Local.Spec Verif.Merkle Verif.Merkle.Spec Verif.MerklePir Verif.Point Verif.Point.Spec
  Verif.Layout

variable {G : Type} [AddCommGroup G] [DecidableEq G]

theorem nRows_eq (s : Config) {dl : Nat} (h : dl ≤ 2 ^ 52) (h0 : 0 < dl) :
    nRows s dl = if s.numRows = 1 then 1 else side dl := by
  unfold nRows
  by_cases h1 : s.numRows = 1
  · rw [if_neg (by simpa using h1), if_pos h1, h1]
  · rw [if_pos h1, if_neg h1]
    obtain ⟨c, e1, e2, e3, e4⟩ := increase_spec h
    obtain ⟨e, he⟩ := sqrtF64_square e2
    rw [e1, he]
    dsimp only
    rw [Nat.mul_div_cancel _ (by positivity)]
    exact side_unique e3 (e4 h0) (side_spec _).1 ((side_spec _).2 h0)

omit [AddCommGroup G] [DecidableEq G] in
/-- C70, one database: every repetition computes, for each block of the random data in order, a record that a client with the
same root accepts as that block. Missing from the full claim: blocks with equal checksums (`C70_refuted`). -/
theorem C70_records_partial (M : Host G) (hH : ∀ l, (M.H l).length = 32) (d dl numRows blockLen n : Nat) (hrows : 0 < numRows)
    (hbl : 0 < blockLen) (data : List Byte) (hread : M.read d (dl / (8 * blockLen) * blockLen) = ok data)
    (hlen : data.length = dl / (8 * blockLen) * blockLen) (h0 : 0 < dl / (8 * blockLen))
    (hsize : dl / (8 * blockLen) ≤ 2 ^ 31) (hck : ChecksumsFaithful M.ck (recordsOf data (dl / (8 * blockLen)) blockLen))
    (hdist : (recordsOf data (dl / (8 * blockLen)) blockLen).Nodup) :
    ∃ r root proofLen, randomMerkleDB M d dl numRows blockLen n = ok r ∧ r.length = n ∧ ∀ x ∈ r, x.1 = ⟨0, 0, 0⟩ ∧
      ∃ stored : List (List Byte), x.2 = stored.flatten ∧ List.Forall₂ (fun b s => ∀ (info : Database.Info), info.root = root →
        info.proofLen = proofLen → ∀ m, checkBlock M.H info (zeroExtend m s) = ok b)
        (recordsOf data (dl / (8 * blockLen)) blockLen) stored := by
  unfold randomMerkleDB
  rw [if_neg (by omega)]
  dsimp only
  generalize hN : dl / (8 * blockLen) = N at *
  have hreclen : (recordsOf data N blockLen).length = N := by simp [recordsOf]
  obtain ⟨t, ht, hT⟩ := newUsing_spec M.H 32 M.ck (recordsOf data N blockLen)
    (by intro h; rw [h] at hreclen; simp at hreclen; omega) (by omega)
  obtain ⟨stored, hs1, hs2⟩ := generateMerkleProofs_spec _ _ (fun b hb =>
    sealed_of_mem hH ht (by omega) hck (by rw [List.dedup_eq_self.mpr hdist]) (root_eq hT) hb)
  have hcut : cutBlocks data N blockLen = ok (recordsOf data N blockLen) := cutBlocks_eq data N blockLen (by omega)
  rw [hread, Client.orFatal_ok, ok_bind, hcut, ok_bind]
  have hone : orFatal (newUsing M.H 32 M.ck (recordsOf data N blockLen)) = ok t := by rw [ht, Client.orFatal_ok]
  obtain ⟨r, h1, h2, h3⟩ := forLoop_inv (n := n) (s := ([] : List (Chunk × List Byte)))
    (body := fun _ results => do
      let tree ← orFatal (Merkle.newUsing M.H 32 M.ck (recordsOf data N blockLen))
      if numRows = 0 then crash "integer divide by zero" else
      let entries ← MerklePir.generateMerkleProofs M.ck tree (recordsOf data N blockLen)
      ok (results ++ [(⟨0, 0, 0⟩, entries)]))
    (fun m (r : List (Chunk × List Byte)) => r.length = m ∧ ∀ x ∈ r, x = (⟨0, 0, 0⟩, stored.flatten)) (by simp) (by
      intro j r _ ⟨ih1, ih2⟩
      rw [hone, ok_bind, if_neg (by omega), hs1, ok_bind]
      refine ⟨_, rfl, by simp [ih1], fun x hx => ?_⟩
      rcases List.mem_append.mp hx with hx | hx
      · exact ih2 x hx
      · simpa using hx)
  refine ⟨r, node M.H 32 (recordsOf data N blockLen) (depth (recordsOf data N blockLen)) 0, encodedProofLength 32 t, h1, h2,
    fun x hx => ?_⟩
  rw [h3 x hx]
  refine ⟨rfl, stored, rfl, hs2.imp ?_⟩
  intro b s hsealed info e1 e2 m
  exact checkBlock_sealed (by rw [e1, e2]; exact hsealed) m

/-- C70, the full claim: with distinct blocks, at least one per database, the experiment finishes and has one result for each
repetition. -/
def C70_Statement : Prop :=
  ∀ (G : Type) [AddCommGroup G] [DecidableEq G] (M : Host G) (s : Config), s.primitive = "preprocessing" →
    (∀ l, (M.H l).length = 32) → M.ck = fnv1a → 0 < s.blockLength →
    (∀ dl ∈ s.dbBitLengths, 8 * s.blockLength ≤ dl ∧ dl ≤ 2 ^ 31) →
    (∀ d dl, s.dbBitLengths[d]? = some dl → ∃ data, M.read d (dl / (8 * s.blockLength) * s.blockLength) = ok data ∧
      data.length = dl / (8 * s.blockLength) * s.blockLength ∧
      (recordsOf data (dl / (8 * s.blockLength)) s.blockLength).Nodup) →
    ∃ results, main M s = ok results ∧ ∀ dl, reported results dl =
      if dl ∈ s.dbBitLengths then some (List.replicate s.repetitions ⟨0, 0, 0⟩) else none

/-- C70 for blocks that the checksum tells apart. -/
theorem C70_finishes_partial (M : Host G) (s : Config) (hp : s.primitive = "preprocessing") (hH : ∀ l, (M.H l).length = 32)
    (hbl : 0 < s.blockLength) (hl : ∀ dl ∈ s.dbBitLengths, 8 * s.blockLength ≤ dl ∧ dl ≤ 2 ^ 52 ∧
      dl / (8 * s.blockLength) ≤ 2 ^ 31)
    (hdata : ∀ d dl, s.dbBitLengths[d]? = some dl → ∃ data, M.read d (dl / (8 * s.blockLength) * s.blockLength) = ok data ∧
      data.length = dl / (8 * s.blockLength) * s.blockLength ∧
      (recordsOf data (dl / (8 * s.blockLength)) s.blockLength).Nodup ∧
      ChecksumsFaithful M.ck (recordsOf data (dl / (8 * s.blockLength)) s.blockLength)) :
    ∃ results, main M s = ok results ∧ ∀ dl, reported results dl =
      if dl ∈ s.dbBitLengths then some (List.replicate s.repetitions ⟨0, 0, 0⟩) else none := by
  have hrun : ∀ (d dl : Nat), s.dbBitLengths[d]? = some dl →
      runLength M s d dl = ok (some (List.replicate s.repetitions ⟨0, 0, 0⟩)) := by
    intro d dl hd
    obtain ⟨h1, h2, h3⟩ := hl dl (List.mem_of_getElem? hd)
    obtain ⟨data, hr, hlen, hnd, hck⟩ := hdata d dl hd
    have hpos : 0 < dl / (8 * s.blockLength) := Nat.div_pos h1 (by omega)
    have hrows : 0 < nRows s dl := by
      rw [nRows_eq s h2 (by omega)]
      split
      · omega
      · exact side_pos (by omega)
    obtain ⟨r, root, pl, e1, e2, e3⟩ := C70_records_partial M hH d dl (nRows s dl) s.blockLength s.repetitions hrows hbl data hr
      hlen hpos h3 hck hnd
    unfold runLength
    rw [hp]
    simp only [show ¬ ("preprocessing" = "cmp-vpir-dh") by decide, show ¬ ("preprocessing" = "cmp-vpir-lwe") by decide,
      show ¬ ("preprocessing" = "cmp-vpir-lwe-128") by decide, if_false, if_true, false_and]
    rw [e1, ok_bind]
    congr 2
    rw [List.eq_replicate_iff]
    refine ⟨by rw [List.length_map, e2], fun x hx => ?_⟩
    obtain ⟨y, hy, rfl⟩ := List.mem_map.mp hx
    exact (e3 y hy).1
  suffices ∃ results, main M s = ok results by
    obtain ⟨results, h⟩ := this
    exact ⟨results, h, fun dl => reported_main (fun _ => some (List.replicate s.repetitions ⟨0, 0, 0⟩))
      (fun d dl r hd hr => by rw [hrun d dl hd] at hr; cases hr; rfl) h dl⟩
  unfold main
  rw [if_neg (by unfold validSimulation; simp [hp])]
  obtain ⟨r, hr, -⟩ := forLoop_inv (n := s.dbBitLengths.length) (s := ([] : List (Nat × List Chunk)))
    (body := fun d results => do
      let dl ← idx s.dbBitLengths d
      let r ← runLength M s d dl
      match r with
      | none => ok results
      | some chunks => ok (Pgp.mset results dl chunks)) (fun _ _ => True) trivial (by
    intro d results hd _
    rw [idx_of_lt hd, ok_bind, hrun d _ (List.getElem?_eq_getElem hd), ok_bind]
    exact ⟨_, rfl, trivial⟩)
  exact ⟨r, hr⟩

theorem run_merkle {M : Host G} {s : Config} (hp : s.primitive = "preprocessing") {results : List (Nat × List Chunk)}
    (h : main M s = ok results) {dl : Nat} (hmem : dl ∈ s.dbBitLengths) :
    ∃ d r, s.dbBitLengths[d]? = some dl ∧ randomMerkleDB M d dl (nRows s dl) s.blockLength s.repetitions = ok r := by
  obtain ⟨d, r, hd, hr⟩ := run_of_main h hmem
  unfold runLength at hr
  rw [hp] at hr
  simp only [show ¬ ("preprocessing" = "cmp-vpir-dh") by decide, show ¬ ("preprocessing" = "cmp-vpir-lwe") by decide,
    show ¬ ("preprocessing" = "cmp-vpir-lwe-128") by decide, if_false, if_true, false_and] at hr
  obtain ⟨x, hx, -⟩ := bind_eq_ok.mp hr
  exact ⟨d, x, hd, hx⟩

/-- C70: a database smaller than one block, or blocks of no bytes, end the program. -/
theorem C70_no_block (M : Host G) (s : Config) (hp : s.primitive = "preprocessing") (hrep : 0 < s.repetitions) (dl : Nat)
    (hmem : dl ∈ s.dbBitLengths) (hdl : s.blockLength = 0 ∨ dl < 8 * s.blockLength) (results : List (Nat × List Chunk)) :
    main M s ≠ ok results := by
  intro h
  obtain ⟨d, r, -, hr⟩ := run_merkle hp h hmem
  unfold randomMerkleDB at hr
  split at hr
  · cases hr
  rename_i hbl
  rw [show dl / (8 * s.blockLength) = 0 from Nat.div_eq_of_lt (by omega)] at hr
  dsimp only at hr
  obtain ⟨data, -, hr⟩ := bind_eq_ok.mp hr
  obtain ⟨blocks, hb, hr⟩ := bind_eq_ok.mp hr
  cases hb
  obtain ⟨u, u', hu⟩ := forLoop_at hr 0 hrep
  obtain ⟨t, ht, -⟩ := bind_eq_ok.mp hu
  cases ht

/-- A machine for the preprocessing experiment, whose random source delivers `data`. -/
def merkleHost (data : List Byte) : Host (ZMod 5) :=
  { plainHost Dh.shortGroup 0 1 with H := toyHash, ck := fnv1a, read := fun _ _ => ok data }

/-- C70 is false: two blocks of ten bytes with the same checksum end the program. -/
theorem C70_refuted : ¬ C70_Statement := by
  intro h
  have hrec : recordsOf (twinA ++ twinB) (160 / (8 * 10)) 10 = [twinA, twinB] := by decide
  obtain ⟨results, hr, -⟩ := h (ZMod 5) (merkleHost (twinA ++ twinB)) ⟨[160], 1, "preprocessing", 0, 10⟩ rfl toyHash_length rfl
    (by norm_num) (by intro dl hdl; simp at hdl; subst hdl; norm_num) (by
      intro d dl hd
      have hd' : dl = 160 := by simpa using List.mem_of_getElem? hd
      subst hd'
      exact ⟨_, rfl, by decide, by show (recordsOf (twinA ++ twinB) (160 / (8 * 10)) 10).Nodup; rw [hrec]; decide⟩)
  obtain ⟨d, r, -, hm⟩ := run_merkle rfl hr (dl := 160) (by simp)
  obtain ⟨-, -, hc⟩ := C07_distinct_records_refuted
  obtain ⟨t, ht, hA, -⟩ := hc toyHash
  unfold randomMerkleDB at hm
  rw [if_neg (by decide)] at hm
  dsimp only at hm
  obtain ⟨data, hdata, hm⟩ := bind_eq_ok.mp hm
  have : data = twinA ++ twinB := by
    have : orFatal (ok (twinA ++ twinB) : Res (List Byte)) = ok data := hdata
    rw [Client.orFatal_ok] at this
    simpa using this.symm
  subst this
  obtain ⟨blocks, hb, hm⟩ := bind_eq_ok.mp hm
  rw [cutBlocks_eq _ _ _ (by decide)] at hb
  have : blocks = [twinA, twinB] := by
    have h2 : recordsOf (twinA ++ twinB) (160 / (8 * 10)) 10 = blocks := by simpa [recordsOf] using hb
    rw [← h2, hrec]
  subst this
  obtain ⟨u, u', hu⟩ := forLoop_at hm 0 (by norm_num)
  obtain ⟨t', ht', hu⟩ := bind_eq_ok.mp hu
  have htt : newUsing toyHash 32 fnv1a [twinA, twinB] = ok t := ht
  have : t' = t := by
    have h3 : orFatal (newUsing toyHash 32 fnv1a [twinA, twinB]) = ok t' := ht'
    rw [htt, Client.orFatal_ok] at h3
    simpa using h3.symm
  subst this
  split at hu
  · cases hu
  obtain ⟨entries, he, -⟩ := bind_eq_ok.mp hu
  have he' : generateMerkleProofs fnv1a t' [twinA, twinB] = ok entries := he
  unfold generateMerkleProofs at he'
  rw [List.foldlM_cons] at he'
  unfold sealRecord at he'
  cases hg : generateProof fnv1a t' twinA with
  | ok p => rw [hg] at hA; simp at hA
  | err m => rw [hg] at hA; simp at hA
  | crash m => rw [hg] at he'; simp at he'

/-- Three blocks of two bytes, twice. -/
example : ∃ results, main (merkleHost [1, 2, 3, 4, 5, 6]) ⟨[48], 2, "preprocessing", 0, 2⟩ = ok results ∧
    reported results 48 = some [⟨0, 0, 0⟩, ⟨0, 0, 0⟩] := by
  obtain ⟨results, h, h'⟩ := C70_finishes_partial (merkleHost [1, 2, 3, 4, 5, 6]) ⟨[48], 2, "preprocessing", 0, 2⟩ rfl
    toyHash_length (by norm_num) (by intro dl hdl; simp at hdl; subst hdl; norm_num) (by
      intro d dl hd
      have hd' : dl = 48 := by simpa using List.mem_of_getElem? hd
      subst hd'
      refine ⟨_, rfl, by decide, by decide, ?_⟩
      show ChecksumsFaithful fnv1a (recordsOf [1, 2, 3, 4, 5, 6] 3 2)
      unfold ChecksumsFaithful
      decide)
  exact ⟨results, h, by rw [h']; rfl⟩

end Verif.Local
