import Verif.Model.ElementDb
import Verif.Props.Field

/-! # C124: databases of random field elements (lib/database/db.go:90-121) -/

namespace Verif.Database
open Res Verif.Field Verif.Field.Spec

/-- The pieces of four bytes of a stream. -/
def word (stream : List Byte) (i : Nat) : List Byte := (stream.drop (i * 4)).take 4

/-- What a user expects of the dimensions: whole columns, as many as fit the number of bits asked for, but at least
one; every block of full length. -/
structure Shaped (db : ElementDb) (dbLen numRows blockLen : Nat) : Prop where
  rows : db.info.numRows = numRows
  block : db.info.blockSize = blockLen
  full : db.entries.length = numRows * db.info.numColumns * blockLen
  lengths : db.info.blockLengths = List.replicate (numRows * db.info.numColumns) blockLen
  some : 1 ≤ db.info.numColumns
  fits : 32 * db.entries.length ≤ dbLen ∨ db.info.numColumns = 1
  most : dbLen < 32 * (db.entries.length + numRows * blockLen)

/-- C124 as a user would state it: from a source that delivers enough bytes the call makes a database of the size asked
for whose entries are reduced and depend on the source only. -/
def C124_Statement : Prop :=
  ∀ (fresh : Nat → U32) (fuel : Nat) (rest : List Byte) (dbLen numRows blockLen : Nat), 0 < fuel →
    0 < numRows → 0 < blockLen → dbLen / 8 + 4 * (numRows * blockLen) + 1 ≤ rest.length →
    ∃ db, createRandomBitsDB fresh fuel rest dbLen numRows blockLen = ok db ∧
      Shaped db dbLen numRows blockLen ∧ (∀ x ∈ db.entries, Canonical x) ∧
      ∀ fresh', createRandomBitsDB fresh' fuel rest dbLen numRows blockLen = ok db

/-- The number of columns. -/
theorem columns_spec (dbLen u : Nat) (hu : 0 < u) :
    let c := if dbLen / (32 * u) = 0 then 1 else dbLen / (32 * u)
    1 ≤ c ∧ (32 * (c * u) ≤ dbLen ∨ c = 1) ∧ dbLen < 32 * (c * u + u) ∧ 4 * (c * u) ≤ dbLen / 8 + 4 * u := by
  intro c
  have h1 := Nat.div_mul_le_self dbLen (32 * u)
  have h2 := Nat.lt_div_mul_add (a := dbLen) (b := 32 * u) (by omega)
  by_cases h : dbLen / (32 * u) = 0
  · have hc : c = 1 := by simp [c, h]
    rw [hc]
    rw [h] at h2
    omega
  · have hc : c = dbLen / (32 * u) := by simp [c, h]
    rw [← hc] at h1 h2 h
    have e : c * (32 * u) = 32 * (c * u) := by ring
    rw [e] at h1 h2
    omega

/-- The loop that fills in the block lengths. -/
theorem fill_blocks (m b : Nat) (hb : 0 < b) :
    forLoop (m * b) (fun i bl => setAt bl (i / b) b) (List.replicate m 0) = ok (List.replicate m b) := by
  obtain ⟨t, h, hl, hv⟩ := forLoop_inv (n := m * b) (body := fun i bl => setAt bl (i / b) b)
    (s := List.replicate m 0)
    (fun k t => t.length = m ∧ ∀ j, j < m → j * b < k → t[j]? = some b) (by simp) (by
      rintro i t hi ⟨hl, ht⟩
      have hq : i / b < m := Nat.div_lt_of_lt_mul (by rwa [mul_comm] at hi)
      refine ⟨t.set (i / b) b, setAt_of_lt (by omega), by simp [hl], fun j hj hjb => ?_⟩
      by_cases e : i / b = j
      · subst e
        simp [hl, hq]
      · rw [List.getElem?_set_ne e]
        refine ht j hj ?_
        rcases Nat.lt_succ_iff_lt_or_eq.1 hjb with h | h
        · exact h
        · exact absurd (by rw [← h, Nat.mul_div_cancel _ hb]) e)
  rw [h]
  congr 1
  refine List.ext_getElem? fun j => ?_
  by_cases hj : j < m
  · rw [hv j hj (Nat.mul_lt_mul_of_pos_right hj hb), List.getElem?_replicate, if_pos hj]
  · rw [List.getElem?_eq_none (by omega), List.getElem?_eq_none (by simp; omega)]

/-- What the call does once the random bytes are there. -/
theorem create_eq (dbLen numRows blockLen : Nat) (hr : 0 < numRows) (hb : 0 < blockLen) :
    ∃ c, 1 ≤ c ∧ (32 * (numRows * c * blockLen) ≤ dbLen ∨ c = 1) ∧
      dbLen < 32 * (numRows * c * blockLen + numRows * blockLen) ∧
      4 * (numRows * c * blockLen) ≤ dbLen / 8 + 4 * (numRows * blockLen) ∧
      ∀ (fresh : Nat → U32) (fuel : Nat) (rest : List Byte),
      (rest.length ≤ numRows * c * blockLen * 4 →
        ∃ e, createRandomBitsDB fresh fuel rest dbLen numRows blockLen = err e) ∧
      (numRows * c * blockLen * 4 + 1 ≤ rest.length →
        createRandomBitsDB fresh fuel rest dbLen numRows blockLen =
          (bytesToElements fresh fuel (List.replicate (numRows * c * blockLen) 0)
            (rest.take (numRows * c * blockLen * 4 + 1)) >>= fun s =>
            ok ⟨s.1, { numRows := numRows, numColumns := c, blockSize := blockLen, blockLengths := List.replicate (numRows * c) blockLen, pirType := "", root := [], proofLen := 0 }⟩)) := by
  obtain ⟨h1, h2, h3, h4⟩ := columns_spec dbLen (numRows * blockLen) (by positivity)
  have hd : 8 * 4 * numRows * blockLen = 32 * (numRows * blockLen) := by ring
  have hpos : 0 < numRows * blockLen := by positivity
  have hne : ¬ 32 * (numRows * blockLen) = 0 := by omega
  unfold createRandomBitsDB
  simp only [hd, hne, if_false, newBitsDB]
  generalize (if dbLen / (32 * (numRows * blockLen)) = 0 then 1 else dbLen / (32 * (numRows * blockLen))) = c at *
  have e : c * (numRows * blockLen) = numRows * c * blockLen := by ring
  rw [e] at h2 h3 h4
  refine ⟨c, h1, h2, h3, h4, fun fresh fuel rest => ⟨fun hs => ?_, fun hs => ?_⟩⟩
  · unfold readRandom readFull
    rw [if_neg (by omega)]
    split_ifs <;> exact ⟨_, rfl⟩
  · unfold readRandom readFull
    rw [if_pos (by omega)]
    simp only [ok_bind]
    rw [fill_blocks _ _ hb]
    rfl

/-- Conversion keeps the number of entries. -/
theorem bytesToElements_length {fresh : Nat → U32} {fuel : Nat} {out : List U32} {inp : List Byte}
    {s : List U32 × List Byte} (h : bytesToElements fresh fuel out inp = ok s) : s.1.length = out.length := by
  unfold bytesToElements at h
  refine forLoop_inv_ok (fun _ (t : List U32 × List Byte) => t.1.length = out.length) rfl ?_ h
  intro i t t' _ ht hs
  simp only [Res.bind_eq_ok] at hs
  obtain ⟨ch, -, ⟨e, ch'⟩, -, inp', -, o, ho, hr⟩ := hs
  cases hr
  unfold setAt at ho
  split_ifs at ho
  cases ho
  simpa using ht

/-- C124: whatever the source and the system randomness, a database that the call returns has the size asked for. -/
theorem C124_shape (fresh : Nat → U32) (fuel : Nat) (rest : List Byte) (dbLen numRows blockLen : Nat)
    (hr : 0 < numRows) (hb : 0 < blockLen) (db : ElementDb)
    (h : createRandomBitsDB fresh fuel rest dbLen numRows blockLen = ok db) :
    Shaped db dbLen numRows blockLen := by
  obtain ⟨c, h1, h2, h3, -, hc⟩ := create_eq dbLen numRows blockLen hr hb
  by_cases hl : rest.length ≤ numRows * c * blockLen * 4
  · obtain ⟨e, he⟩ := (hc fresh fuel rest).1 hl
    rw [he] at h
    cases h
  · rw [(hc fresh fuel rest).2 (by omega), Res.bind_eq_ok] at h
    obtain ⟨s, hs, h⟩ := h
    have hlen := bytesToElements_length hs
    rw [List.length_replicate] at hlen
    cases h
    exact ⟨rfl, rfl, hlen, rfl, h1, by rw [hlen]; exact h2, by rw [hlen]; exact h3⟩

example : ∃ db, createRandomBitsDB (fun _ => 0) 1 (List.replicate 40 3) 200 2 1 = ok db ∧
    db.info.numColumns = 3 ∧ db.entries.length = 6 :=
  ⟨⟨List.replicate 6 0x03030303, ⟨2, 3, 1, List.replicate 6 1, "", [], 0⟩⟩, by decide +kernel, rfl, rfl⟩

example : ∃ db, createRandomBitsDB (fun _ => 0) 1 (List.replicate 40 3) 5 2 1 = ok db ∧
    db.info.numColumns = 1 ∧ db.entries.length = 2 :=
  ⟨⟨List.replicate 2 0x03030303, ⟨2, 1, 1, List.replicate 2 1, "", [], 0⟩⟩, by decide +kernel, rfl, rfl⟩

/-- C124: a source that ends too early is reported as an error: the call neither ends the program nor makes up
entries. It needs one byte more than the entries take. -/
theorem C124_short (fresh : Nat → U32) (fuel : Nat) (rest : List Byte) (dbLen numRows blockLen : Nat)
    (hr : 0 < numRows) (hb : 0 < blockLen) (hs : rest.length ≤ 4 * (numRows * blockLen)) :
    ∃ e, createRandomBitsDB fresh fuel rest dbLen numRows blockLen = err e := by
  obtain ⟨c, h1, -, -, -, hc⟩ := create_eq dbLen numRows blockLen hr hb
  refine (hc fresh fuel rest).1 ?_
  have : numRows * 1 * blockLen ≤ numRows * c * blockLen :=
    Nat.mul_le_mul_right _ (Nat.mul_le_mul_left _ h1)
  rw [mul_one] at this
  omega

example : createRandomBitsDB (fun _ => 0) 1 (List.replicate 8 3) 5 2 1 =
    err "failed to read random randBytes: unexpected EOF" := by decide +kernel

example : createRandomBitsDB (fun _ => 0) 1 [] 5 2 1 = err "failed to read random randBytes: EOF" := by decide +kernel

/-- C124: without rows, or with blocks of length zero, the call ends the program. -/
theorem C124_zero (fresh : Nat → U32) (fuel : Nat) (rest : List Byte) (dbLen numRows blockLen : Nat)
    (h : numRows = 0 ∨ blockLen = 0) :
    (createRandomBitsDB fresh fuel rest dbLen numRows blockLen).isCrash := by
  have e : 8 * 4 * numRows * blockLen = 0 := by rcases h with h | h <;> simp [h]
  unfold createRandomBitsDB
  rw [if_pos e]
  trivial

example : (0 : Nat) = 0 ∨ (3 : Nat) = 0 := Or.inl rfl

/-- What holds of C124: if none of the words taken from the source has its 31 low bits all set, the database has the
size asked for, its entries are reduced and they are the 31 low bits of the successive words of the source, whatever the
system randomness. Missing: the excluded words, for which the claim is false. -/
theorem C124_entries_partial (rest : List Byte) (dbLen numRows blockLen : Nat)
    (hr : 0 < numRows) (hb : 0 < blockLen) (hlen : dbLen / 8 + 4 * (numRows * blockLen) + 1 ≤ rest.length)
    (hn : ∀ i, 32 * i < dbLen + 32 * (numRows * blockLen) → low31 (word rest i) ≠ p) :
    ∃ db, (∀ fresh fuel, createRandomBitsDB fresh fuel rest dbLen numRows blockLen = ok db) ∧
      Shaped db dbLen numRows blockLen ∧
      ∀ i (hi : i < db.entries.length), Canonical db.entries[i] ∧ (db.entries[i]).toNat = low31 (word rest i) := by
  obtain ⟨c, h1, h2, h3, h4, hc⟩ := create_eq dbLen numRows blockLen hr hb
  generalize hN : numRows * c * blockLen = N at *
  have hw : ∀ i, i < N → ((rest.take (N * 4 + 1)).drop (i * 4)).take 4 = word rest i := by
    intro i hi
    rw [List.drop_take, List.take_take, min_eq_left (by omega)]
    rfl
  have hi' : ∀ i, i < N → low31 (word rest i) ≠ p := fun i hi => hn i (by omega)
  have key : ∀ fresh fuel, ∃ inp', bytesToElements fresh fuel (List.replicate N 0) (rest.take (N * 4 + 1)) =
      ok ((List.range N).map (fun i => maskedWord (word rest i)), inp') := by
    intro fresh fuel
    obtain ⟨inp', e, -⟩ := bytesToElements_nohit fresh fuel (List.replicate N 0) (rest.take (N * 4 + 1))
      (by simp; omega) (by
        intro i hi
        rw [List.length_replicate] at hi
        rw [hw i hi]
        exact hi' i hi)
    refine ⟨inp', ?_⟩
    rw [e, List.length_replicate]
    congr 2
    exact List.map_congr_left fun i hi => by rw [hw i (List.mem_range.1 hi)]
  have heq : ∀ fresh fuel, createRandomBitsDB fresh fuel rest dbLen numRows blockLen =
      ok ⟨(List.range N).map (fun i => maskedWord (word rest i)), { numRows := numRows, numColumns := c, blockSize := blockLen, blockLengths := List.replicate (numRows * c) blockLen, pirType := "", root := [], proofLen := 0 }⟩ := by
    intro fresh fuel
    obtain ⟨inp', e⟩ := key fresh fuel
    rw [(hc fresh fuel rest).2 (by omega), e]
    rfl
  refine ⟨_, heq, C124_shape (fun _ => 0) 0 rest dbLen numRows blockLen hr hb _ (heq _ _), fun i hi => ?_⟩
  simp only [List.length_map, List.length_range] at hi
  simp only [List.getElem_map, List.getElem_range]
  exact ⟨maskedWord_canonical (hi' i hi), maskedWord_toNat _⟩

example : 200 / 8 + 4 * (2 * 1) + 1 ≤ (List.replicate 40 (3 : Byte)).length ∧
    ∀ i, 32 * i < 200 + 32 * (2 * 1) → low31 (word (List.replicate 40 3) i) ≠ p := by
  refine ⟨by decide, fun i hi => ?_⟩
  have : i < 9 := by omega
  interval_cases i <;> decide

/-- C124 (no bias): a source gives a particular list of reduced entries exactly if every one of its words is one of the
two that stand for the entry, so all lists of reduced entries come from equally many sources. -/
theorem C124_unbiased_partial (rest : List Byte) (dbLen numRows blockLen : Nat)
    (hr : 0 < numRows) (hb : 0 < blockLen) (hlen : dbLen / 8 + 4 * (numRows * blockLen) + 1 ≤ rest.length)
    (hn : ∀ i, 32 * i < dbLen + 32 * (numRows * blockLen) → low31 (word rest i) ≠ p)
    (values : List U32) (hv : ∀ v ∈ values, Canonical v) :
    ∃ db, (∀ fresh fuel, createRandomBitsDB fresh fuel rest dbLen numRows blockLen = ok db) ∧
      (values.length = db.entries.length →
        (db.entries = values ↔ ∀ i (hi : i < values.length),
          word rest i = beBytes 4 values[i].toNat ∨ word rest i = beBytes 4 (values[i].toNat + 2 ^ 31))) := by
  obtain ⟨db, h, hs, he⟩ := C124_entries_partial rest dbLen numRows blockLen hr hb hlen hn
  refine ⟨db, h, fun hl => ?_⟩
  have hfull : 4 * db.entries.length ≤ dbLen / 8 + 4 * (numRows * blockLen) := by
    rcases hs.fits with h | h
    · omega
    · rw [hs.full, h, mul_one]; omega
  have hw : ∀ i, i < db.entries.length → (word rest i).length = 4 := by
    intro i hi
    simp only [word, List.length_take, List.length_drop]
    omega
  have hone : ∀ i (hi : i < values.length) (hi' : i < db.entries.length), db.entries[i] = values[i] ↔
      (word rest i = beBytes 4 values[i].toNat ∨ word rest i = beBytes 4 (values[i].toNat + 2 ^ 31)) := by
    intro i hi hi'
    rw [← C28_no_bias _ (hv _ (List.getElem_mem hi)) _ (hw i hi'), ← (he i hi').2]
    exact BitVec.toNat_inj.symm
  constructor
  · intro e i hi
    exact (hone i hi (by omega)).1 (by simp [e])
  · intro hall
    exact List.ext_getElem hl.symm fun i h1 h2 => (hone i h2 h1).2 (hall i h2)

/-- C124 is false: a source that delivers a word with its 31 low bits set makes the entry an unmasked word of the
system's randomness, which need not be reduced and differs from run to run. -/
theorem C124_refuted : ¬ C124_Statement := by
  intro h
  obtain ⟨db, h1, -, h2, -⟩ := h (fun _ => 0xFFFFFFFF) 1 (List.replicate 9 255) 32 1 1 (by omega) (by omega) (by omega)
    (by decide)
  have e : createRandomBitsDB (fun _ => 0xFFFFFFFF) 1 (List.replicate 9 255) 32 1 1 =
      ok ⟨[0xFFFFFFFF], ⟨1, 1, 1, [1], "", [], 0⟩⟩ := by decide +kernel
  rw [e] at h1
  cases h1
  exact absurd (h2 _ (List.mem_singleton.2 rfl)) (by decide)

/-- An empty byte database has the size asked for but, unlike the random one, no block lengths, so that a client that
reads a block's length of it fails. -/
theorem C124_zero_bytes (numRows numColumns blockLen : Nat) :
    (createZeroBytes numRows numColumns blockLen).entries.length = numRows * numColumns * blockLen ∧
      (∀ b ∈ (createZeroBytes numRows numColumns blockLen).entries, b = 0) ∧
      (createZeroBytes numRows numColumns blockLen).info.blockLengths = [] :=
  ⟨by simp [createZeroBytes], fun b hb => (List.mem_replicate.1 hb).2, rfl⟩

end Verif.Database
