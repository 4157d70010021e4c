import Verif.Props.Local

/-! # C69: the single-machine experiment with the group scheme -/

namespace Verif.Local
open Res Verif.Client Verif.Local.Spec Verif.Dh Verif.Dh.Spec Verif.Layout

variable {G : Type} [AddCommGroup G] [DecidableEq G]

omit [AddCommGroup G] [DecidableEq G] in
theorem marshal_length (g : Grp G) (n : Nat) {v : List G} (h : ∀ x ∈ v, (g.enc x).length = n) :
    (marshalGroupElements g v).length = v.length * n := by
  rw [marshal_eq, flatMap_length h]

/-- C69, one database: every repetition retrieves the bit at the position drawn, and reports the sizes of the messages. -/
theorem C69_rounds_partial (M : Host G) (d n : Nat) (db : Elliptic) (hd : Decodes M.g) (hes : 0 < db.info.elementSize)
    (hcom : Committed M.g db) (hdig : db.info.digest = M.blake2 db.info.subDigests) (hR : 0 < db.info.numRows)
    (hC0 : 0 < db.info.numColumns) (hC : db.info.numColumns ≤ 2 ^ 63) (hi : ∀ j which n, 0 < n → M.intn d j which n < n)
    (hfull : FullDigests M.g db)
    (huse : ∀ j, j < n → Usable M.g db (M.scalars d j).1 (M.scalars d j).2
      (M.intn d j 0 (db.info.numRows * db.info.numColumns))) :
    ∃ r, pirElliptic M d db n = ok r ∧ r.length = n ∧ ∀ x ∈ r,
      x.1 = ⟨db.info.numRows * db.info.elementSize + db.info.digest.length, db.info.numColumns * db.info.elementSize,
        db.info.numRows * db.info.elementSize⟩ ∧
      x.2.1 < db.info.numRows * db.info.numColumns ∧ x.2.2 = if db.entries.getD x.2.1 0 = 1 then 1 else 0 := by
  unfold pirElliptic newDH
  rw [if_neg (by simp [hdig]), ok_bind]
  have hpos : 0 < db.info.numRows * db.info.numColumns := Nat.mul_pos hR hC0
  have hsub : db.info.subDigests.length = db.info.numRows * db.info.elementSize := by
    rw [hcom.digests, flatMap_length (n := db.info.elementSize) (fun i hi => hfull i (by simpa using hi)), List.length_range]
  obtain ⟨r, h1, h2, h3⟩ := forLoop_inv (n := n) (s := ([] : List (Chunk × Nat × Byte))) (body := fun j results => do
      let index ← draw (M.intn d j 0) (db.info.numRows * db.info.numColumns)
      let (query, st) ← orFatal (Dh.queryBytes M.g db.info (M.scalars d j).1 (M.scalars d j).2 index)
      let answer ← orFatal (Dh.answerBytes M.g db query)
      let bit ← orFatal (Dh.reconstructBytes M.g db.info st answer)
      ok (results ++ [(⟨db.info.subDigests.length + db.info.digest.length, query.length, answer.length⟩, index, bit)]))
    (fun m (r : List (Chunk × Nat × Byte)) => r.length = m ∧ ∀ x ∈ r,
      x.1 = ⟨db.info.numRows * db.info.elementSize + db.info.digest.length, db.info.numColumns * db.info.elementSize,
        db.info.numRows * db.info.elementSize⟩ ∧
      x.2.1 < db.info.numRows * db.info.numColumns ∧ x.2.2 = if db.entries.getD x.2.1 0 = 1 then 1 else 0) (by simp) (by
      intro j r hj ⟨ih1, ih2⟩
      have hk := hi j 0 _ hpos
      obtain ⟨u1, u2, u3⟩ := huse j hj
      rw [draw_ok _ hpos, ok_bind]
      generalize M.intn d j 0 (db.info.numRows * db.info.numColumns) = k at *
      obtain ⟨q, st, a, e1, e2, e3⟩ := C39_retrieve_partial M.g db (M.scalars d j).1 (M.scalars d j).2 k hd hes hcom hC hk u1 u2
        hfull u3
      have eq := query_eq M.g db.info (M.scalars d j).1 (M.scalars d j).2 k hC0 (by omega)
      rw [e1] at eq
      simp only [ok.injEq, Prod.mk.injEq] at eq
      have ea := answer_eq M.g db hcom.complete hes hd _ u2
      rw [← eq.1, e2] at ea
      simp only [ok.injEq] at ea
      have lq : q.length = db.info.numColumns * db.info.elementSize := by
        rw [eq.1, marshal_length M.g db.info.elementSize, List.length_map, List.length_range]
        intro y hy
        obtain ⟨i, hi, rfl⟩ := List.mem_map.mp hy
        exact u2 i (by simpa using hi)
      have la : a.length = db.info.numRows * db.info.elementSize := by
        rw [ea, marshal_length M.g db.info.elementSize, List.length_map, List.length_range]
        intro y hy
        obtain ⟨i, hi, rfl⟩ := List.mem_map.mp hy
        exact u3 i (by simpa using hi)
      rw [e1, Client.orFatal_ok, ok_bind]
      dsimp only
      rw [e2, Client.orFatal_ok, ok_bind, e3, Client.orFatal_ok, ok_bind]
      refine ⟨_, rfl, by simp [ih1], fun x hx => ?_⟩
      rcases List.mem_append.mp hx with hx | hx
      · exact ih2 x hx
      · rw [List.mem_singleton] at hx
        subst hx
        exact ⟨by rw [hsub, lq, la], hk, rfl⟩)
  exact ⟨r, h1, h2, h3⟩

/-- The number of goroutines that compute the digests. -/
def goroutines (cpus dl : Nat) : Nat := if dl ≤ 2 ^ 20 then 8 else cpus

omit [DecidableEq G] in
theorem create_square (M : Host G) (d dl : Nat) (hdl : dl ≤ 2 ^ 52) (hcpus : 0 < M.cpus) (data : List Byte)
    (hread : M.read d (side dl * side dl) = ok data) (hlen : data.length = side dl * side dl)
    (hsafe : (goroutines M.cpus dl - 1) * ((side dl + goroutines M.cpus dl - 1) / goroutines M.cpus dl) ≤ side dl) :
    ∃ db, createRandomEllipticWithDigest M.g M.blake2 M.cpus M.elementSize (M.read d) dl true = ok db ∧ Committed M.g db ∧
      db.info.digest = M.blake2 db.info.subDigests ∧ db.entries = (bitsDb M.elementSize dl data).entries ∧
      db.info.numRows = side dl ∧ db.info.numColumns = side dl ∧ db.info.elementSize = M.elementSize := by
  unfold createRandomEllipticWithDigest
  rw [layout_eq hdl]
  dsimp only
  rw [hread, ok_bind]
  have hn : 0 < goroutines M.cpus dl := by unfold goroutines; split <;> omega
  have := C42_sequential_partial M.g (bitsDb M.elementSize dl data) (by simpa [bitsDb] using hlen) _ hn hsafe
  have e : (if dl ≤ 1024 * 1024 then 8 else M.cpus) = goroutines M.cpus dl := rfl
  rw [e]
  have e2 : (bitsDb M.elementSize dl data).info.numRows = side dl := rfl
  have e3 : (bitsDb M.elementSize dl data).info.numColumns = side dl := rfl
  have e4 : (bitsDb M.elementSize dl data).entries = data.map (fun b => b &&& 1) := rfl
  rw [e2, e3, e4] at this
  rw [this, ok_bind]
  exact ⟨_, rfl, ⟨by simpa using hlen, rfl⟩, rfl, rfl, rfl, rfl, rfl⟩

/-- C69, the full claim: the experiment with the group scheme finishes and reports the sizes of the messages for all lengths but
2^33, which is left out. -/
def C69_Statement : Prop :=
  ∀ (G : Type) [AddCommGroup G] [DecidableEq G] (M : Host G) (s : Config), s.primitive = "cmp-vpir-dh" →
    (∀ dl ∈ s.dbBitLengths, 0 < dl ∧ dl ≤ 2 ^ 52) → DhMachine M → Blinded M s →
    ∃ results, main M s = ok results ∧ ∀ dl, reported results dl =
      if dl ∈ s.dbBitLengths ∧ dl ≠ 2 ^ 33 then some (List.replicate s.repetitions (dhChunk M.elementSize 32 dl)) else none

/-- C69 when the rows can be divided among the goroutines and no digest, query or answer contains a neutral element with a
shorter encoding. Missing from the full claim: the other cases, in which it is false (`C69_rows_not_divided`, `C69_zero_row`). -/
theorem C69_finishes_partial (M : Host G) (s : Config) (hp : s.primitive = "cmp-vpir-dh")
    (hl : ∀ dl ∈ s.dbBitLengths, 0 < dl ∧ dl ≤ 2 ^ 52) (hM : DhMachine M)
    (hsafe : ∀ dl ∈ s.dbBitLengths, dl ≠ 2 ^ 33 →
      (goroutines M.cpus dl - 1) * ((side dl + goroutines M.cpus dl - 1) / goroutines M.cpus dl) ≤ side dl)
    (hfull : ∀ (d dl : Nat), s.dbBitLengths[d]? = some dl → dl ≠ 2 ^ 33 → ∀ data, M.read d (side dl * side dl) = ok data →
      FullDigests M.g (bitsDb M.elementSize dl data) ∧ ∀ j, j < s.repetitions →
        Usable M.g (bitsDb M.elementSize dl data) (M.scalars d j).1 (M.scalars d j).2 (M.intn d j 0 (side dl * side dl))) :
    ∃ results, main M s = ok results ∧ ∀ dl, reported results dl =
      if dl ∈ s.dbBitLengths ∧ dl ≠ 2 ^ 33 then some (List.replicate s.repetitions (dhChunk M.elementSize 32 dl)) else none := by
  have hes : 0 < M.elementSize := by
    rcases hM.encoding with h | h
    · exact h.1
    · exact lt_trans Nat.zero_lt_one h.1
  have hrun : ∀ (d dl : Nat), s.dbBitLengths[d]? = some dl → runLength M s d dl =
      ok (if dl ≠ 2 ^ 33 then some (List.replicate s.repetitions (dhChunk M.elementSize 32 dl)) else none) := by
    intro d dl hd
    obtain ⟨h0, h52⟩ := hl dl (List.mem_of_getElem? hd)
    unfold runLength
    by_cases h33 : dl = 2 ^ 33
    · rw [if_pos ⟨hp, by rw [h33]; norm_num⟩, if_neg (by simpa using h33)]
    rw [if_neg (by rintro ⟨-, h⟩; exact h33 (by rw [h]; norm_num)), if_pos hp, if_pos h33]
    obtain ⟨data, hread, hlen⟩ := hM.read d (side dl * side dl)
    obtain ⟨hf, hu⟩ := hfull d dl hd h33 data hread
    obtain ⟨db, e1, e2, e3, e4, e5, e6, e7⟩ := create_square M d dl h52 hM.cpus data hread hlen
      (hsafe dl (List.mem_of_getElem? hd) h33)
    have hc0 := side_pos h0
    have hc : side dl ≤ 2 ^ 26 := side_le (by rw [← pow_add]; exact h52)
    have hsum : ∀ x : Nat → G, rowSum db x = rowSum (bitsDb M.elementSize dl data) x := by
      intro x
      have hb : ∀ i j, Bit db i j ↔ Bit (bitsDb M.elementSize dl data) i j := by
        intro i j
        unfold Bit
        rw [e4, e6]
        rfl
      funext i
      unfold rowSum
      rw [e6]
      simp only [hb]
      rfl
    obtain ⟨r, hr, hr1, hr2⟩ := C69_rounds_partial M d s.repetitions db hM.decodes (by rw [e7]; exact hes) e2 e3
      (by rw [e5]; exact hc0) (by rw [e6]; exact hc0) (by rw [e6]; omega) (hM.intn d)
      (by
        intro i hi
        rw [hsum, e7]
        exact hf i (by rw [e5] at hi; exact hi))
      (by
        intro j hj
        obtain ⟨u1, u2, u3⟩ := hu j hj
        rw [e5, e6]
        refine ⟨by rw [e6]; exact u1, ?_, ?_⟩
        · intro i hi
          rw [e6, e7]
          exact u2 i (by rw [e6] at hi; exact hi)
        · intro i hi
          rw [hsum, e6, e7]
          exact u3 i (by rw [e5] at hi; exact hi))
    rw [e1, ok_bind, hr, ok_bind]
    congr 2
    rw [List.eq_replicate_iff]
    refine ⟨by rw [List.length_map, hr1], fun x hx => ?_⟩
    obtain ⟨y, hy, rfl⟩ := List.mem_map.mp hx
    rw [(hr2 y hy).1, e5, e6, e7, e3, hM.hash]
    rfl
  suffices ∃ results, main M s = ok results by
    obtain ⟨results, h⟩ := this
    refine ⟨results, h, fun dl => ?_⟩
    rw [reported_main (fun dl => if dl ≠ 2 ^ 33 then some (List.replicate s.repetitions (dhChunk M.elementSize 32 dl)) else none)
      (fun d dl r hd hr => by rw [hrun d dl hd] at hr; cases hr; rfl) h dl]
    by_cases h1 : dl ∈ s.dbBitLengths <;> by_cases h2 : dl = 2 ^ 33 <;> simp [h1, h2]
  unfold main
  rw [if_neg (by unfold validSimulation; simp [hp])]
  obtain ⟨r, hr, -⟩ := forLoop_inv (n := s.dbBitLengths.length) (s := ([] : List (Nat × List Chunk)))
    (body := fun d results => do
      let dl ← idx s.dbBitLengths d
      let r ← runLength M s d dl
      match r with
      | none => ok results
      | some chunks => ok (Pgp.mset results dl chunks)) (fun _ _ => True) trivial (by
    intro d results hd _
    rw [idx_of_lt hd, ok_bind, hrun d _ (List.getElem?_eq_getElem hd), ok_bind]
    split
    · exact ⟨_, rfl, trivial⟩
    · exact ⟨_, rfl, trivial⟩)
  exact ⟨r, hr⟩

theorem run_of_main {M : Host G} {s : Config} {results : List (Nat × List Chunk)} (h : main M s = ok results) {dl : Nat}
    (hmem : dl ∈ s.dbBitLengths) : ∃ d r, s.dbBitLengths[d]? = some dl ∧ runLength M s d dl = ok r := by
  unfold main at h
  split at h
  · cases h
  obtain ⟨d, hd, he⟩ := List.getElem_of_mem hmem
  obtain ⟨t, t', hb⟩ := forLoop_at h d hd
  obtain ⟨dl', hdl', hb⟩ := bind_eq_ok.mp hb
  obtain ⟨r, hr, -⟩ := bind_eq_ok.mp hb
  rw [idx_of_lt hd, he] at hdl'
  cases hdl'
  exact ⟨d, r, by rw [List.getElem?_eq_getElem hd, he], hr⟩

/-- C69: the program never finishes when the last goroutine would start beyond the last row. -/
theorem C69_rows_not_divided (M : Host G) (s : Config) (hp : s.primitive = "cmp-vpir-dh") (hM : DhMachine M) (dl : Nat)
    (hmem : dl ∈ s.dbBitLengths) (h33 : dl ≠ 2 ^ 33) (h52 : dl ≤ 2 ^ 52)
    (hbad : side dl < (goroutines M.cpus dl - 1) * ((side dl + goroutines M.cpus dl - 1) / goroutines M.cpus dl))
    (results : List (Nat × List Chunk)) : main M s ≠ ok results := by
  intro h
  obtain ⟨d, r, -, hr⟩ := run_of_main h hmem
  unfold runLength at hr
  rw [if_neg (by rintro ⟨-, h⟩; exact h33 (by rw [h]; norm_num)), if_pos hp] at hr
  obtain ⟨db, hdb, -⟩ := bind_eq_ok.mp hr
  obtain ⟨data, hread, hlen⟩ := hM.read d (side dl * side dl)
  unfold createRandomEllipticWithDigest at hdb
  rw [layout_eq h52] at hdb
  dsimp only at hdb
  rw [hread, ok_bind] at hdb
  obtain ⟨digests, hdig, -⟩ := bind_eq_ok.mp hdb
  have hn : 0 < goroutines M.cpus dl := by unfold goroutines; have := hM.cpus; split <;> omega
  have hcr := (C42_crash_iff M.g (bitsDb M.elementSize dl data) (by simpa [bitsDb] using hlen) _ hn).mpr hbad
  have : rowDigests M.g (goroutines M.cpus dl) (side dl) (side dl) (data.map fun b => b &&& 1) = ok digests := hdig
  rw [show rowDigests M.g (goroutines M.cpus dl) (bitsDb M.elementSize dl data).info.numRows
    (bitsDb M.elementSize dl data).info.numColumns (bitsDb M.elementSize dl data).entries = ok digests from this] at hcr
  simp at hcr

/-- C69: on a machine with 64 processors the experiment on 1 MiB never finishes: 63 goroutines take 46 rows each, and the last
one starts at row 2898 of 2897. -/
theorem C69_sixty_four_processors (M : Host G) (s : Config) (hp : s.primitive = "cmp-vpir-dh") (hM : DhMachine M)
    (hcpus : M.cpus = 64) (hmem : 2 ^ 23 ∈ s.dbBitLengths) (results : List (Nat × List Chunk)) : main M s ≠ ok results := by
  apply C69_rows_not_divided M s hp hM (2 ^ 23) hmem (by norm_num) (by norm_num)
  rw [show goroutines M.cpus (2 ^ 23) = 64 by unfold goroutines; rw [hcpus]; norm_num,
    show side (2 ^ 23) = 2897 from side_unique (side_spec _).1 ((side_spec _).2 (by norm_num)) (by norm_num) (by norm_num)]
  norm_num

/-- C69: where the neutral element has a shorter encoding, the program never finishes when a row of a database contains no one. -/
theorem C69_zero_row (M : Host G) (s : Config) (hp : s.primitive = "cmp-vpir-dh") (hM : DhMachine M)
    (hs : ShortIdentity M.g M.elementSize) (hrep : 0 < s.repetitions) (dl : Nat) (hmem : dl ∈ s.dbBitLengths)
    (h33 : dl ≠ 2 ^ 33) (h52 : dl ≤ 2 ^ 52) (hcr : ∀ d, ∃ data i, M.read d (side dl * side dl) = ok data ∧
      i < side dl ∧ ∀ j, j < side dl → (data.getD (i * side dl + j) 0).getLsbD 0 = false)
    (results : List (Nat × List Chunk)) : main M s ≠ ok results := by
  by_cases hsafe : (goroutines M.cpus dl - 1) * ((side dl + goroutines M.cpus dl - 1) / goroutines M.cpus dl) ≤ side dl
  swap
  · exact C69_rows_not_divided M s hp hM dl hmem h33 h52 (by omega) results
  intro h
  obtain ⟨d, r, -, hr⟩ := run_of_main h hmem
  unfold runLength at hr
  rw [if_neg (by rintro ⟨-, h⟩; exact h33 (by rw [h]; norm_num)), if_pos hp] at hr
  obtain ⟨data', hread', hlen⟩ := hM.read d (side dl * side dl)
  obtain ⟨data, i, hread, hi, hz⟩ := hcr d
  rw [hread] at hread'
  have hdd : data = data' := by simpa using hread'
  subst hdd
  obtain ⟨db, e1, e2, e3, e4, e5, e6, e7⟩ := create_square M d dl h52 hM.cpus data hread hlen hsafe
  rw [e1, ok_bind] at hr
  obtain ⟨x, hx, -⟩ := bind_eq_ok.mp hr
  unfold pirElliptic at hx
  obtain ⟨info, hinfo, hx⟩ := bind_eq_ok.mp hx
  unfold newDH at hinfo
  split at hinfo
  · cases hinfo
  cases hinfo
  obtain ⟨u, u', hb⟩ := forLoop_at hx 0 hrep
  obtain ⟨k, -, hb⟩ := bind_eq_ok.mp hb
  obtain ⟨⟨q, st⟩, -, hb⟩ := bind_eq_ok.mp hb
  obtain ⟨a, -, hb⟩ := bind_eq_ok.mp hb
  obtain ⟨bit, hbit, -⟩ := bind_eq_ok.mp hb
  cases hrec : reconstructBytes M.g db.info st a with
  | ok res =>
    refine C39_zero_row_never M.g db e2 (by rw [e7]; exact hs) i (by rw [e5]; exact hi) ?_ st a res hrec
    intro j hj
    rw [e6] at hj ⊢
    rw [e4]
    have hz' := hz j hj
    have hlt : i * side dl + j < data.length := by
      rw [hlen]
      have : (i + 1) * side dl ≤ side dl * side dl := Nat.mul_le_mul_right _ hi
      rw [Nat.succ_mul] at this
      omega
    unfold bitsDb
    rw [List.getD_eq_getElem?_getD, List.getElem?_eq_getElem hlt] at hz'
    rw [List.getD_eq_getElem?_getD, List.getElem?_map, List.getElem?_eq_getElem hlt]
    have : ∀ b : Byte, b.getLsbD 0 = false → b &&& 1 = 0 := by decide
    exact this _ hz'
  | err m => rw [hrec] at hbit; cases hbit
  | crash m => rw [hrec] at hbit; cases hbit

/-- C69 without neutral elements to care about: where all encodings have the same size. -/
theorem C69_fixed_size_partial (M : Host G) (s : Config) (hp : s.primitive = "cmp-vpir-dh")
    (hl : ∀ dl ∈ s.dbBitLengths, 0 < dl ∧ dl ≤ 2 ^ 52) (hM : DhMachine M) (hf : FixedSize M.g M.elementSize)
    (hb : Blinded M s)
    (hsafe : ∀ dl ∈ s.dbBitLengths, dl ≠ 2 ^ 33 →
      (goroutines M.cpus dl - 1) * ((side dl + goroutines M.cpus dl - 1) / goroutines M.cpus dl) ≤ side dl) :
    ∃ results, main M s = ok results ∧ ∀ dl, reported results dl =
      if dl ∈ s.dbBitLengths ∧ dl ≠ 2 ^ 33 then some (List.replicate s.repetitions (dhChunk M.elementSize 32 dl)) else none :=
  C69_finishes_partial M s hp hl hM hsafe (fun d dl hd _ _ _ =>
    ⟨fun _ _ => hf.2 _, fun j hj => ⟨hb d dl hd j hj, fun _ _ => hf.2 _, fun _ _ => hf.2 _⟩⟩)

/-! ### Concrete machines -/

/-- A machine that computes in `g` and draws the byte `b` only. -/
def plainHost (g : Grp (ZMod 5)) (b : Byte) (cpus : Nat) : Host (ZMod 5) where
  aesctr := fun _ _ => 7
  g := g
  elementSize := 2
  blake2 := fun _ => List.replicate 32 9
  cpus := cpus
  H := fun _ => []
  ck := fun _ => 0
  read := fun _ n => ok (List.replicate n b)
  intn := fun _ _ _ _ => 0
  coins := fun _ _ _ => ⟨[], [], []⟩
  scalars := fun _ _ => (1, 1)

theorem plain_machine (g : Grp (ZMod 5)) (b : Byte) (cpus : Nat) (hc : 0 < cpus) (hd : Decodes g)
    (he : FixedSize g 2 ∨ ShortIdentity g 2) : DhMachine (plainHost g b cpus) :=
  ⟨fun _ _ => ⟨_, rfl, List.length_replicate⟩, fun _ _ _ _ h => h, hd, he, fun _ => List.length_replicate, hc⟩

/-- C69 is false for the configuration of the repository: with a database of zeros nothing is retrieved in groups that encode
the neutral element in one byte. -/
theorem C69_refuted : ¬ C69_Statement := by
  intro h
  obtain ⟨results, hr, -⟩ := h (ZMod 5) (plainHost shortGroup 0 8) ⟨[8192, 8388608, 8589934592], 30, "cmp-vpir-dh", 0, 0⟩ rfl
    (by intro dl hdl; simp at hdl; omega) (plain_machine _ _ _ (by omega) shortGroup_decodes (Or.inr shortGroup_short))
    (by
      intro d dl _ j _
      show (1 : Int) • hashIndexToGroup shortGroup (0 % side dl) ≠ 0
      rw [Nat.zero_mod]
      decide)
  exact C69_zero_row (plainHost shortGroup 0 8) _ rfl
    (plain_machine _ _ _ (by omega) shortGroup_decodes (Or.inr shortGroup_short)) shortGroup_short (by norm_num) 8192
    (by simp) (by norm_num) (by norm_num) (fun d => ⟨_, 0, rfl, side_pos (by norm_num), fun j _ => by
      rw [List.getD_eq_getElem?_getD, List.getElem?_replicate]
      split <;> rfl⟩) results hr

/-- The configuration of the repository on a machine with eight processors and encodings of one size. -/
example : ∃ results, main (plainHost fixedGroup 1 8) ⟨[8192, 8388608, 8589934592], 30, "cmp-vpir-dh", 0, 0⟩ = ok results ∧
    reported results (2 ^ 23) = some (List.replicate 30 (dhChunk 2 32 (2 ^ 23))) ∧ reported results (2 ^ 33) = none := by
  obtain ⟨results, h, h'⟩ := C69_fixed_size_partial (plainHost fixedGroup 1 8)
    ⟨[8192, 8388608, 8589934592], 30, "cmp-vpir-dh", 0, 0⟩ rfl (by intro dl hdl; simp at hdl; omega)
    (plain_machine _ _ _ (by omega) fixedGroup_decodes (Or.inl fixedGroup_fixed)) fixedGroup_fixed
    (by
      intro d dl _ j _
      show (1 : Int) • hashIndexToGroup fixedGroup (0 % side dl) ≠ 0
      rw [Nat.zero_mod]
      decide)
    (by
      intro dl hdl _
      have e1 : side 8192 = 91 := side_unique (side_spec _).1 ((side_spec _).2 (by norm_num)) (by norm_num) (by norm_num)
      have e2 : side 8388608 = 2897 := side_unique (side_spec _).1 ((side_spec _).2 (by norm_num)) (by norm_num) (by norm_num)
      simp at hdl
      rcases hdl with rfl | rfl | rfl
      · rw [e1]; decide
      · rw [e2]; decide
      · omega)
  refine ⟨results, h, ?_, ?_⟩
  · rw [h', if_pos ⟨by simp, by norm_num⟩]
    rfl
  · rw [h', if_neg (by simp)]

/-- The short group with all columns hashed to the same element. -/
def oneGroup : Grp (ZMod 5) := { shortGroup with hashTo := fun _ => 1 }

/-- A database of 64 ones in the group with the short neutral element. -/
example : ∃ results, main (plainHost oneGroup 1 1) ⟨[64], 5, "cmp-vpir-dh", 0, 0⟩ = ok results ∧
    reported results 64 = some (List.replicate 5 ⟨48, 16, 16⟩) := by
  have e : side 64 = 8 := side_unique (side_spec _).1 ((side_spec _).2 (by norm_num)) (by norm_num) (by norm_num)
  obtain ⟨results, h, h'⟩ := C69_finishes_partial (plainHost oneGroup 1 1) ⟨[64], 5, "cmp-vpir-dh", 0, 0⟩ rfl
    (by intro dl hdl; simp at hdl; omega)
    (plain_machine _ _ _ (by omega) shortGroup_decodes (Or.inr shortGroup_short))
    (by intro dl hdl _; simp at hdl; rw [hdl, e]; decide)
    (by
      intro d dl hd _ data hdata
      have hd' : dl = 64 := by simpa using List.mem_of_getElem? hd
      subst hd'
      have : data = List.replicate (side 64 * side 64) 1 := by cases hdata; rfl
      subst this
      unfold FullDigests bitsDb
      rw [e]
      have key : Usable oneGroup (⟨(List.replicate (8 * 8) (1 : Byte)).map (fun b => b &&& 1), ⟨8, 8, 2, [], []⟩⟩ : Elliptic) 1 1 0 :=
        ⟨by decide, by decide, by decide⟩
      exact ⟨by decide, fun j _ => key⟩)
  refine ⟨results, h, ?_⟩
  rw [h', if_pos ⟨by simp, by norm_num⟩]
  unfold dhChunk
  rw [e]
  rfl

example : DhMachine (plainHost fixedGroup 1 64) ∧ (plainHost fixedGroup 1 64).cpus = 64 :=
  ⟨plain_machine _ _ _ (by omega) fixedGroup_decodes (Or.inl fixedGroup_fixed), rfl⟩

end Verif.Local
