import Verif.Lemmas.Local
import Verif.Props.Dh

/-! # C68: the single-machine experiments with the LWE schemes -/

namespace Verif.Local
open Res Verif.Client Verif.Matrix Verif.Lwe Verif.Local.Spec Finset

variable {G : Type} [AddCommGroup G] [DecidableEq G]

/-! ### Sizes -/

omit [AddCommGroup G] [DecidableEq G] in
theorem pirLWE_sizes {M : Host G} {d : Nat} {data : List Byte} {c : Nat} {db : Db 32}
    (hdb : createRandomBinary lwe32 M.aesctr 1100 data c c = ok db) {n t : Nat} {r : List (Chunk × Nat × Nat × U32)}
    (h : pirLWE M d db n t = ok r) :
    r.map (·.1) = List.replicate n ⟨1100 * c * 4, c * 4 * (t * 2 + 1), c * 4 * (t * 2 + 1)⟩ := by
  obtain ⟨s1, s2, s3, s4, s5, s6⟩ := create_shape shapes32 hdb
  unfold pirLWE at h
  refine forLoop_inv_ok (P := fun m (r : List (Chunk × Nat × Nat × U32)) => r.map (·.1) =
    List.replicate m ⟨1100 * c * 4, c * 4 * (t * 2 + 1), c * 4 * (t * 2 + 1)⟩) rfl ?_ h
  intro j r r' _ ih hb
  obtain ⟨ii, -, hb⟩ := bind_eq_ok.mp hb
  obtain ⟨jj, -, hb⟩ := bind_eq_ok.mp hb
  obtain ⟨qs, hqs, hb⟩ := bind_eq_ok.mp hb
  obtain ⟨as, has, hb⟩ := bind_eq_ok.mp hb
  obtain ⟨bit, -, hb⟩ := bind_eq_ok.mp hb
  obtain ⟨q0, hq0, hb⟩ := bind_eq_ok.mp hb
  obtain ⟨a0, ha0, hb⟩ := bind_eq_ok.mp hb
  cases hb
  unfold amplifyQuery at hqs
  unfold amplifyAnswer at has
  obtain ⟨l1, f1⟩ := mapM_forall hqs
  obtain ⟨l2, f2⟩ := mapM_forall has
  have hq : ∀ q ∈ qs.map (·.2), q.rows = 1 ∧ q.cols = c := by
    intro q hq
    obtain ⟨x, hx, rfl⟩ := List.mem_map.mp hq
    obtain ⟨co, -, hco⟩ := f1 x hx
    have := query_shape shapes32 (st := x.1) (q := x.2) hco
    rw [show (paramsWithDatabaseSize db.numRows db.numColumns).l = db.numRows from rfl, s1] at this
    exact this
  have mem_of : ∀ {l : List (Mat 32)} {x : Mat 32}, idx l 0 = ok x → x ∈ l := by
    intro l x h
    rw [idx_eq_ok] at h
    exact List.mem_of_getElem? h
  obtain ⟨qr, qc⟩ := hq q0 (mem_of hq0)
  obtain ⟨q', hq', ha'⟩ := f2 a0 (mem_of ha0)
  have sa := mulGo_shape ha'
  rw [List.map_append, ih, List.replicate_succ']
  congr 1
  simp only [List.map_cons, List.map_nil]
  unfold bytesSize
  rw [s5, s6, qr, qc, sa.1, sa.2, (hq q' hq').1, s4, l2, List.length_map, l1, List.length_map, List.length_range]
  congr 2
  · ring
  · ring

omit [AddCommGroup G] [DecidableEq G] in
theorem pirLWE128_sizes {M : Host G} {d : Nat} {data : List Byte} {c : Nat} {db : Db 128}
    (hdb : createRandomBinary lwe128 M.aesctr 4800 data c c = ok db) {n : Nat} {r : List (Chunk × Nat × Nat × U32)}
    (h : pirLWE128 M d db n = ok r) : r.map (·.1) = List.replicate n ⟨4800 * c * 16, c * 16, c * 16⟩ := by
  obtain ⟨s1, s2, s3, s4, s5, s6⟩ := create_shape shapes128 hdb
  unfold pirLWE128 at h
  refine forLoop_inv_ok (P := fun m (r : List (Chunk × Nat × Nat × U32)) => r.map (·.1) =
    List.replicate m ⟨4800 * c * 16, c * 16, c * 16⟩) rfl ?_ h
  intro j r r' _ ih hb
  obtain ⟨ii, -, hb⟩ := bind_eq_ok.mp hb
  obtain ⟨jj, -, hb⟩ := bind_eq_ok.mp hb
  obtain ⟨⟨st, q⟩, hq, hb⟩ := bind_eq_ok.mp hb
  obtain ⟨a, ha, hb⟩ := bind_eq_ok.mp hb
  obtain ⟨bit, -, hb⟩ := bind_eq_ok.mp hb
  cases hb
  have hqs := query_shape shapes128 hq
  rw [show (paramsWithDatabaseSize128 db.numRows db.numColumns).l = db.numRows from rfl, s1] at hqs
  have has := shapes128.binMul ha
  have e1 : bytesSize 16 db.digest = 4800 * c * 16 := by unfold bytesSize; rw [s5, s6]
  have e2 : bytesSize 16 q = c * 16 := by unfold bytesSize; rw [hqs.1, hqs.2, Nat.one_mul]
  have e3 : bytesSize 16 a = c * 16 := by unfold bytesSize; rw [has.1, has.2, hqs.1, s4, Nat.one_mul]
  rw [List.map_append, ih, List.replicate_succ', List.map_cons, List.map_nil, e1, e2, e3]

/-- The chunk of a length. -/
def lweExpected (s : Config) (dl : Nat) : Chunk := if s.primitive = "cmp-vpir-lwe" then lweChunk dl else lwe128Chunk dl

omit [AddCommGroup G] [DecidableEq G] in
theorem tECC_amplification {dl t : Nat} (h : tECC dl = some t) : t * 2 + 1 = amplification dl := by
  unfold tECC at h
  unfold amplification
  norm_num
  split at h
  · cases h; rw [if_pos (by assumption)]
  · split at h
    · cases h; rw [if_neg (by assumption), if_pos (by assumption)]
    · split at h
      · cases h; rw [if_neg (by assumption), if_neg (by assumption)]
      · cases h

theorem runLength_lwe {M : Host G} {s : Config} (hp : s.primitive = "cmp-vpir-lwe" ∨ s.primitive = "cmp-vpir-lwe-128")
    {d dl : Nat} (hdl : dl ≤ 2 ^ 52) {r : Option (List Chunk)} (h : runLength M s d dl = ok r) :
    r = some (List.replicate s.repetitions (lweExpected s dl)) := by
  unfold runLength at h
  rcases hp with hp | hp <;> rw [hp] at h <;>
    simp only [show ¬ ("cmp-vpir-lwe" = "cmp-vpir-dh") by decide, show ¬ ("cmp-vpir-lwe-128" = "cmp-vpir-dh") by decide,
      show ¬ ("cmp-vpir-lwe-128" = "cmp-vpir-lwe") by decide, if_false, if_true, false_and, layout_eq hdl] at h
  · obtain ⟨data, -, h⟩ := bind_eq_ok.mp h
    obtain ⟨db, hdb, h⟩ := bind_eq_ok.mp h
    cases ht : tECC dl with
    | none => rw [ht] at h; cases h
    | some t =>
      rw [ht] at h
      obtain ⟨x, hx, h⟩ := bind_eq_ok.mp h
      cases h
      rw [pirLWE_sizes hdb hx]
      unfold lweExpected lweChunk
      rw [if_pos hp, tECC_amplification ht]
  · obtain ⟨data, -, h⟩ := bind_eq_ok.mp h
    obtain ⟨db, hdb, h⟩ := bind_eq_ok.mp h
    obtain ⟨x, hx, h⟩ := bind_eq_ok.mp h
    cases h
    rw [pirLWE128_sizes hdb hx]
    unfold lweExpected lwe128Chunk
    rw [if_neg (by rw [hp]; decide)]

theorem reported_mset (results : List (Nat × List Chunk)) (k : Nat) (v : List Chunk) (n : Nat) :
    reported (Pgp.mset results k v) n = if n = k then some v else reported results n := by
  unfold reported Pgp.mset
  by_cases h : n = k
  · subst h
    simp
  · rw [if_neg h, List.find?_cons_of_neg (by simpa using fun e => h e.symm)]
    congr 1
    rw [List.find?_filter]
    congr 1
    funext e
    by_cases he : e.1 = n
    · simp [he, h]
    · simp [he]

theorem reported_main {M : Host G} {s : Config} {results : List (Nat × List Chunk)} (P : Nat → Option (List Chunk))
    (hP : ∀ d dl r, s.dbBitLengths[d]? = some dl → runLength M s d dl = ok r → r = P dl)
    (h : main M s = ok results) (dl : Nat) :
    reported results dl = if dl ∈ s.dbBitLengths then P dl else none := by
  unfold main at h
  split at h
  · cases h
  have := forLoop_inv_ok (P := fun m (results : List (Nat × List Chunk)) =>
    ∀ dl, reported results dl = if dl ∈ s.dbBitLengths.take m then P dl else none) (by intro dl; simp [reported]) ?_ h
  · rw [this dl, List.take_length]
  intro d rs rs' hd ih hb dl
  obtain ⟨dl', hdl', hb⟩ := bind_eq_ok.mp hb
  obtain ⟨r, hr, hb⟩ := bind_eq_ok.mp hb
  rw [idx_eq_ok] at hdl'
  have hr' := hP d dl' r hdl' hr
  have htake : s.dbBitLengths.take (d + 1) = s.dbBitLengths.take d ++ [dl'] := by
    rw [List.take_add_one, hdl']
    rfl
  have hmem : dl ∈ s.dbBitLengths.take (d + 1) ↔ dl ∈ s.dbBitLengths.take d ∨ dl = dl' := by
    rw [htake]
    simp
  simp only [hmem]
  cases r with
  | none =>
    cases hb
    rw [ih dl]
    by_cases he : dl = dl'
    · subst he
      rw [← hr']
      simp
    · simp [he]
  | some chunks =>
    cases hb
    rw [reported_mset, ih dl]
    by_cases he : dl = dl'
    · subst he
      rw [← hr']
      simp
    · simp [he]

/-- C68: whenever the program finishes, whatever the randomness, it reports for every configured length exactly the configured
number of repetitions, each with the sizes of the digest, the query and the answer of a square database of that length, and
nothing for other lengths. -/
theorem C68_sizes (M : Host G) (s : Config) (hp : s.primitive = "cmp-vpir-lwe" ∨ s.primitive = "cmp-vpir-lwe-128")
    (h52 : ∀ dl ∈ s.dbBitLengths, dl ≤ 2 ^ 52) (results : List (Nat × List Chunk)) (h : main M s = ok results) (dl : Nat) :
    reported results dl = if dl ∈ s.dbBitLengths then some (List.replicate s.repetitions (lweExpected s dl)) else none :=
  reported_main (fun dl => some (List.replicate s.repetitions (lweExpected s dl)))
    (fun _ dl _ hd hr => runLength_lwe hp (h52 dl (List.mem_of_getElem? hd)) hr) h dl

/-! ### Retrieved bits -/

/-- The settings of a sound run. -/
theorem setup32 {aesctr : List Byte → Nat → Byte} {c : Nat} {data : List Byte} (hd : data.length = c * c / 8 + 1)
    (hc0 : 0 < c) (hc : c ≤ 46340) : ∃ db, createRandomBinary lwe32 aesctr 1100 data c c = ok db ∧ db.numRows = c ∧
      db.numColumns = c ∧ (∀ i j, i < c → j < c →
        storedBit db.matrix i j = ((data.getD ((i * c + j) / 8) 0).toNat / 2 ^ ((i * c + j) % 8)) % 2) ∧
      ∀ co, SoundCoins 4 c co → Setup lwe32 aesctr (paramsWithDatabaseSize c c) db co ∧
        (∀ k, |columnNoise (fun r => co.noise.getD r 0) db.matrix db.numRows k| < 84 * c) := by
  have hcc : c * c ≤ 46340 * 46340 := Nat.mul_le_mul hc hc
  have hf : FitsInt 1100 c c := ⟨by omega, hc0, hc0, by omega, by omega, by omega, by omega, by omega, by omega⟩
  obtain ⟨db, hdb, hv, hr, hco, hg, hbits⟩ := C30_random_database aesctr 1100 c c data hd hf
  refine ⟨db, hdb, hr, hco, hbits, fun co hs => ⟨⟨hv, ⟨hr.symm, hco.symm, rfl⟩, hg, by rw [hr, hco]; exact hf,
    by rw [hs.length, hr], hs.samples⟩, fun k => ?_⟩⟩
  have := columnNoise_le (nz := id) db.matrix hv.bin (hs.length.trans hr.symm) k
  have hm := hs.mean
  simp only [id] at this
  have hm' : (((co.noise.map (fun g => g.natAbs)).sum : Nat) : Int) < ((84 * c : Nat) : Int) :=
    Int.ofNat_lt.mpr (lt_of_lt_of_le hm (by omega))
  push_cast at hm' this ⊢
  exact lt_of_le_of_lt this hm'

theorem setup128 {aesctr : List Byte → Nat → Byte} {c : Nat} {data : List Byte} (hd : data.length = c * c / 8 + 1)
    (hc0 : 0 < c) (hc : c ≤ 46340) : ∃ db, createRandomBinary lwe128 aesctr 4800 data c c = ok db ∧ db.numRows = c ∧
      db.numColumns = c ∧ (∀ i j, i < c → j < c →
        storedBit db.matrix i j = ((data.getD ((i * c + j) / 8) 0).toNat / 2 ^ ((i * c + j) % 8)) % 2) ∧
      ∀ co, SoundCoins 16 c co → Setup lwe128 aesctr (paramsWithDatabaseSize128 c c) db co ∧
        (∀ k, |columnNoise (fun r => noise128 (co.noise.getD r 0)) db.matrix db.numRows k| < 84 * c) := by
  have hcc : c * c ≤ 46340 * 46340 := Nat.mul_le_mul hc hc
  have hf : FitsInt 4800 c c := ⟨by omega, hc0, hc0, by omega, by omega, by omega, by omega, by omega, by omega⟩
  obtain ⟨db, hdb, hv, hr, hco, hg, hbits⟩ := C32_random_database aesctr 4800 c c data hd hf
  refine ⟨db, hdb, hr, hco, hbits, fun co hs => ⟨⟨hv, ⟨hr.symm, hco.symm, rfl⟩, hg, by rw [hr, hco]; exact hf,
    by rw [hs.length, hr], hs.samples⟩, fun k => ?_⟩⟩
  have := columnNoise_le (nz := noise128) db.matrix hv.bin (hs.length.trans hr.symm) k
  have hm := hs.mean
  have hn := noise128_sum co.noise
  rw [hs.length] at hn
  have hm' : (((co.noise.map (fun g => (noise128 g).natAbs)).sum : Nat) : Int) < ((84 * c : Nat) : Int) :=
    Int.ofNat_lt.mpr (by omega)
  push_cast at hm' this ⊢
  exact lt_of_le_of_lt this hm'

/-- Bit number `i` of a byte string. -/
def bitOf (data : List Byte) (i : Nat) : Nat := (data.getD (i / 8) 0).toNat / 2 ^ (i % 8) % 2

omit [AddCommGroup G] [DecidableEq G] in
/-- C68, one database of the 32-bit scheme: every repetition retrieves the bit stored at the position drawn. Missing from the
full claim: databases of more than 46340 rows, for which the products overflow. -/
theorem C68_lwe_rounds_partial (M : Host G) (d c n t : Nat) (data : List Byte) (hd : data.length = c * c / 8 + 1)
    (hc0 : 0 < c) (hc : c ≤ 46340) (hi : ∀ j which n, 0 < n → M.intn d j which n < n)
    (hco : ∀ j i, SoundCoins 4 c (M.coins d j i)) :
    ∃ db, createRandomBinary lwe32 M.aesctr 1100 data c c = ok db ∧ ∃ r, pirLWE M d db n t = ok r ∧ r.length = n ∧
      ∀ x ∈ r, x.2.1 < c ∧ x.2.2.1 < c ∧ x.2.2.2 = BitVec.ofNat 32 (bitOf data (x.2.1 * c + x.2.2.1)) := by
  obtain ⟨db, hdb, hr, hcs, hbits, hset⟩ := setup32 (aesctr := M.aesctr) hd hc0 hc
  refine ⟨db, hdb, ?_⟩
  have hb := params_b c c (show 84 * c < 2 ^ 32 by omega)
  unfold pirLWE
  rw [hr, hcs]
  obtain ⟨r, h1, h2, h3⟩ := forLoop_inv (n := n) (s := ([] : List (Chunk × Nat × Nat × U32))) (body := fun j results => do
      let ii ← draw (M.intn d j 0) c
      let jj ← draw (M.intn d j 1) c
      let qs ← amplifyQuery M.aesctr (paramsWithDatabaseSize c c) db.digest ((List.range (t * 2 + 1)).map (M.coins d j)) ii jj
      let query := qs.map (·.2)
      let answer ← amplifyAnswer db query
      let bit ← orFatal (amplifyReconstruct (paramsWithDatabaseSize c c) (qs.map (·.1)) answer)
      let q0 ← idx query 0
      let a0 ← idx answer 0
      ok (results ++ [(⟨bytesSize 4 db.digest, bytesSize 4 q0 * query.length, answer.length * bytesSize 4 a0⟩, ii, jj, bit)]))
    (fun m (r : List (Chunk × Nat × Nat × U32)) => r.length = m ∧
      ∀ x ∈ r, x.2.1 < c ∧ x.2.2.1 < c ∧ x.2.2.2 = BitVec.ofNat 32 (bitOf data (x.2.1 * c + x.2.2.1))) (by simp) (by
      intro j r _ ⟨ih1, ih2⟩
      have hii := hi j 0 c hc0
      have hjj := hi j 1 c hc0
      have hcoin : ∀ co ∈ (List.range (t * 2 + 1)).map (M.coins d j), SoundCoins 4 c co := by
        intro co hco'
        obtain ⟨i, -, rfl⟩ := List.mem_map.mp hco'
        exact hco j i
      obtain ⟨ms, as, e1, e2, e3, e4, -, -, e5⟩ := amplify_exchange M.aesctr (paramsWithDatabaseSize c c) db
        ((List.range (t * 2 + 1)).map (M.coins d j)) t (by simp; omega) (fun co h => (hset co (hcoin co h)).1)
        (M.intn d j 0 c) (M.intn d j 1 c) (hr.symm ▸ hii) (hcs.symm ▸ hjj) (by omega)
        (fun co h k _ => by have := (hset co (hcoin co h)).2 k; rw [hb]; push_cast; exact this)
        (fun co h => by have h1 := (hcoin co h).low; have h2 := (hcoin co h).high; rw [hb]; omega)
      have hl : 0 < ((List.range (t * 2 + 1)).map (M.coins d j)).length := by simp
      rw [draw_ok _ hc0, ok_bind, draw_ok _ hc0, ok_bind, e1, ok_bind]
      dsimp only
      rw [e2, ok_bind, e5, Client.orFatal_ok, ok_bind, idx_of_lt (by simpa using by omega), ok_bind,
        idx_of_lt (by omega), ok_bind]
      refine ⟨_, rfl, by simp [ih1], fun x hx => ?_⟩
      rcases List.mem_append.mp hx with hx | hx
      · exact ih2 x hx
      · rw [List.mem_singleton] at hx
        subst hx
        exact ⟨hii, hjj, by rw [hbits _ _ hii hjj]; rfl⟩)
  exact ⟨r, h1, h2, h3⟩

omit [AddCommGroup G] [DecidableEq G] in
/-- C68, one database of the 128-bit scheme. -/
theorem C68_lwe128_rounds_partial (M : Host G) (d c n : Nat) (data : List Byte) (hd : data.length = c * c / 8 + 1)
    (hc0 : 0 < c) (hc : c ≤ 46340) (hi : ∀ j which n, 0 < n → M.intn d j which n < n)
    (hco : ∀ j i, SoundCoins 16 c (M.coins d j i)) :
    ∃ db, createRandomBinary lwe128 M.aesctr 4800 data c c = ok db ∧ ∃ r, pirLWE128 M d db n = ok r ∧ r.length = n ∧
      ∀ x ∈ r, x.2.1 < c ∧ x.2.2.1 < c ∧ x.2.2.2 = BitVec.ofNat 32 (bitOf data (x.2.1 * c + x.2.2.1)) := by
  obtain ⟨db, hdb, hr, hcs, hbits, hset⟩ := setup128 (aesctr := M.aesctr) hd hc0 hc
  refine ⟨db, hdb, ?_⟩
  have hb := params128_b c c (show 84 * c < 2 ^ 32 by omega)
  unfold pirLWE128
  rw [hr, hcs]
  obtain ⟨r, h1, h2, h3⟩ := forLoop_inv (n := n) (s := ([] : List (Chunk × Nat × Nat × U32))) (body := fun j results => do
      let ii ← draw (M.intn d j 0) c
      let jj ← draw (M.intn d j 1) c
      let (st, query) ← query lwe128 M.aesctr (paramsWithDatabaseSize128 c c) db.digest (M.coins d j 0) ii jj
      let answer ← answer lwe128 db query
      let bit ← orFatal (reconstruct lwe128 (paramsWithDatabaseSize128 c c) st answer)
      ok (results ++ [(⟨bytesSize 16 db.digest, bytesSize 16 query, bytesSize 16 answer⟩, ii, jj, bit)]))
    (fun m (r : List (Chunk × Nat × Nat × U32)) => r.length = m ∧
      ∀ x ∈ r, x.2.1 < c ∧ x.2.2.1 < c ∧ x.2.2.2 = BitVec.ofNat 32 (bitOf data (x.2.1 * c + x.2.2.1))) (by simp) (by
      intro j r _ ⟨ih1, ih2⟩
      have hii := hi j 0 c hc0
      have hjj := hi j 1 c hc0
      have hs := hco j 0
      obtain ⟨hset1, hset2⟩ := hset _ hs
      have hlow := hs.low
      have hhigh := hs.high
      have ht : (coinT lwe128 (M.coins d j 0)).toNat = multiplier 16 (M.coins d j 0) := by
        rw [coinT128]; omega
      obtain ⟨st, q, a, e1, e2, -, e3⟩ := reconstruct_honest M.aesctr (paramsWithDatabaseSize128 c c)
        (good128 _ (by rw [hb]; omega)) db hset1.valid hset1.params hset1.digest hset1.fits _ hset1.noiseLen hset1.noise
        (M.intn d j 0 c) (M.intn d j 1 c) (hr.symm ▸ hii) (hcs.symm ▸ hjj) (fun k _ => by
          have := abs_lt.mp (hset2 k)
          rw [hb]
          push_cast
          omega)
        (not_within128 (by rw [hb]; omega) (by rw [hb]; omega))
      rw [draw_ok _ hc0, ok_bind, draw_ok _ hc0, ok_bind, e1, ok_bind]
      dsimp only
      rw [e2, ok_bind, e3, Client.orFatal_ok, ok_bind]
      refine ⟨_, rfl, by simp [ih1], fun x hx => ?_⟩
      rcases List.mem_append.mp hx with hx | hx
      · exact ih2 x hx
      · rw [List.mem_singleton] at hx
        subst hx
        exact ⟨hii, hjj, by rw [hbits _ _ hii hjj]; rfl⟩)
  exact ⟨r, h1, h2, h3⟩

theorem draw_eq_ok {intn : Nat → Nat} {n i : Nat} (h : draw intn n = ok i) : i = intn n := by
  unfold draw at h
  split at h
  · cases h
  · cases h; rfl

omit [AddCommGroup G] [DecidableEq G] in
/-- C68: the repetitions retrieve the bits at the rows and columns drawn, for a database of any shape. -/
theorem C68_positions (M : Host G) (d : Nat) (db : Db 32) (n t : Nat) (r : List (Chunk × Nat × Nat × U32))
    (h : pirLWE M d db n t = ok r) : r.map (fun x => (x.2.1, x.2.2.1)) =
      (List.range n).map (fun j => (M.intn d j 0 db.numRows, M.intn d j 1 db.numColumns)) := by
  unfold pirLWE at h
  refine forLoop_inv_ok (P := fun m (r : List (Chunk × Nat × Nat × U32)) => r.map (fun x => (x.2.1, x.2.2.1)) =
    (List.range m).map (fun j => (M.intn d j 0 db.numRows, M.intn d j 1 db.numColumns))) rfl ?_ h
  intro j r r' _ ih hb
  obtain ⟨ii, hii, hb⟩ := bind_eq_ok.mp hb
  obtain ⟨jj, hjj, hb⟩ := bind_eq_ok.mp hb
  obtain ⟨qs, -, hb⟩ := bind_eq_ok.mp hb
  obtain ⟨as, -, hb⟩ := bind_eq_ok.mp hb
  obtain ⟨bit, -, hb⟩ := bind_eq_ok.mp hb
  obtain ⟨q0, -, hb⟩ := bind_eq_ok.mp hb
  obtain ⟨a0, -, hb⟩ := bind_eq_ok.mp hb
  cases hb
  rw [draw_eq_ok hii, draw_eq_ok hjj, List.map_append, ih, List.range_succ, List.map_append]
  rfl

omit [AddCommGroup G] [DecidableEq G] in
/-- C68, the same for the 128-bit scheme. -/
theorem C68_positions128 (M : Host G) (d : Nat) (db : Db 128) (n : Nat) (r : List (Chunk × Nat × Nat × U32))
    (h : pirLWE128 M d db n = ok r) : r.map (fun x => (x.2.1, x.2.2.1)) =
      (List.range n).map (fun j => (M.intn d j 0 db.numRows, M.intn d j 1 db.numColumns)) := by
  unfold pirLWE128 at h
  refine forLoop_inv_ok (P := fun m (r : List (Chunk × Nat × Nat × U32)) => r.map (fun x => (x.2.1, x.2.2.1)) =
    (List.range m).map (fun j => (M.intn d j 0 db.numRows, M.intn d j 1 db.numColumns))) rfl ?_ h
  intro j r r' _ ih hb
  obtain ⟨ii, hii, hb⟩ := bind_eq_ok.mp hb
  obtain ⟨jj, hjj, hb⟩ := bind_eq_ok.mp hb
  obtain ⟨x, -, hb⟩ := bind_eq_ok.mp hb
  obtain ⟨a, -, hb⟩ := bind_eq_ok.mp hb
  obtain ⟨bit, -, hb⟩ := bind_eq_ok.mp hb
  cases hb
  rw [draw_eq_ok hii, draw_eq_ok hjj, List.map_append, ih, List.range_succ, List.map_append]
  rfl

/-! ### When the program finishes -/

theorem create_fits {aesctr : List Byte → Nat → Byte} {n : Nat} {data : List Byte} {c : Nat} (hn : n < 2 ^ 31)
    (hc0 : 0 < c) (hc : c < 2 ^ 31) :
    (∀ db, createRandomBinary lwe32 aesctr n data c c = ok db → c * c ≤ 2 ^ 31) ∧
      ∀ db, createRandomBinary lwe128 aesctr n data c c = ok db → c * c ≤ 2 ^ 31 := by
  have hm : ∀ {m m' : Mat 8}, fillBits data m = ok m' → m'.rows = m.rows ∧ m'.cols = m.cols := by
    intro m m' h
    obtain ⟨d, -, h⟩ := bind_eq_ok.mp h
    cases h
    exact ⟨rfl, rfl⟩
  constructor
  · intro db h
    obtain ⟨m, h1, h⟩ := bind_eq_ok.mp h
    obtain ⟨g, h2, -⟩ := bind_eq_ok.mp h
    obtain ⟨e1, e2⟩ := hm h1
    have h3 : mulGo andOp (seedMatrix aesctr 32 4 seedMatrixA n c) m = ok g := h2
    have := (C36_computed_only_if_fits andOp (seedMatrix aesctr 32 4 seedMatrixA n c) m g hn hc (by rw [e2]; exact hc) h3 hc0).1
    rw [e2] at this
    exact this.2.2.2.2.2.2.2.1
  · intro db h
    obtain ⟨m, h1, h⟩ := bind_eq_ok.mp h
    obtain ⟨g, h2, -⟩ := bind_eq_ok.mp h
    obtain ⟨e1, e2⟩ := hm h1
    have h3 : binaryMul128 (seedMatrix aesctr 128 16 seedMatrixA n c) m = ok g := h2
    unfold binaryMul128 at h3
    split at h3
    · cases h3
    obtain ⟨aa, -, h3⟩ := bind_eq_ok.mp h3
    obtain ⟨_, -, h3⟩ := bind_eq_ok.mp h3
    obtain ⟨_, -, h3⟩ := bind_eq_ok.mp h3
    obtain ⟨_, hz, h3⟩ := bind_eq_ok.mp h3
    obtain ⟨t, ht, -⟩ := bind_eq_ok.mp h3
    have hn0 : 0 < n := by
      by_contra h0
      have h0 : n = 0 := by omega
      unfold slice at hz
      rw [if_neg (by
        rw [show (seedMatrix aesctr 128 16 seedMatrixA n c).rows = n from rfl, h0, Nat.zero_mul]
        simp)] at hz
      cases hz
    have := (kernel_fits andOp n c m.cols hn hc (by rw [e2]; exact hc) hn0 hc0 (by rw [e2]; exact hc0) _ _ _ _ ht).1
    rw [e2] at this
    exact this.2.2.2.2.2.2.2.1

/-- C68: a configured length above 46340² bits makes the program fail with either scheme, whatever the randomness: the matrix
products index more than 2^31 numbers with the `int` of C. -/
theorem C68_overflows (M : Host G) (s : Config) (hp : s.primitive = "cmp-vpir-lwe" ∨ s.primitive = "cmp-vpir-lwe-128")
    (dl : Nat) (hmem : dl ∈ s.dbBitLengths) (hlo : 46340 * 46340 < dl) (hhi : dl ≤ 2 ^ 52) (results : List (Nat × List Chunk)) :
    main M s ≠ ok results := by
  intro h
  unfold main at h
  split at h
  · cases h
  obtain ⟨d, hd, he⟩ := List.getElem_of_mem hmem
  have hs1 := (side_spec dl).1
  have hc : 46341 ≤ side dl := by
    by_contra hlt
    have : side dl * side dl ≤ 46340 * 46340 := Nat.mul_le_mul (by omega) (by omega)
    omega
  have hc2 : side dl ≤ 2 ^ 26 := side_le (by rw [← pow_add]; exact hhi)
  have hcc : 46341 * 46341 ≤ side dl * side dl := Nat.mul_le_mul hc hc
  obtain ⟨t, t', hb⟩ := forLoop_at h d hd
  obtain ⟨dl', hdl', hb⟩ := bind_eq_ok.mp hb
  obtain ⟨r, hr, -⟩ := bind_eq_ok.mp hb
  rw [idx_of_lt hd, he] at hdl'
  cases hdl'
  unfold runLength at hr
  have hf : ∀ data n, n < 2 ^ 31 → _ := fun data n hn =>
    create_fits (aesctr := M.aesctr) (data := data) (n := n) (c := side dl) hn (by omega) (by omega)
  rcases hp with hp | hp <;> rw [hp] at hr <;>
    simp only [show ¬ ("cmp-vpir-lwe" = "cmp-vpir-dh") by decide, show ¬ ("cmp-vpir-lwe-128" = "cmp-vpir-dh") by decide,
      show ¬ ("cmp-vpir-lwe-128" = "cmp-vpir-lwe") by decide, if_false, if_true, false_and, layout_eq hhi] at hr
  · obtain ⟨data, -, hr⟩ := bind_eq_ok.mp hr
    obtain ⟨db, hdb, -⟩ := bind_eq_ok.mp hr
    have := (hf data 1100 (by norm_num)).1 db hdb
    omega
  · obtain ⟨data, -, hr⟩ := bind_eq_ok.mp hr
    obtain ⟨db, hdb, -⟩ := bind_eq_ok.mp hr
    have := (hf data 4800 (by norm_num)).2 db hdb
    omega

/-- C68: the 32-bit scheme knows three lengths only; any other one makes the program fail. -/
theorem C68_unknown_length (M : Host G) (s : Config) (hp : s.primitive = "cmp-vpir-lwe") (dl : Nat)
    (hmem : dl ∈ s.dbBitLengths) (hdl : dl ≠ 2 ^ 13 ∧ dl ≠ 2 ^ 23 ∧ dl ≠ 2 ^ 33) (results : List (Nat × List Chunk)) :
    main M s ≠ ok results := by
  intro h
  unfold main at h
  split at h
  · cases h
  obtain ⟨d, hd, he⟩ := List.getElem_of_mem hmem
  obtain ⟨t, t', hb⟩ := forLoop_at h d hd
  obtain ⟨dl', hdl', hb⟩ := bind_eq_ok.mp hb
  obtain ⟨r, hr, -⟩ := bind_eq_ok.mp hb
  rw [idx_of_lt hd, he] at hdl'
  cases hdl'
  unfold runLength at hr
  rw [hp] at hr
  simp only [show ¬ ("cmp-vpir-lwe" = "cmp-vpir-dh") by decide, if_false, if_true, false_and] at hr
  obtain ⟨data, -, hr⟩ := bind_eq_ok.mp hr
  obtain ⟨db, hdb, hr⟩ := bind_eq_ok.mp hr
  have : tECC dl = none := by
    unfold tECC
    norm_num at hdl
    rw [if_neg hdl.1, if_neg hdl.2.1, if_neg hdl.2.2]
  rw [this] at hr
  cases hr

/-- C68, the full claim: the experiment on the lengths of the paper finishes and reports the sizes of the messages. -/
def C68_Statement : Prop :=
  ∀ (G : Type) [AddCommGroup G] [DecidableEq G] (M : Host G) (s : Config),
    (s.primitive = "cmp-vpir-lwe" ∨ s.primitive = "cmp-vpir-lwe-128") →
    (∀ dl ∈ s.dbBitLengths, dl = 2 ^ 13 ∨ dl = 2 ^ 23 ∨ dl = 2 ^ 33) → Sound M s →
    ∃ results, main M s = ok results ∧ ∀ dl, reported results dl =
      if dl ∈ s.dbBitLengths then
        some (List.replicate s.repetitions (if s.primitive = "cmp-vpir-lwe" then lweChunk dl else lwe128Chunk dl)) else none

/-- C68 for the 32-bit scheme on 1 KiB and 1 MiB, and for the 128-bit scheme on any length up to 46340² bits. Missing from the
full claim: 1 GiB, where it is false (`C68_overflows`). -/
theorem C68_finishes_partial (M : Host G) (s : Config)
    (hp : s.primitive = "cmp-vpir-lwe" ∧ (∀ dl ∈ s.dbBitLengths, dl = 2 ^ 13 ∨ dl = 2 ^ 23) ∨
      s.primitive = "cmp-vpir-lwe-128" ∧ (∀ dl ∈ s.dbBitLengths, 0 < dl ∧ dl ≤ 46340 * 46340)) (hM : Sound M s) :
    ∃ results, main M s = ok results ∧ ∀ dl, reported results dl =
      if dl ∈ s.dbBitLengths then
        some (List.replicate s.repetitions (if s.primitive = "cmp-vpir-lwe" then lweChunk dl else lwe128Chunk dl)) else none := by
  have hlen : ∀ dl ∈ s.dbBitLengths, 0 < dl ∧ dl ≤ 46340 * 46340 := by
    intro dl h
    rcases hp with ⟨-, hp⟩ | ⟨-, hp⟩
    · rcases hp dl h with rfl | rfl <;> norm_num
    · exact hp dl h
  have hp' : s.primitive = "cmp-vpir-lwe" ∨ s.primitive = "cmp-vpir-lwe-128" := by
    rcases hp with ⟨h, -⟩ | ⟨h, -⟩
    · exact Or.inl h
    · exact Or.inr h
  suffices ∃ results, main M s = ok results by
    obtain ⟨results, h⟩ := this
    exact ⟨results, h, C68_sizes M s hp' (fun dl h => by have := (hlen dl h).2; omega) results h⟩
  unfold main
  rw [if_neg (by unfold validSimulation; rcases hp' with h | h <;> simp [h])]
  obtain ⟨r, hr, -⟩ := forLoop_inv (n := s.dbBitLengths.length) (s := ([] : List (Nat × List Chunk)))
    (body := fun d results => do
      let dl ← idx s.dbBitLengths d
      let r ← runLength M s d dl
      match r with
      | none => ok results
      | some chunks => ok (Pgp.mset results dl chunks)) (fun _ _ => True) trivial (by
    intro d results hd _
    have hmem : s.dbBitLengths[d] ∈ s.dbBitLengths := List.getElem_mem hd
    obtain ⟨h0, h1⟩ := hlen _ hmem
    have hcoins := hM.coins d _ (List.getElem?_eq_getElem hd)
    rw [idx_of_lt hd, ok_bind]
    generalize hdl : s.dbBitLengths[d] = dl at *
    have hc0 := side_pos h0
    have hc := side_le h1
    obtain ⟨data, hdata, hdl'⟩ := hM.read d (side dl * side dl / 8 + 1)
    suffices ∃ x, runLength M s d dl = ok (some x) by
      obtain ⟨x, hx⟩ := this
      rw [hx, ok_bind]
      exact ⟨_, rfl, trivial⟩
    unfold runLength
    rcases hp with ⟨hp, hp2⟩ | ⟨hp, -⟩ <;> rw [hp] at hcoins ⊢ <;>
      simp only [show ¬ ("cmp-vpir-lwe" = "cmp-vpir-dh") by decide, show ¬ ("cmp-vpir-lwe-128" = "cmp-vpir-dh") by decide,
        show ¬ ("cmp-vpir-lwe-128" = "cmp-vpir-lwe") by decide, if_false, if_true, false_and,
        layout_eq (show dl ≤ 2 ^ 52 by omega), hdata, ok_bind] at hcoins ⊢
    · obtain ⟨t, ht⟩ : ∃ t, tECC dl = some t := by
        rcases hp2 dl hmem with h | h
        · exact ⟨3, by rw [h]; rfl⟩
        · exact ⟨4, by rw [h]; rfl⟩
      obtain ⟨db, hdb, r, hr, -⟩ := C68_lwe_rounds_partial M d (side dl) s.repetitions t data hdl' hc0 hc (hM.intn d)
        (fun j i => hcoins j i)
      rw [hdb, ok_bind, ht]
      dsimp only
      rw [hr, ok_bind]
      exact ⟨_, rfl⟩
    · obtain ⟨db, hdb, r, hr, -⟩ := C68_lwe128_rounds_partial M d (side dl) s.repetitions data hdl' hc0 hc (hM.intn d)
        (fun j i => hcoins j i)
      rw [hdb, ok_bind, hr, ok_bind]
      exact ⟨_, rfl⟩)
  exact ⟨r, hr⟩

/-- The configuration files of the repository: `simul.toml` with `computationalLWE.toml`. -/
def paperConfig : Config := ⟨[8192, 8388608, 8589934592], 30, "cmp-vpir-lwe", 0, 1⟩

/-- A machine with sound randomness: no noise, multiplier 2^30. -/
def quietHost (lengths : List Nat) : Host (ZMod 5) where
  aesctr := fun _ _ => 7
  g := Dh.shortGroup
  elementSize := 2
  blake2 := fun _ => []
  cpus := 1
  H := fun _ => []
  ck := fun _ => 0
  read := fun d n => ok (List.replicate n (BitVec.ofNat 8 (d + 77)))
  intn := fun _ j which n => (j + which) % n
  coins := fun d _ _ => ⟨[0, 0, 0, 64], [], List.replicate (side (lengths.getD d 0)) 0⟩
  scalars := fun _ _ => (0, 0)

theorem quiet_sound (s : Config) (h : ∀ dl ∈ s.dbBitLengths, 0 < dl ∧ dl ≤ 2 ^ 40) :
    Sound (quietHost s.dbBitLengths) s := by
  refine ⟨fun d n => ⟨_, rfl, List.length_replicate⟩, fun d j which n hn => Nat.mod_lt _ hn, fun d dl hd j i => ?_⟩
  obtain ⟨h0, h1⟩ := h dl (List.mem_of_getElem? hd)
  have hc0 := side_pos h0
  have hc : side dl ≤ 2 ^ 20 := side_le (by rw [← pow_add]; exact h1)
  have hnoise : ((quietHost s.dbBitLengths).coins d j i).noise = List.replicate (side dl) 0 := by
    show List.replicate (side (s.dbBitLengths.getD d 0)) (0 : Int) = _
    rw [List.getD_eq_getElem?_getD, hd]
    rfl
  have hm : ∀ k, multiplier (if s.primitive = "cmp-vpir-lwe" then 4 else 16) ((quietHost s.dbBitLengths).coins d j k) = 2 ^ 30 := by
    intro k
    split
    · show ofLE (([0, 0, 0, 64] : List Byte).take 4) = 2 ^ 30
      decide
    · show ofLE (([0, 0, 0, 64] : List Byte).take 16) = 2 ^ 30
      decide
  refine ⟨by rw [hnoise, List.length_replicate], ?_, ?_, ?_, ?_⟩
  · intro g hg
    rw [hnoise, List.mem_replicate] at hg
    rw [hg.2]
    norm_num
  · rw [hnoise, List.map_replicate, List.sum_replicate]
    simp
    omega
  · rw [hm]
    omega
  · rw [hm]
    split <;> omega

/-- C68 is false for the configuration of the repository: the third database, of 1 GiB, is too large. -/
theorem C68_refuted : ¬ C68_Statement := by
  intro h
  obtain ⟨results, hr, -⟩ := h (ZMod 5) (quietHost paperConfig.dbBitLengths) paperConfig (Or.inl rfl)
    (by intro dl hdl; simp [paperConfig] at hdl; omega) (quiet_sound _ (by intro dl hdl; simp [paperConfig] at hdl; omega))
  exact C68_overflows _ paperConfig (Or.inl rfl) (2 ^ 33) (by decide) (by norm_num) (by norm_num) results hr

example : side (2 ^ 13) = 91 ∧ side (2 ^ 23) = 2897 ∧ side (2 ^ 33) = 92682 := by
  refine ⟨?_, ?_, ?_⟩
  · exact side_unique (side_spec _).1 ((side_spec _).2 (by norm_num)) (by norm_num) (by norm_num)
  · exact side_unique (side_spec _).1 ((side_spec _).2 (by norm_num)) (by norm_num) (by norm_num)
  · exact side_unique (side_spec _).1 ((side_spec _).2 (by norm_num)) (by norm_num) (by norm_num)

/-- Without the third length the experiment of the repository finishes. -/
example : ∃ results, main (quietHost [8192, 8388608]) ⟨[8192, 8388608], 30, "cmp-vpir-lwe", 0, 1⟩ = ok results ∧
    reported results 8388608 = some (List.replicate 30 (lweChunk 8388608)) := by
  obtain ⟨results, h, h'⟩ := C68_finishes_partial (quietHost [8192, 8388608]) ⟨[8192, 8388608], 30, "cmp-vpir-lwe", 0, 1⟩
    (Or.inl ⟨rfl, by intro dl hdl; simp at hdl; omega⟩) (quiet_sound ⟨[8192, 8388608], 30, "cmp-vpir-lwe", 0, 1⟩ (by intro dl hdl; simp at hdl; omega))
  refine ⟨results, h, ?_⟩
  rw [h']
  rfl

example : ∃ results, main (quietHost [1000]) ⟨[1000], 3, "cmp-vpir-lwe-128", 0, 1⟩ = ok results ∧
    reported results 1000 = some (List.replicate 3 ⟨4800 * 32 * 16, 32 * 16, 32 * 16⟩) := by
  obtain ⟨results, h, h'⟩ := C68_finishes_partial (quietHost [1000]) ⟨[1000], 3, "cmp-vpir-lwe-128", 0, 1⟩
    (Or.inr ⟨rfl, by intro dl hdl; simp at hdl; omega⟩) (quiet_sound ⟨[1000], 3, "cmp-vpir-lwe-128", 0, 1⟩ (by intro dl hdl; simp at hdl; omega))
  refine ⟨results, h, ?_⟩
  rw [h', if_pos (by simp), if_neg (by decide)]
  have : side 1000 = 32 := side_unique (side_spec _).1 ((side_spec _).2 (by norm_num)) (by norm_num) (by norm_num)
  unfold lwe128Chunk
  rw [this]

/-- The bits of one repetition: the database of bytes 77, position (0, 1) in repetition 0. -/
example : SoundCoins 4 91 ((quietHost [8192]).coins 0 0 0) := by
  have := (quiet_sound ⟨[8192], 1, "cmp-vpir-lwe", 0, 1⟩ (by intro dl hdl; simp at hdl; omega)).coins 0 8192 rfl 0 0
  rwa [if_pos rfl, show side 8192 = 91 from
    side_unique (side_spec _).1 ((side_spec _).2 (by norm_num)) (by norm_num) (by norm_num)] at this

/-- Ten repetitions on a database with 4 rows and columns, as in `C68_positions128`. -/
example : ∃ db r, pirLWE128 (quietHost [16]) 0 db 10 = ok r ∧ r.length = 10 := by
  obtain ⟨db, -, r, h1, h2, -⟩ := C68_lwe128_rounds_partial (quietHost [16]) 0 4 10 [1, 2, 3] rfl (by norm_num) (by norm_num)
    (fun j which n hn => (quiet_sound ⟨[16], 10, "cmp-vpir-lwe-128", 0, 1⟩ (by decide)).intn 0 j which n hn)
    (fun j i => by
      have h := (quiet_sound ⟨[16], 10, "cmp-vpir-lwe-128", 0, 1⟩ (by decide)).coins 0 16 rfl j i
      rw [if_neg (by decide), show side 16 = 4 by
        unfold side
        rw [if_neg (by decide), show Nat.sqrt (16 - 1) = 3 from (Nat.eq_sqrt.mpr (by decide)).symm]] at h
      exact h)
  exact ⟨db, r, h1, h2⟩

end Verif.Local
