import Verif.Lemmas.PointShare

/-! # C01-C06: multi-server point retrieval -/

namespace Verif.Point
open Res Verif.Database Verif.Point.Spec

/-- A random source that delivers what it is asked for. -/
def Delivers (read : Nat → Res (List Byte)) : Prop := ∀ n, ∃ r, read n = ok r ∧ r.length = n

/-- If the servers' selection strings add up to a unit vector, reconstruction gives the block. -/
theorem reconstruct_core {db : Bytes} {blocks : List (List Byte)} (hdb : Stores db blocks) {x y : Nat}
    (hx : x < db.info.numRows) (hy : y < db.info.numColumns) (answers xs : List (List Byte))
    (hlen : answers.length = xs.length)
    (hans : ∀ k, k < xs.length → ∃ a, answers[k]? = some a ∧ answerVec db (xs.getD k []) = ok a)
    (hq : ∀ v ∈ xs, db.info.numColumns ≤ 8 * v.length)
    (hsum : ∀ (b : Byte) j, j < db.info.numColumns →
      xsum xs.length (fun k => sel (bitOf (xs.getD k []) j) b) = sel (decide (j = y)) b) (iy : Int) :
    reconstructValue answers db.info ⟨x, iy⟩ =
      ok (zeroExtend db.info.blockSize (blocks.getD (x * db.info.numColumns + y) [])) := by
  have hq' : ∀ k, k < xs.length → db.info.numColumns ≤ 8 * (xs.getD k []).length := by
    intro k hk
    apply hq
    simp [List.getD, hk]
  have hspec : ∀ a ∈ answers, a.length = db.info.numRows * db.info.blockSize := by
    intro a ha
    obtain ⟨k, hk, rfl⟩ := List.getElem_of_mem ha
    obtain ⟨a', h1, h2⟩ := hans k (by omega)
    obtain ⟨a'', h3, h4, -⟩ := answerVec_spec hdb (xs.getD k []) (hq' k (by omega))
    rw [List.getElem?_eq_getElem hk] at h1
    simp only [Option.some.injEq] at h1
    rw [h2] at h3
    simp only [ok.injEq] at h3
    rw [h1, h3, h4]
  have hpart : ∀ a ∈ answers, part db.info ⟨x, iy⟩ a = ok (rowOf a db.info.blockSize x) :=
    fun a ha => part_of_row (hspec a ha) hx
  rw [reconstructValue_eq, if_pos (fun a ha => ⟨_, hpart a ha⟩)]
  congr 1
  have hmap : answers.map (fun a => valueOf (part db.info ⟨x, iy⟩ a)) =
      answers.map (fun a => rowOf a db.info.blockSize x) := by
    apply List.map_congr_left
    intro a ha
    rw [hpart a ha]; rfl
  rw [hmap]
  have hb : (blocks.getD (x * db.info.numColumns + y) []).length ≤ db.info.blockSize := by
    have := row_bound (C := db.info.numColumns) hx
    have hlt : x * db.info.numColumns + y < blocks.length := by rw [hdb.count]; omega
    rw [show blocks.getD (x * db.info.numColumns + y) [] = blocks[x * db.info.numColumns + y] by
      simp [List.getD, hlt]]
    exact hdb.fits _ (List.getElem_mem hlt)
  have hfold := foldl_xor_getD (answers.map (fun a => rowOf a db.info.blockSize x))
    (List.replicate db.info.blockSize 0) (by
      intro r hr
      obtain ⟨a, ha, rfl⟩ := List.mem_map.mp hr
      rw [rowOf_length (hspec a ha) hx]; simp)
  apply ext_getD
  · rw [(hfold 0).1, zeroExtend, List.length_append, List.length_replicate, List.length_replicate]; omega
  · intro t ht
    rw [(hfold 0).1, List.length_replicate] at ht
    rw [(hfold t).2, getD_replicate, List.length_map, hlen]
    have hterm : xsum xs.length (fun k => ((answers.map (fun a => rowOf a db.info.blockSize x)).getD k []).getD t 0) =
        xsum xs.length (fun k => xsum db.info.numColumns (fun j => sel (bitOf (xs.getD k []) j)
          (blk blocks (x * db.info.numColumns + j) t))) := by
      apply xsum_congr
      intro k hk
      obtain ⟨a, h1, h2⟩ := hans k hk
      obtain ⟨a', h3, h4, h5⟩ := answerVec_spec hdb (xs.getD k []) (hq' k hk)
      rw [h2] at h3
      simp only [ok.injEq] at h3
      subst h3
      have : (answers.map (fun a => rowOf a db.info.blockSize x)).getD k [] = rowOf a db.info.blockSize x := by
        simp [List.getD, h1]
      rw [this, rowOf_getD _ _ _ ht, h5 x t hx ht]
    rw [hterm, xsum_comm]
    rw [xsum_congr (fun j hj => hsum _ j hj)]
    have : (fun i => sel (decide (i = y)) (blk blocks (x * db.info.numColumns + i) t)) =
        (fun i => if i = y then (fun i => blk blocks (x * db.info.numColumns + i) t) i else 0) := by
      funext i; by_cases h : i = y <;> simp [sel, h]
    rw [this, xsum_single hy]
    rw [zeroExtend, getD_append, getD_replicate]
    split
    · exact BitVec.zero_xor
    · rename_i hge
      rw [blk, getD_of_ge _ (by omega)]; rfl

theorem indices (i C : Nat) (hC : 0 < C) :
    vectorToMatrixIndices (i : Int) (C : Int) = ok (((i / C : Nat) : Int), ((i % C : Nat) : Int)) := by
  unfold vectorToMatrixIndices
  rw [if_neg (by omega)]
  congr 1

theorem index_split {R C i : Nat} (hi : i < R * C) : 0 < C ∧ i / C < R ∧ i % C < C ∧ i / C * C + i % C = i := by
  have hC : 0 < C := by
    rcases Nat.eq_zero_or_pos C with h | h
    · subst h; simp at hi
    · exact h
  refine ⟨hC, (Nat.div_lt_iff_lt_mul hC).mpr hi, Nat.mod_lt _ hC, ?_⟩
  rw [Nat.mul_comm]; exact Nat.div_add_mod i C

theorem query_shares (dpf : Dpf) {read : Nat → Res (List Byte)} (hread : Delivers read) {info : Info} {i n : Nat}
    (hC : 0 < info.numColumns) (hn : 0 < n) (hn2 : n ≠ 2) :
    ∃ rand, read ((n - 1) * (info.numColumns / 8 + 1)) = ok rand ∧
      rand.length = (n - 1) * (info.numColumns / 8 + 1) ∧
      query dpf read info i n = ok (shares info.numColumns (i % info.numColumns) (n - 1) rand,
        ⟨((i / info.numColumns : Nat) : Int), ((i % info.numColumns : Nat) : Int)⟩) := by
  obtain ⟨rand, h1, h2⟩ := hread ((n - 1) * (info.numColumns / 8 + 1))
  refine ⟨rand, h1, h2, ?_⟩
  unfold query
  have hinv : invalidQueryInputsIT i n = false := by simp [invalidQueryInputsIT]
  rw [hinv]
  simp only [Bool.false_eq_true, if_false]
  rw [indices _ _ hC]
  simp only [ok_bind]
  rw [if_neg (by omega)]
  obtain ⟨m, rfl⟩ : ∃ m, n = m + 1 := ⟨n - 1, by omega⟩
  rw [secretShare_eq read info.numColumns _ m rand (Nat.mod_lt _ hC) h1 h2]
  rfl

theorem mapM_ok {α β : Type _} {f : α → Res β} {l : List α} (h : ∀ a ∈ l, ∃ b, f a = ok b) :
    ∃ r, l.mapM f = ok r ∧ r.length = l.length ∧
      ∀ k (hk : k < l.length), ∃ b, r[k]? = some b ∧ f l[k] = ok b := by
  induction l with
  | nil => exact ⟨[], rfl, rfl, by simp⟩
  | cons a l ih =>
    obtain ⟨b, hb⟩ := h a (by simp)
    obtain ⟨r, h1, h2, h3⟩ := ih (fun x hx => h x (by simp [hx]))
    refine ⟨b :: r, by rw [List.mapM_cons, hb, h1]; rfl, by simp [h2], ?_⟩
    intro k hk
    cases k with
    | zero => exact ⟨b, rfl, hb⟩
    | succ k => exact h3 k (by simpa using hk)

/-- C01: for every database layout, content and index, every number of servers other than two, and whatever bytes
the random source delivers, the client gets exactly the requested block (zero-extended). -/
theorem C01_retrieve (dpf : Dpf) (read : Nat → Res (List Byte)) (hread : Delivers read) (db : Bytes)
    (blocks : List (List Byte)) (hdb : Stores db blocks) (i n : Nat) (hi : i < blocks.length) (hn : 0 < n)
    (hn2 : n ≠ 2) :
    retrieve dpf read 0 db i n = ok (zeroExtend db.info.blockSize blocks[i]) := by
  rw [hdb.count] at hi
  obtain ⟨hC, hx, hy, hxy⟩ := index_split hi
  obtain ⟨rand, -, hrl, hq⟩ := query_shares dpf hread (i := i) hC hn hn2
  unfold retrieve
  rw [hq]
  simp only [ok_bind]
  have hmem := shares_mem_length (C := db.info.numColumns) (y := i % db.info.numColumns) hrl
  obtain ⟨as, h1, h2, h3⟩ := mapM_ok (f := answer dpf 0 db)
    (l := shares db.info.numColumns (i % db.info.numColumns) (n - 1) rand) (by
      intro v hv
      obtain ⟨a, ha, -⟩ := answerVec_spec hdb v (by rw [hmem v hv]; omega)
      exact ⟨a, ha⟩)
  rw [h1]
  simp only [ok_bind]
  have hsl := shares_length db.info.numColumns (i % db.info.numColumns) (n - 1) rand
  rw [reconstruct_core hdb hx hy as _ h2 (by
      intro k hk
      obtain ⟨b, hb1, hb2⟩ := h3 k hk
      refine ⟨b, hb1, ?_⟩
      rw [show (shares db.info.numColumns (i % db.info.numColumns) (n - 1) rand).getD k [] =
        (shares db.info.numColumns (i % db.info.numColumns) (n - 1) rand)[k] by simp [List.getD, hk]]
      exact hb2) (by intro v hv; rw [hmem v hv]; omega) (by
      intro b j hj
      rw [hsl]
      exact shares_sum hrl hy b j), hxy]
  have hlt : i < blocks.length := by rw [hdb.count]; omega
  simp [List.getD, hlt]

/-- A database of two rows and two columns with blocks of different lengths. -/
def exBlocks : List (List Byte) := [[1, 2], [3], [], [4, 5, 6]]

def exDB : Bytes := ⟨[1, 2, 3, 4, 5, 6], ⟨2, 2, 3, [2, 1, 0, 3], "", [], 0⟩⟩

theorem exDB_stores : Stores exDB exBlocks := by
  refine ⟨rfl, ⟨[], rfl⟩, rfl, ?_⟩
  decide

def sevens : Nat → Res (List Byte) := fun n => ok (List.replicate n 7)

theorem sevens_delivers : Delivers sevens := fun n => ⟨_, rfl, by simp⟩

example : retrieve ⟨fun _ _ => ok ([], []), fun _ _ => ok []⟩ sevens 0 exDB 1 3 = ok [3, 0, 0] :=
  C01_retrieve _ sevens sevens_delivers exDB exBlocks exDB_stores 1 3 (by decide) (by decide) (by decide)

theorem lt_bitsLen (C : Nat) : C < 2 ^ bitsLen C := by
  unfold bitsLen
  split
  · rename_i h; simp [h]
  · exact Nat.lt_log2_self

theorem bitsLen_le {C : Nat} (h : C < 2 ^ 63) : bitsLen C ≤ 63 := by
  unfold bitsLen
  split
  · omega
  · rename_i h0
    have := (Nat.log2_lt h0).mpr h
    omega

/-- C02: with two servers and any DPF library that meets its contract, the client gets the requested block; the
domain it asks the library for contains every column. -/
theorem C02_retrieve (dpf : Dpf) (hdpf : Correct dpf) (read : Nat → Res (List Byte)) (db : Bytes)
    (blocks : List (List Byte)) (hdb : Stores db blocks) (hcols : db.info.numColumns < 2 ^ 63) (i : Nat)
    (hi : i < blocks.length) :
    retrieve dpf read 2 db i 2 = ok (zeroExtend db.info.blockSize blocks[i]) := by
  rw [hdb.count] at hi
  obtain ⟨hC, hx, hy, hxy⟩ := index_split hi
  have hdom := lt_bitsLen db.info.numColumns
  obtain ⟨k0, k1, x0, x1, hg, he0, he1, hl0, hl1, hb⟩ := hdpf (i % db.info.numColumns) (bitsLen db.info.numColumns)
    (bitsLen_le hcols) (by omega)
  obtain ⟨a0, ha0, -⟩ := answerVec_spec hdb x0 (by omega)
  obtain ⟨a1, ha1, -⟩ := answerVec_spec hdb x1 (by omega)
  unfold retrieve query
  have hinv : invalidQueryInputsIT i 2 = false := by simp [invalidQueryInputsIT]
  rw [hinv]
  simp only [Bool.false_eq_true, if_false]
  rw [indices _ _ hC]
  have hu : toU64 ((i % db.info.numColumns : Nat) : Int) = i % db.info.numColumns := by
    unfold toU64
    have : i % db.info.numColumns < 2 ^ 64 := by omega
    omega
  simp only [ok_bind, if_true, hu, hg]
  have hm : [k0, k1].mapM (answer dpf 2 db) = ok [a0, a1] := by
    simp [List.mapM_cons, answer, he0, he1, ha0, ha1]
  rw [hm]
  simp only [ok_bind]
  rw [reconstruct_core hdb hx hy [a0, a1] [x0, x1] rfl (by
      intro k hk
      rcases k with _ | _ | k
      · exact ⟨a0, rfl, ha0⟩
      · exact ⟨a1, rfl, ha1⟩
      · simp at hk; omega) (by
      intro v hv
      simp only [List.mem_cons, List.not_mem_nil, or_false] at hv
      rcases hv with rfl | rfl <;> omega) (by
      intro b j hj
      rw [← hb j (by omega), sel_xor]
      show xsum 2 _ = _
      simp [xsum]), hxy]
  have hlt : i < blocks.length := by rw [hdb.count]; omega
  simp [List.getD, hlt]

/-- A DPF that meets the contract: the keys are a marker byte followed by the selection string itself. -/
def plainDpf : Dpf where
  gen α logN := ok (0 :: unitVec (2 ^ logN / 8 + 1) α, 0 :: List.replicate (2 ^ logN / 8 + 1) 0)
  evalFull k _ := ok (k.drop 1)

theorem plainDpf_correct : Correct plainDpf := by
  intro α logN _ hα
  refine ⟨_, _, _, _, rfl, rfl, rfl, by simp; omega, by simp; omega, ?_⟩
  intro j _
  simp only [List.drop_succ_cons, List.drop_zero]
  rw [bitOf_unitVec (by omega)]
  have : bitOf (List.replicate (2 ^ logN / 8 + 1) 0) j = false := by
    unfold bitOf; rw [getD_replicate]; simp
  rw [this]; simp

example : retrieve plainDpf sevens 2 exDB 3 2 = ok [4, 5, 6] :=
  C02_retrieve plainDpf plainDpf_correct sevens exDB exBlocks exDB_stores (by decide) 3 (by decide)

/-! ### C06 -/

/-- Bytes cut into pieces of equal length. -/
theorem flatten_pieces (l : List Byte) (k : Nat) : ∀ n, n * k ≤ l.length →
    ((List.range n).map (fun i => (l.drop (i * k)).take k)).flatten = l.take (n * k)
  | 0, _ => by simp
  | n + 1, h => by
    rw [List.range_succ, List.map_append, List.flatten_append, flatten_pieces l k n (by
      rw [Nat.succ_mul] at h; omega)]
    simp only [List.map_cons, List.map_nil, List.flatten_cons, List.flatten_nil, List.append_nil]
    rw [Nat.succ_mul, List.take_add]

theorem fill_const (n k : Nat) :
    forLoop n (fun i bl => setAt bl i k) (List.replicate n 0) = ok (List.replicate n k) := by
  have h := forLoop_eq (n := n) (body := fun i bl => setAt bl i k)
    (fun i => List.replicate i k ++ List.replicate (n - i) 0) (fun i hi => by
      rw [setAt_of_lt (by simp; omega)]
      congr 1
      rw [List.set_append_right _ _ (by simp)]
      obtain ⟨m, hm⟩ : ∃ m, n - i = m + 1 := ⟨n - i - 1, by omega⟩
      have hm' : n - (i + 1) = m := by omega
      rw [hm, hm', List.length_replicate, Nat.sub_self, List.replicate_succ, List.set_cons_zero,
        List.replicate_succ' (n := i), List.append_assoc, List.singleton_append])
  simpa using h

/-- **C01.** A randomly created database: with any positive number of rows and block length, the block at index `i` that
a client reconstructs from any number of servers other than two is the `i`-th piece of the random bytes. -/
theorem C01_created (dpf : Dpf) (read source : Nat → Res (List Byte)) (hread : Delivers read) (data : List Byte)
    (dbLen numRows blockLen : Nat) (hdata : source (dbLen / 8) = ok data) (hlen : data.length = dbLen / 8)
    (hr : 0 < numRows) (hb : 0 < blockLen) :
    ∃ db, createRandomBytes source dbLen numRows blockLen = ok db ∧
      ∀ i n : Nat, i < numRows * (dbLen / (8 * numRows * blockLen)) → 0 < n → n ≠ 2 →
        retrieve dpf read 0 db i n = ok ((data.drop (i * blockLen)).take blockLen) := by
  have hpos : 0 < 8 * numRows * blockLen := by positivity
  unfold createRandomBytes
  rw [hdata]
  simp only [ok_bind]
  rw [if_neg (by omega), fill_const]
  refine ⟨_, rfl, fun i n hi hn hn2 => ?_⟩
  have hfit : numRows * (dbLen / (8 * numRows * blockLen)) * blockLen ≤ data.length := by
    rw [hlen, Nat.le_div_iff_mul_le (by decide)]
    calc _ = dbLen / (8 * numRows * blockLen) * (8 * numRows * blockLen) := by ring
      _ ≤ dbLen := Nat.div_mul_le_self _ _
  generalize hN : numRows * (dbLen / (8 * numRows * blockLen)) = N at *
  have hpiece : ∀ j < N, ((data.drop (j * blockLen)).take blockLen).length = blockLen := fun j hj => by
    have : (j + 1) * blockLen ≤ N * blockLen := Nat.mul_le_mul_right _ hj
    rw [Nat.succ_mul] at this
    simp; omega
  have hst : Stores (⟨data, { numRows := numRows, numColumns := dbLen / (8 * numRows * blockLen), blockSize := blockLen, blockLengths := List.replicate N blockLen, pirType := "", root := [], proofLen := 0 }⟩ : Bytes)
      ((List.range N).map (fun i => (data.drop (i * blockLen)).take blockLen)) := by
    refine ⟨by simp [hN], ⟨data.drop (N * blockLen), ?_⟩, ?_, ?_⟩
    · rw [flatten_pieces _ _ _ hfit, List.take_append_drop]
    · apply List.ext_getElem
      · simp
      · intro j h1 h2
        simp only [List.getElem_replicate, List.getElem_map, List.getElem_range]
        rw [hpiece j (by simpa using h1)]
    · intro b hb
      simp only [List.mem_map, List.mem_range] at hb
      obtain ⟨j, hj, rfl⟩ := hb
      exact le_of_eq (hpiece j hj)
  rw [C01_retrieve dpf read hread _ _ hst i n (by simpa using hi) hn hn2]
  simp only [List.getElem_map, List.getElem_range, zeroExtend]
  rw [hpiece i hi]
  simp

example : ∃ db, createRandomBytes (fun n => ok ((List.range n).map (BitVec.ofNat 8))) 64 2 2 = ok db ∧
    retrieve plainDpf sevens 0 db (3 : Nat) (3 : Nat) = ok [6, 7] := by
  obtain ⟨db, h, h'⟩ := C01_created plainDpf sevens (fun n => ok ((List.range n).map (BitVec.ofNat 8)))
    sevens_delivers _ 64 2 2 rfl (by simp) (by decide) (by decide)
  exact ⟨db, h, h' 3 3 (by decide) (by decide) (by decide)⟩

/-- C06, full statement: with the servers the server binary starts (`NewPIR`, cmd/grpc/server/main.go:141-146),
point lookups return the requested block for every number of servers. -/
def C06_Statement : Prop :=
  ∀ (dpf : Dpf), Correct dpf → ∀ (read : Nat → Res (List Byte)), Delivers read → ∀ (db : Bytes)
    (blocks : List (List Byte)), Stores db blocks → db.info.numColumns < 2 ^ 63 → ∀ (i n : Nat) (hi : i < blocks.length),
    2 ≤ n → retrieve dpf read 0 db i n = ok (zeroExtend db.info.blockSize blocks[i])

/-- C06, what holds: lookups through at least three deployed servers work. Missing: two servers. -/
theorem C06_three_or_more_partial (dpf : Dpf) (read : Nat → Res (List Byte)) (hread : Delivers read) (db : Bytes)
    (blocks : List (List Byte)) (hdb : Stores db blocks) (i n : Nat) (hi : i < blocks.length) (hn : 3 ≤ n) :
    retrieve dpf read 0 db i n = ok (zeroExtend db.info.blockSize blocks[i]) :=
  C01_retrieve dpf read hread db blocks hdb i n hi (by omega) (by omega)

example : retrieve plainDpf sevens 0 exDB 0 3 = ok [1, 2, 0] :=
  C06_three_or_more_partial _ sevens sevens_delivers exDB exBlocks exDB_stores 0 3 (by decide) (by decide)

/-- C06 is false: with two deployed servers the keys of a correct DPF are read as selection strings. -/
theorem C06_refuted : ¬ C06_Statement := by
  intro h
  have := h plainDpf plainDpf_correct sevens sevens_delivers exDB exBlocks exDB_stores (by decide) 0 2 (by decide)
    (by decide)
  revert this
  decide

theorem xorValues_short_crash (entries : List Byte) (blockLens : List Nat) (q out : List Byte)
    (h : 8 * q.length < blockLens.length) : ¬ ∃ r, xorValues entries blockLens q out = ok r := by
  rintro ⟨r, hr⟩
  unfold xorValues at hr
  rw [bind_eq_ok] at hr
  obtain ⟨s, hs, -⟩ := hr
  obtain ⟨d, hd⟩ : ∃ d, blockLens.length = 8 * q.length + 1 + d := ⟨blockLens.length - (8 * q.length + 1), by omega⟩
  have : ∀ n, 8 * q.length < n → ∀ st : Nat × List Byte, ¬ ∃ t, forLoop n (fun j (st : Nat × List Byte) => do
      let (pos, out) := st
      let qb ← idx q (j / 8)
      let bl ← idx blockLens j
      let out ← if (qb >>> (j % 8)) &&& 1 = 1 then do
          let e ← slice entries pos (pos + bl)
          ok (fastxor out out e)
        else ok out
      ok (pos + bl, out)) st = ok t := by
    intro n hn st
    induction n with
    | zero => omega
    | succ n ih =>
      rintro ⟨t, ht⟩
      rw [forLoop_succ, bind_eq_ok] at ht
      obtain ⟨u, hu, hb⟩ := ht
      by_cases hlt : 8 * q.length < n
      · exact ih hlt ⟨u, hu⟩
      · obtain ⟨p, o⟩ := u
        simp only at hb
        rw [idx_of_ge (by omega)] at hb
        simp at hb
  exact this _ h _ ⟨s, hs⟩

/-- A selection string with fewer bits than there are columns is not answered by a server of mode 0. -/
theorem short_unanswered (dpf : Dpf) (db : Bytes) (q : List Byte) (hR : 0 < db.info.numRows)
    (hs : 8 * q.length < db.info.numColumns) : ¬ ∃ a, answer dpf 0 db q = ok a := by
  rintro ⟨a, ha⟩
  unfold answer answerVec at ha
  simp only [show ¬ (0 = 2) by decide, if_false, bind_eq_ok] at ha
  obtain ⟨s, hs', -⟩ := ha
  obtain ⟨R, hR'⟩ : ∃ R, db.info.numRows = R + 1 := ⟨db.info.numRows - 1, by omega⟩
  rw [hR', forLoop_succ', bind_eq_ok] at hs'
  obtain ⟨u, hu, -⟩ := hs'
  simp only [bind_eq_ok] at hu
  obtain ⟨np, -, es, -, bls, hbls, o, -, o', ho', -⟩ := hu
  have := slice_length hbls
  exact xorValues_short_crash _ _ _ _ (by omega) ⟨o', ho'⟩

/-- C06: whenever the DPF keys are compressed (shorter than one bit per column, which is their purpose), a lookup
through two deployed servers never returns anything, whatever the database and the index. -/
theorem C06_two_servers_never_answer (dpf : Dpf) (read : Nat → Res (List Byte)) (db : Bytes)
    (i : Int) (hR : 0 < db.info.numRows)
    (hshort : ∀ α logN k0 k1, dpf.gen α logN = ok (k0, k1) → 8 * k0.length < db.info.numColumns) :
    ¬ ∃ b, retrieve dpf read 0 db i 2 = ok b := by
  rintro ⟨b, hb⟩
  unfold retrieve query at hb
  have hinv : invalidQueryInputsIT i 2 = false := by simp [invalidQueryInputsIT]
  rw [hinv] at hb
  simp only [Bool.false_eq_true, if_false, if_true, bind_eq_ok] at hb
  obtain ⟨⟨qs, st⟩, ⟨⟨ix, iy⟩, -, ⟨k0, k1⟩, hg, hq⟩, as, has, -⟩ := hb
  simp only [ok.injEq, Prod.mk.injEq] at hq
  obtain ⟨rfl, -⟩ := hq
  have hs := hshort _ _ _ _ hg
  simp only [List.mapM_cons, bind_eq_ok] at has
  obtain ⟨a, ha, -⟩ := has
  exact short_unanswered dpf db k0 hR hs ⟨a, ha⟩

/-- Such a DPF and database: one-byte keys and nine columns. -/
example : ¬ ∃ b, retrieve ⟨fun _ _ => ok ([1], [1]), fun _ _ => ok []⟩ sevens 0
    ⟨List.replicate 9 1, ⟨1, 9, 1, List.replicate 9 1, "", [], 0⟩⟩ 4 2 = ok b :=
  C06_two_servers_never_answer _ _ _ _ (by decide) (by
    intro α logN k0 k1 h
    simp only [ok.injEq, Prod.mk.injEq] at h
    obtain ⟨rfl, -⟩ := h
    decide)

/-! ### C04 -/

/-- C04, full statement: a negative index or fewer than two servers never gives a query. -/
def C04_Statement : Prop :=
  ∀ (dpf : Dpf) (read : Nat → Res (List Byte)) (info : Info) (index numServers : Int),
    index < 0 ∨ numServers < 2 → ¬ ∃ r, query dpf read info index numServers = ok r

/-- C04, what holds: a negative index together with fewer than two servers is refused. Missing: each of the two
conditions alone. -/
theorem C04_both_invalid_partial (dpf : Dpf) (read : Nat → Res (List Byte)) (info : Info) (index numServers : Int)
    (h1 : index < 0) (h2 : numServers < 2) : (query dpf read info index numServers).isCrash := by
  have : invalidQueryInputsIT index numServers = true := by simp [invalidQueryInputsIT, h1, h2]
  simp [query, this]

example : (query plainDpf sevens exDB.info (-1) 1).isCrash := C04_both_invalid_partial _ _ _ _ _ (by decide) (by decide)

/-- C04: a query to a single server is accepted for every index and consists of the requested column in the clear,
whatever the random source does. -/
theorem C04_single_server_sends_the_index (dpf : Dpf) (read : Nat → Res (List Byte)) (hread : Delivers read)
    (info : Info) (i : Nat) (hC : 0 < info.numColumns) :
    ∃ v st, query dpf read info i 1 = ok ([v], st) ∧ ∀ j, bitOf v j = decide (j = i % info.numColumns) := by
  obtain ⟨rand, -, hl, hq⟩ := query_shares dpf hread (i := i) hC (n := 1) (by omega) (by omega)
  refine ⟨_, _, hq, ?_⟩
  intro j
  show bitOf (mixed _ _ _ 0) j = _
  have := Nat.mod_lt i hC
  exact bitOf_unitVec (by omega) j

example : ∃ v st, query plainDpf sevens exDB.info (1 : Nat) 1 = ok ([v], st) ∧
    ∀ j, bitOf v j = decide (j = 1 % 2) :=
  C04_single_server_sends_the_index plainDpf sevens sevens_delivers exDB.info 1 (by decide)

theorem C04_refuted : ¬ C04_Statement := by
  intro h
  obtain ⟨v, st, hq, -⟩ := C04_single_server_sends_the_index plainDpf sevens sevens_delivers exDB.info 1 (by decide)
  exact h plainDpf sevens exDB.info (1 : Nat) 1 (Or.inr (by omega)) ⟨_, hq⟩

/-- C04: an index past the end of the database is not refused either; the client panics once the answers are in. -/
theorem C04_index_past_the_end (dpf : Dpf) (read : Nat → Res (List Byte)) (hread : Delivers read) (db : Bytes)
    (blocks : List (List Byte)) (hdb : Stores db blocks) (i n : Nat) (hi : blocks.length ≤ i) (hn : 0 < n)
    (hn2 : n ≠ 2) (hC : 0 < db.info.numColumns) (hbs : 0 < db.info.blockSize) :
    (∃ r, query dpf read db.info i n = ok r) ∧ (retrieve dpf read 0 db i n).isCrash := by
  obtain ⟨rand, -, hrl, hq⟩ := query_shares dpf hread (i := i) hC hn hn2
  refine ⟨⟨_, hq⟩, ?_⟩
  unfold retrieve
  rw [hq]
  simp only [ok_bind]
  have hmem := shares_mem_length (C := db.info.numColumns) (y := i % db.info.numColumns) hrl
  have hsl := shares_length db.info.numColumns (i % db.info.numColumns) (n - 1) rand
  have hlen : ∀ v ∈ shares db.info.numColumns (i % db.info.numColumns) (n - 1) rand, ∃ a,
      answer dpf 0 db v = ok a ∧ a.length = db.info.numRows * db.info.blockSize := by
    intro v hv
    obtain ⟨a, ha, hl, -⟩ := answerVec_spec hdb v (by rw [hmem v hv]; omega)
    exact ⟨a, ha, hl⟩
  obtain ⟨as, h1, h2, h3⟩ := mapM_ok (f := answer dpf 0 db)
    (l := shares db.info.numColumns (i % db.info.numColumns) (n - 1) rand) (by
      intro v hv
      obtain ⟨a, ha, -⟩ := hlen v hv
      exact ⟨a, ha⟩)
  rw [h1]
  simp only [ok_bind]
  rw [reconstructValue_eq, if_neg]
  · trivial
  · intro hall
    obtain ⟨b, hb1, hb2⟩ := h3 0 (by omega)
    obtain ⟨s, hs⟩ := hall b (List.mem_of_getElem? hb1)
    obtain ⟨a, ha, hal⟩ := hlen _ (List.getElem_mem (show 0 < _ by omega))
    rw [hb2] at ha
    simp only [ok.injEq] at ha
    subst ha
    have hrow : db.info.numRows ≤ i / db.info.numColumns := by
      rw [Nat.le_div_iff_mul_le hC, ← hdb.count]; exact hi
    unfold part sliceInt at hs
    split at hs
    · simp at hs
    · rw [slice_eq_ok] at hs
      obtain ⟨-, h5, -⟩ := hs
      have e : (db.info.blockSize : Int) * (((i / db.info.numColumns : Nat) : Int) + 1) =
          (((i / db.info.numColumns + 1) * db.info.blockSize : Nat) : Int) := by push_cast; ring
      rw [e, Int.toNat_natCast, hal] at h5
      have : (db.info.numRows + 1) * db.info.blockSize ≤ (i / db.info.numColumns + 1) * db.info.blockSize :=
        Nat.mul_le_mul_right _ (by omega)
      rw [Nat.succ_mul] at this
      omega

example : (retrieve plainDpf sevens 0 exDB (4 : Nat) (3 : Nat)).isCrash :=
  (C04_index_past_the_end plainDpf sevens sevens_delivers exDB exBlocks exDB_stores 4 3 (by decide) (by decide)
    (by decide) (by decide) (by decide)).2

/-! ### C05 -/

theorem xsum_perm {l l' : List (List Byte)} (h : l.Perm l') (f : List Byte → Byte) :
    xsum l.length (fun k => f (l.getD k [])) = xsum l'.length (fun k => f (l'.getD k [])) := by
  have hs : ∀ l : List (List Byte), xsum l.length (fun k => f (l.getD k [])) = l.foldr (fun x s => f x ^^^ s) 0 := by
    intro l
    induction l with
    | nil => rfl
    | cons x l ih =>
      have : ∀ (n : Nat) (f : Nat → Byte), xsum (n + 1) f = f 0 ^^^ xsum n (fun k => f (k + 1)) := by
        intro n f
        induction n with
        | zero => simp [xsum]
        | succ n ih => rw [xsum, ih, xsum, BitVec.xor_assoc]
      rw [List.length_cons, this]
      simp only [List.getD_cons_zero, List.getD_cons_succ, List.foldr_cons]
      rw [ih]
  rw [hs, hs]
  induction h with
  | nil => rfl
  | cons x _ ih => simp only [List.foldr_cons, ih]
  | swap x y l =>
    simp only [List.foldr_cons]
    rw [← BitVec.xor_assoc, ← BitVec.xor_assoc, BitVec.xor_comm (f y)]
  | trans _ _ h1 h2 => exact h1.trans h2

/-- C05 (point clients): the reconstructed value does not depend on the order of the answers, honest or not; it also
panics for one order exactly when it panics for the other. -/
theorem C05_point_order (answers answers' : List (List Byte)) (info : Info) (st : State)
    (h : answers.Perm answers') : reconstructValue answers info st = reconstructValue answers' info st := by
  rw [reconstructValue_eq, reconstructValue_eq]
  by_cases hall : ∀ a ∈ answers, ∃ s, part info st a = ok s
  · have hall' : ∀ a ∈ answers', ∃ s, part info st a = ok s := fun a ha => hall a (h.mem_iff.mpr ha)
    rw [if_pos hall, if_pos hall']
    congr 1
    have hp := h.map (fun a => valueOf (part info st a))
    have hl : ∀ (as : List (List Byte)), (∀ a ∈ as, ∃ s, part info st a = ok s) →
        ∀ x ∈ as.map (fun a => valueOf (part info st a)),
          x.length = (List.replicate info.blockSize (0 : Byte)).length := by
      intro as has x hx
      obtain ⟨a, ha, rfl⟩ := List.mem_map.mp hx
      obtain ⟨s, hs⟩ := has a ha
      rw [hs]
      simp [valueOf, part_length hs]
    have f1 := foldl_xor_getD _ _ (hl answers hall)
    have f2 := foldl_xor_getD _ _ (hl answers' hall')
    apply ext_getD
    · rw [(f1 0).1, (f2 0).1]
    · intro t _
      rw [(f1 t).2, (f2 t).2]
      congr 1
      exact xsum_perm hp (fun x => x.getD t 0)
  · have hall' : ¬ ∀ a ∈ answers', ∃ s, part info st a = ok s :=
      fun h' => hall (fun a ha => h' a (h.mem_iff.mp ha))
    rw [if_neg hall, if_neg hall']

example : reconstructValue [[1, 2], [4, 4], [8, 0]] ⟨1, 1, 2, [2], "", [], 0⟩ ⟨0, 0⟩ =
    reconstructValue [[8, 0], [1, 2], [4, 4]] ⟨1, 1, 2, [2], "", [], 0⟩ ⟨0, 0⟩ :=
  C05_point_order _ _ _ _ (by decide)

end Verif.Point
