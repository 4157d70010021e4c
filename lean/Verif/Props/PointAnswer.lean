import Verif.Spec.PointAnswer
import Verif.Lemmas.PointShare
import Verif.Props.Uptime

/-! # C143: exactly which queries end a point server, and what all the others are answered -/

namespace Verif.Point
open Res Verif.Database Verif.Point.Spec

theorem xorBytes_length {a b : List Byte} (h : a.length = b.length) : (xorBytes a b).length = a.length := by
  simp [xorBytes, h]

theorem xorBytes_getD {a b : List Byte} (h : a.length = b.length) (t : Nat) :
    (xorBytes a b).getD t 0 = a.getD t 0 ^^^ b.getD t 0 := by
  by_cases ht : t < a.length
  · have hb : t < b.length := by omega
    simp [xorBytes, List.getD, ht, hb]
  · rw [getD_of_ge _ (by rw [xorBytes_length h]; omega), getD_of_ge _ (by omega), getD_of_ge _ (by omega)]
    simp

theorem zeroExtend_length {n : Nat} {b : List Byte} (h : b.length ≤ n) : (zeroExtend n b).length = n := by
  simp [zeroExtend]
  omega

theorem zeroExtend_getD (n : Nat) (b : List Byte) (t : Nat) : (zeroExtend n b).getD t 0 = b.getD t 0 := by
  rw [zeroExtend, getD_append]
  split
  · rfl
  · rw [getD_replicate, getD_of_ge _ (by omega)]

theorem rowSum_length {n : Nat} (q : List Byte) : ∀ (row : List (List Byte)) (j : Nat), (∀ b ∈ row, b.length ≤ n) →
    (rowSum n q j row).length = n
  | [], j, _ => by simp [rowSum]
  | b :: row, j, h => by
    have ih := rowSum_length q row (j + 1) (fun b hb => h b (List.mem_cons_of_mem _ hb))
    have hb := zeroExtend_length (h b List.mem_cons_self)
    rw [rowSum]
    split
    · rw [xorBytes_length (by rw [hb, ih]), hb]
    · exact ih

theorem xsum_succ (n : Nat) (f : Nat → Byte) : xsum (n + 1) f = f 0 ^^^ xsum n (fun i => f (i + 1)) := by
  induction n with
  | zero => simp [xsum]
  | succ n ih => rw [xsum, ih, xsum, BitVec.xor_assoc]

theorem rowSum_getD {n : Nat} (q : List Byte) (t : Nat) : ∀ (row : List (List Byte)) (j : Nat), (∀ b ∈ row, b.length ≤ n) →
    (rowSum n q j row).getD t 0 = xsum row.length (fun i => sel (bitOf q (j + i)) (blk row i t))
  | [], j, _ => by simp [rowSum, xsum]
  | b :: row, j, h => by
    have h' : ∀ b ∈ row, b.length ≤ n := fun b hb => h b (List.mem_cons_of_mem _ hb)
    have ih := rowSum_getD q t row (j + 1) h'
    have hl := rowSum_length q row (j + 1) h'
    have hb := zeroExtend_length (h b List.mem_cons_self)
    have e : xsum row.length (fun i => sel (bitOf q (j + (i + 1))) (blk (b :: row) (i + 1) t)) =
        (rowSum n q (j + 1) row).getD t 0 := by
      rw [ih]
      exact xsum_congr fun i _ => by rw [show j + (i + 1) = j + 1 + i by omega]; rfl
    rw [List.length_cons, xsum_succ, e, rowSum]
    cases hq : bitOf q j with
    | true =>
      rw [if_pos rfl, xorBytes_getD (by rw [hb, hl]), zeroExtend_getD]
      simp [sel, blk]
    | false => simp [sel]

theorem rowsOf_length {α : Type} (c : Nat) : ∀ (r : Nat) (l : List α), (rowsOf c r l).length = r
  | 0, _ => rfl
  | r + 1, l => by rw [rowsOf, List.length_cons, rowsOf_length c r]

theorem rowsOf_getElem {α : Type} (c : Nat) : ∀ (r : Nat) (l : List α) (i : Nat) (h : i < (rowsOf c r l).length),
    (rowsOf c r l)[i] = rowOf l c i
  | 0, _, i, h => by simp [rowsOf] at h
  | r + 1, l, 0, h => by simp [rowsOf, rowOf]
  | r + 1, l, i + 1, h => by
    simp only [rowsOf, List.getElem_cons_succ]
    rw [rowsOf_getElem c r (l.drop c) i, rowOf, rowOf, List.drop_drop]
    congr 2
    ring

theorem flatten_getD {n : Nat} : ∀ (ls : List (List Byte)) (_ : ∀ l ∈ ls, l.length = n) (i t : Nat), i < ls.length → t < n →
    ls.flatten.getD (i * n + t) 0 = (ls.getD i []).getD t 0
  | [], _, i, t, hi, _ => by simp at hi
  | l :: ls, h, 0, t, _, ht => by
    have := h l List.mem_cons_self
    rw [List.flatten_cons, getD_append, if_pos (by omega)]
    simp
  | l :: ls, h, i + 1, t, hi, ht => by
    have hl := h l List.mem_cons_self
    rw [List.flatten_cons, getD_append, if_neg (by rw [hl, Nat.succ_mul]; omega),
      show (i + 1) * n + t - l.length = i * n + t by rw [hl, Nat.succ_mul]; omega,
      flatten_getD ls (fun l hl => h l (List.mem_cons_of_mem _ hl)) i t (by simpa using hi) ht]
    rfl

theorem tableRow_fits {db : Bytes} {blocks : List (List Byte)} (hdb : Stores db blocks) :
    ∀ row ∈ rowsOf db.info.numColumns db.info.numRows blocks, ∀ b ∈ row, b.length ≤ db.info.blockSize := by
  intro row hrow b hb
  obtain ⟨i, hi, rfl⟩ := List.getElem_of_mem hrow
  rw [rowsOf_getElem] at hb
  exact hdb.fits b (List.mem_of_mem_drop (List.mem_of_mem_take hb))

theorem tableSum_length {db : Bytes} {blocks : List (List Byte)} (hdb : Stores db blocks) (q : List Byte) :
    (tableSum db.info blocks q).length = db.info.numRows * db.info.blockSize := by
  unfold tableSum
  rw [List.length_flatten, List.map_map, List.map_congr_left (g := fun _ => db.info.blockSize), List.map_const',
    List.sum_replicate, rowsOf_length, smul_eq_mul]
  intro row hrow
  exact rowSum_length q row 0 (tableRow_fits hdb row hrow)

theorem tableSum_getD {db : Bytes} {blocks : List (List Byte)} (hdb : Stores db blocks) (q : List Byte) {i t : Nat}
    (hi : i < db.info.numRows) (ht : t < db.info.blockSize) :
    (tableSum db.info blocks q).getD (i * db.info.blockSize + t) 0 =
      xsum db.info.numColumns (fun j => sel (bitOf q j) (blk blocks (i * db.info.numColumns + j) t)) := by
  have hf := tableRow_fits hdb
  have hi' : i < (rowsOf db.info.numColumns db.info.numRows blocks).length := by rw [rowsOf_length]; exact hi
  unfold tableSum
  rw [flatten_getD _ (by
    intro l hl
    obtain ⟨row, hrow, rfl⟩ := List.mem_map.mp hl
    exact rowSum_length q row 0 (hf row hrow)) i t (by simpa using hi') ht]
  have e : ((rowsOf db.info.numColumns db.info.numRows blocks).map (rowSum db.info.blockSize q 0)).getD i [] =
      rowSum db.info.blockSize q 0 (rowOf blocks db.info.numColumns i) := by
    simp [List.getD, hi', rowsOf_getElem]
  rw [e, rowSum_getD q t _ 0 (by
    have := hf _ (List.getElem_mem hi')
    rwa [rowsOf_getElem] at this), rowOf_length hdb.count hi]
  exact xsum_congr fun j hj => by rw [Nat.zero_add, blk, rowOf_getD _ _ _ hj]; rfl

/-- C143: a point server that takes selection bits answers every query that has a bit for each column, and the answer is, row by
row, the exclusive or of the selected blocks; bits beyond the columns do not matter. Every other query makes the server panic,
unless the database is empty. -/
theorem C143_exact (dpf : Dpf) (mode : Nat) (hmode : mode ≠ 2) (db : Bytes) (blocks : List (List Byte))
    (hdb : Stores db blocks) (q : List Byte) :
    (CoversColumns db.info q ∨ db.info.numRows = 0 → answer dpf mode db q = ok (tableSum db.info blocks q)) ∧
    (¬ CoversColumns db.info q → 0 < db.info.numRows → (answer dpf mode db q).isCrash) := by
  have e : answer dpf mode db q = answerVec db q := by unfold answer; rw [if_neg hmode]
  rw [e]
  constructor
  · intro h
    by_cases hR : db.info.numRows = 0
    · unfold answerVec tableSum
      simp [hR, rowsOf]
    · obtain ⟨a, ha, hl, hat⟩ := answerVec_spec hdb q (h.resolve_right hR)
      rw [ha]
      congr 1
      refine ext_getD (by rw [hl, tableSum_length hdb]) fun k hk => ?_
      rw [hl] at hk
      have hb : 0 < db.info.blockSize := Nat.pos_of_mul_pos_left (Nat.zero_lt_of_lt hk)
      have hi : k / db.info.blockSize < db.info.numRows := by
        rw [Nat.div_lt_iff_lt_mul hb]; exact hk
      have hkk : k / db.info.blockSize * db.info.blockSize + k % db.info.blockSize = k := Nat.div_add_mod' k _
      rw [← hkk, hat _ _ hi (Nat.mod_lt _ hb), tableSum_getD hdb q hi (Nat.mod_lt _ hb)]
  · intro h hR
    have := Deploy.short_crash dpf db q hR (Nat.lt_of_not_le h)
    unfold answer at this
    rwa [if_neg (by decide)] at this

/-- C143 for a server that takes keys of a distributed point function: the same for the expanded key; if the library refuses the
key or panics, so does the server. -/
theorem C143_two (dpf : Dpf) (db : Bytes) (blocks : List (List Byte)) (hdb : Stores db blocks) (q : List Byte) :
    (∀ x, dpf.evalFull q (bitsLen db.info.numColumns) = ok x →
      (CoversColumns db.info x ∨ db.info.numRows = 0 → answer dpf 2 db q = ok (tableSum db.info blocks x)) ∧
      (¬ CoversColumns db.info x → 0 < db.info.numRows → (answer dpf 2 db q).isCrash)) ∧
    (∀ e, dpf.evalFull q (bitsLen db.info.numColumns) = err e → answer dpf 2 db q = err e) ∧
    (∀ e, dpf.evalFull q (bitsLen db.info.numColumns) = crash e → answer dpf 2 db q = crash e) := by
  have e : answer dpf 2 db q = dpf.evalFull q (bitsLen db.info.numColumns) >>= answerVec db := rfl
  rw [e]
  refine ⟨fun x hx => ?_, fun m hm => by rw [hm]; rfl, fun m hm => by rw [hm]; rfl⟩
  rw [hx, ok_bind]
  have := C143_exact dpf 0 (by decide) db blocks hdb x
  unfold answer at this
  rwa [if_neg (by decide)] at this

/-- C143: queries that select the same columns get the same answer, whatever comes after them. -/
theorem C143_padding (dpf : Dpf) (mode : Nat) (hmode : mode ≠ 2) (db : Bytes) (blocks : List (List Byte))
    (hdb : Stores db blocks) (q q' : List Byte) (h : CoversColumns db.info q) (h' : CoversColumns db.info q')
    (hb : ∀ j, j < db.info.numColumns → bitOf q j = bitOf q' j) : answer dpf mode db q = answer dpf mode db q' := by
  rw [(C143_exact dpf mode hmode db blocks hdb q).1 (Or.inl h), (C143_exact dpf mode hmode db blocks hdb q').1 (Or.inl h')]
  congr 1
  refine ext_getD (by rw [tableSum_length hdb, tableSum_length hdb]) fun k hk => ?_
  rw [tableSum_length hdb] at hk
  have hbs : 0 < db.info.blockSize := Nat.pos_of_mul_pos_left (Nat.zero_lt_of_lt hk)
  have hi : k / db.info.blockSize < db.info.numRows := by rw [Nat.div_lt_iff_lt_mul hbs]; exact hk
  rw [← Nat.div_add_mod' k db.info.blockSize, tableSum_getD hdb q hi (Nat.mod_lt _ hbs),
    tableSum_getD hdb q' hi (Nat.mod_lt _ hbs)]
  exact xsum_congr fun j hj => by rw [hb j hj]

/-- C143: answers add up: the exclusive or of the answers to two queries is the answer to their exclusive or. -/
theorem C143_linear (dpf : Dpf) (mode : Nat) (hmode : mode ≠ 2) (db : Bytes) (blocks : List (List Byte))
    (hdb : Stores db blocks) (q q' : List Byte) (hl : q.length = q'.length) (h : CoversColumns db.info q) :
    ∃ a a', answer dpf mode db q = ok a ∧ answer dpf mode db q' = ok a' ∧
      answer dpf mode db (xorBytes q q') = ok (xorBytes a a') := by
  have h' : CoversColumns db.info q' := by unfold CoversColumns at h ⊢; rwa [← hl]
  have h2 : CoversColumns db.info (xorBytes q q') := by unfold CoversColumns at h ⊢; rwa [xorBytes_length hl]
  refine ⟨_, _, (C143_exact dpf mode hmode db blocks hdb q).1 (Or.inl h), (C143_exact dpf mode hmode db blocks hdb q').1 (Or.inl h'), ?_⟩
  rw [(C143_exact dpf mode hmode db blocks hdb _).1 (Or.inl h2)]
  congr 1
  have hll : (tableSum db.info blocks q).length = (tableSum db.info blocks q').length := by
    rw [tableSum_length hdb, tableSum_length hdb]
  refine ext_getD (by rw [xorBytes_length hll, tableSum_length hdb, tableSum_length hdb]) fun k hk => ?_
  rw [tableSum_length hdb] at hk
  have hbs : 0 < db.info.blockSize := Nat.pos_of_mul_pos_left (Nat.zero_lt_of_lt hk)
  have hi : k / db.info.blockSize < db.info.numRows := by rw [Nat.div_lt_iff_lt_mul hbs]; exact hk
  rw [xorBytes_getD hll, ← Nat.div_add_mod' k db.info.blockSize, tableSum_getD hdb q hi (Nat.mod_lt _ hbs),
    tableSum_getD hdb q' hi (Nat.mod_lt _ hbs), tableSum_getD hdb _ hi (Nat.mod_lt _ hbs), ← xsum_xor]
  exact xsum_congr fun j _ => by
    rw [← sel_xor]
    congr 1
    unfold bitOf
    rw [xorBytes_getD hl]
    simp

/-- Two rows of two blocks; the blocks of the second column are shorter. -/
def fourBlocks : Bytes :=
  ⟨[1, 2, 3, 4, 5, 6],
    { numRows := 2, numColumns := 2, blockSize := 2, blockLengths := [2, 1, 2, 1], pirType := "", root := [], proofLen := 0 }⟩

theorem fourBlocks_stores : Stores fourBlocks [[1, 2], [3], [4, 5], [6]] :=
  ⟨rfl, ⟨[], rfl⟩, rfl, by decide⟩

/-- Both columns, with further bits that do not matter; nothing at all. -/
example : answer plainDpf 0 fourBlocks [0xff, 7] = ok [2, 2, 2, 5] ∧ (answer plainDpf 0 fourBlocks []).isCrash :=
  ⟨(C143_exact plainDpf 0 (by decide) fourBlocks _ fourBlocks_stores [0xff, 7]).1 (Or.inl (by unfold CoversColumns; decide)),
    (C143_exact plainDpf 0 (by decide) fourBlocks _ fourBlocks_stores []).2 (by unfold CoversColumns; decide) (by decide)⟩

example : answer plainDpf 0 fourBlocks [0xff, 7] = answer plainDpf 0 fourBlocks [3] :=
  C143_padding plainDpf 0 (by decide) fourBlocks _ fourBlocks_stores [0xff, 7] [3] (by unfold CoversColumns; decide)
    (by unfold CoversColumns; decide) (by decide)

example : ∃ a a', answer plainDpf 0 fourBlocks [1] = ok a ∧ answer plainDpf 0 fourBlocks [2] = ok a' ∧
    answer plainDpf 0 fourBlocks (xorBytes [1] [2]) = ok (xorBytes a a') :=
  C143_linear plainDpf 0 (by decide) fourBlocks _ fourBlocks_stores [1] [2] rfl (by unfold CoversColumns; decide)

/-- A key whose expansion follows its first byte. -/
example : answer plainDpf 2 fourBlocks [0, 1] = ok (tableSum fourBlocks.info [[1, 2], [3], [4, 5], [6]] [1]) :=
  ((C143_two plainDpf fourBlocks _ fourBlocks_stores [0, 1]).1 [1] rfl).1 (Or.inl (by unfold CoversColumns; decide))

end Verif.Point

namespace Verif.Deploy
open Res Verif.Cmd Verif.Pgp Verif.Pgp.Spec Verif.Query Verif.Client Verif.Client.Spec Verif.MerklePir Verif.Point.Spec
  Verif.Merkle Verif.Merkle.Spec Verif.Layout Verif.Deploy.Spec

/-- The history of a server that answers good queries and panics on the others. -/
theorem decided_history {work : List Byte → Res (List Byte)} {Good : List Byte → Prop} {f : List Byte → List Byte}
    (hgood : ∀ q, Good q → work q = ok (f q)) (hbad : ∀ q, ¬ Good q → (work q).isCrash) {s : Rpc.State}
    (hs : Rpc.Reach work s) (hcl : s.closed = false) :
    (s.crashed = true → ∃ c ∈ s.calls, ¬ Good c.query) ∧
    ((¬ ∃ s', Rpc.Sys work s s') →
      ((∃ c ∈ s.calls, ¬ Good c.query) → s.crashed = true) ∧
      ((∀ c ∈ s.calls, Good c.query) → ∀ c ∈ s.calls, c.cancelled = false → c.status = .returned (.answer (f c.query)))) := by
  have hA : s.crashed = true → ∃ c ∈ s.calls, ¬ Good c.query := by
    intro hcr
    by_contra hc
    push Not at hc
    have := Rpc.C76_stays_up hs hcl (fun c hcc => by rw [hgood _ (hc c hcc)]; simp)
    rw [hcr] at this
    cases this
  refine ⟨hA, fun hrest => ⟨?_, ?_⟩⟩
  · rintro ⟨c, hc, hna⟩
    obtain ⟨i, hi, hic⟩ := List.getElem_of_mem hc
    exact Rpc.C76_crashing_query_is_fatal hs hcl hrest i c (by rw [List.getElem?_eq_getElem hi, hic]) (hbad _ hna)
  · intro hall c hc hcan
    have hcr : s.crashed = false := by
      by_contra hcc
      obtain ⟨c, hc, hna⟩ := hA (by simpa using hcc)
      exact hna (hall c hc)
    obtain ⟨i, hi, hic⟩ := List.getElem_of_mem hc
    rcases Rpc.C44_all_return hs hcr hcl hrest i c (by rw [List.getElem?_eq_getElem hi, hic]) with ⟨a, h1, h2⟩ | ⟨e, h1, -⟩ | ⟨h1, -⟩
    · rw [hgood _ (hall c hc)] at h1
      cases h1
      exact h2
    · rw [hgood _ (hall c hc)] at h1
      cases h1
    · rw [hcan] at h1; cases h1

/-- What a point server has loaded. -/
theorem point_loaded {M : Machine} {config : List (List Char × Server)} {f : ServerFlags} {R : Running}
    (h : serverMain M config f = ok R) {keys : List Key} (hk : loadKeys M f.files = ok keys) :
    (f.scheme = "pointPIR" → ∃ db, generateRealKeyBytes M.hash M.sort M.order keys true = ok db ∧ R.info = pointDbInfo db ∧
      R.answer = Point.answer M.dpf 0 db) ∧
    (f.scheme = "pointVPIR" → ∃ db, generateRealKeyMerkle M.H M.ck M.hash M.sort M.order keys true = ok db ∧
      R.info = pointDbInfo db ∧ R.answer = Point.answer M.dpf 0 db) := by
  unfold serverMain at h
  simp only [bind_eq_ok] at h
  obtain ⟨addrs, -, addr, -, r, hr, _, -, _, -, h⟩ := h
  simp only [ok.injEq] at h
  subst h
  unfold loadServer at hr
  refine ⟨fun hf => ?_, fun hf => ?_⟩
  · rw [if_pos hf] at hr
    simp only [bind_eq_ok, orFatal_eq_ok] at hr
    obtain ⟨keys', hk', db, hdb, hr⟩ := hr
    rw [hk] at hk'
    cases hk'
    simp only [ok.injEq] at hr
    exact ⟨db, hdb, by rw [← hr], by rw [← hr]⟩
  · rw [if_neg (by rw [hf]; decide), if_pos hf] at hr
    simp only [bind_eq_ok, orFatal_eq_ok] at hr
    obtain ⟨keys', hk', db, hdb, hr⟩ := hr
    rw [hk] at hk'
    cases hk'
    simp only [ok.injEq] at hr
    exact ⟨db, hdb, by rw [← hr], by rw [← hr]⟩

/-- C143 for the server program under any number of concurrent clients: a point server (authenticated or not) that has not been
shut down has ended only if it was sent a query with fewer bits than the table has columns, and has ended when it comes to rest
after such a query; if there is none, then at rest every call that was not cancelled has returned the sums of the selected
blocks: those that hold the loaded keys, or, in an authenticated database, these blocks with their proofs. -/
theorem C143_deployed (L : Lib) (hh : HashLong L.hash) (hH : ∀ s, (L.H s).length = 32) (files : List (List Char × List Key))
    (hf : InOrder files) (M : Machine) (hM : Installed L files M) (config : List (List Char × Server)) (id : Int) (k : Nat)
    (hk : k ≤ files.length) (h10 : 10 ≤ (keysIn files k).length) (h32 : (keysIn files k).length ≤ 2 ^ 32) (R C : Nat)
    (hd : calculateNumRowsAndColumns (preSquareNumBlocks (keysIn files k).length) true = (R, C)) (scheme : String)
    (hscheme : scheme = "pointPIR" ∨ scheme = "pointVPIR" ∧ R * C ≤ 2 ^ 31 ∧
      ChecksumsFaithful M.ck (storedBlocks L.hash (R * C) (M.sort (keysIn files k))) ∧
      Nat.clog 2 (storedBlocks L.hash (R * C) (M.sort (keysIn files k))).dedup.length = Nat.clog 2 (R * C))
    (P : Running) (h : serverMain M config ⟨id, k, scheme⟩ = ok P) :
    ∃ db blocks, Stores db blocks ∧ P.info = pointDbInfo db ∧ db.info.numRows = R ∧ db.info.numColumns = C ∧
      (scheme = "pointPIR" → blocks = storedBlocks L.hash (R * C) (M.sort (keysIn files k))) ∧
      (scheme = "pointVPIR" → List.Forall₂ (Sealed L.H db.info.root db.info.proofLen)
        (storedBlocks L.hash (R * C) (M.sort (keysIn files k))) blocks) ∧
      ∀ s, Rpc.Reach P.answer s → s.closed = false →
        (s.crashed = true → ∃ c ∈ s.calls, ¬ CoversColumns db.info c.query) ∧
        ((¬ ∃ s', Rpc.Sys P.answer s s') →
          ((∃ c ∈ s.calls, ¬ CoversColumns db.info c.query) → s.crashed = true) ∧
          ((∀ c ∈ s.calls, CoversColumns db.info c.query) → ∀ c ∈ s.calls, c.cancelled = false →
            c.status = .returned (.answer (tableSum db.info blocks c.query)))) := by
  have hl := point_loaded h (loadKeys_eq hf hM hk)
  have key : ∃ db blocks, Stores db blocks ∧ P.info = pointDbInfo db ∧ db.info.numRows = R ∧ db.info.numColumns = C ∧
      (scheme = "pointPIR" → blocks = storedBlocks L.hash (R * C) (M.sort (keysIn files k))) ∧
      (scheme = "pointVPIR" → List.Forall₂ (Sealed L.H db.info.root db.info.proofLen)
        (storedBlocks L.hash (R * C) (M.sort (keysIn files k))) blocks) ∧ P.answer = Point.answer M.dpf 0 db := by
    rcases hscheme with rfl | ⟨rfl, hsize, hck, hdist⟩
    · obtain ⟨db, hdb, hi, ha⟩ := hl.1 rfl
      rw [hM.hash] at hdb
      have hg := generateRealKeyBytes_eq hh hM.sort hM.order (keysIn files k) h10 h32 true hd
      rw [hdb] at hg
      cases hg
      exact ⟨_, _, ⟨by simp [storedBlocks], ⟨[], by simp⟩, rfl, fun b hb => storedBlock_length_le L.hash _ _ b hb⟩, hi, rfl,
        rfl, fun _ => rfl, fun h => absurd h (by decide), ha⟩
    · obtain ⟨db, hdb, hi, ha⟩ := hl.2 rfl
      rw [hM.hash, hM.digest] at hdb
      obtain ⟨db', hdb', hR, hC, hS⟩ := serves_merkle hH hh hM.sort hM.order (keysIn files k) h10 h32 true hd hsize hck hdist
      rw [hdb] at hdb'
      cases hdb'
      rcases hS with ⟨ht, -⟩ | ⟨-, st, hst, hsl⟩
      · exfalso
        unfold generateRealKeyMerkle at hdb
        simp only [bind_eq_ok] at hdb
        obtain ⟨_, -, _, -, _, -, _, -, _, -, _, -, hdb⟩ := hdb
        simp only [ok.injEq] at hdb
        rw [← hdb] at ht
        exact absurd ht (by simp)
      · exact ⟨db, st, hst, hi, hR, hC, fun h => absurd h (by decide), fun _ => hsl, ha⟩
  obtain ⟨db, blocks, hS, hi, hR, hC, hb1, hb2, ha⟩ := key
  refine ⟨db, blocks, hS, hi, hR, hC, hb1, hb2, fun s hs hcl => ?_⟩
  obtain ⟨-, t2, -⟩ := table_size h32 true
  have t2 := t2 h10
  rw [hd] at t2
  have hR0 : 0 < db.info.numRows := by rw [hR]; exact Nat.pos_of_mul_pos_right t2
  refine decided_history (Good := CoversColumns db.info) (f := tableSum db.info blocks) (fun q hq => ?_) (fun q hq => ?_) hs hcl
  · rw [ha]
    exact (Point.C143_exact M.dpf 0 (by decide) db blocks hS q).1 (Or.inl hq)
  · rw [ha]
    exact (Point.C143_exact M.dpf 0 (by decide) db blocks hS q).2 hq hR0

/-- The hypotheses of `C143_deployed`: a server with twenty keys in two rows and two columns ends at the first empty query, and
otherwise answers. -/
example : ∃ P, serverMain (exMachine Point.plainDpf) (exServers 3) ⟨(0 : Nat), (2 : Nat), "pointPIR"⟩ = ok P ∧
    ∀ s, Rpc.Reach P.answer s → s.closed = false →
      (s.crashed = true → ∃ c ∈ s.calls, c.query = []) ∧
      ((¬ ∃ s', Rpc.Sys P.answer s s') → (∃ c ∈ s.calls, c.query = []) → s.crashed = true) := by
  obtain ⟨running, db, hst, hup⟩ := exUp Point.plainDpf 3 (by omega) exServers_config.1
  obtain ⟨P, -, hP⟩ := mapM_mem hst (a := 0) (by decide)
  have hP' : serverMain (exMachine Point.plainDpf) (exServers 3) ⟨(0 : Nat), (2 : Nat), "pointPIR"⟩ = ok P := hP
  refine ⟨P, hP', fun s hs hcl => ?_⟩
  obtain ⟨db, blocks, -, -, -, hC, -, -, hall⟩ := C143_deployed (exLib Point.plainDpf) lengthHash_long
    Merkle.toyHash_length exFiles exFiles_inOrder (exMachine Point.plainDpf) (exMachine_installed _) (exServers 3) (0 : Nat) 2
    (by decide) (by rw [exFiles_keys]; decide) (by rw [exFiles_keys]; decide) 2 2 exFiles_dims "pointPIR" (Or.inl rfl) P hP'
  have hcov : ∀ q, ¬ CoversColumns db.info q ↔ q = [] := by
    intro q
    unfold CoversColumns
    rw [hC]
    cases q with
    | nil => simp
    | cons a q => simp; omega
  simp only [hcov] at hall
  exact ⟨(hall s hs hcl).1, fun hrest hc => ((hall s hs hcl).2 hrest).1 hc⟩

end Verif.Deploy
