import Verif.Lemmas.Wire
import Verif.Lemmas.Local
import Mathlib.Data.Fintype.BigOperators
import Mathlib.Data.Set.Finite.List

/-! # C93, C94: what the sizes of the messages tell, and what reaches the other end -/

namespace Verif.Wire
open Res Verif.Database Verif.Point Verif.Point.Spec Verif.Wire.Spec

/-! ### C93 -/

/-- C93 as claimed, for a compressor: somebody who sees only the sizes of the encrypted messages between the client and all
the servers sees the same for every two indices, for every database and at least three servers. -/
def C93_Statement (z : Gzip) : Prop :=
  ∀ (dpf : Dpf) (db : Bytes) (blocks : List (List Byte)), Stores db blocks → ∀ n, 3 ≤ n → ∀ i j, i < blocks.length →
    j < blocks.length → ∀ v, Nat.card {r // Sees z dpf db n i v r} = Nat.card {r // Sees z dpf db n j v r}

/-- C93: if all connections but one are watched, the sizes are distributed in the same way for every two indices, whatever the
compressor, the database, and the connection that is not watched. Missing from the full claim: that connection. -/
theorem C93_all_but_one_partial (z : Gzip) (dpf : Dpf) (db : Bytes) (blocks : List (List Byte)) (hdb : Stores db blocks)
    (n m : Nat) (hn2 : n ≠ 2) (hm : m < n) (i j : Nat) (hi : i < blocks.length) (v : List (Nat × Nat)) :
    Nat.card {r // SeesBut z dpf db n m i v r} = Nat.card {r // SeesBut z dpf db n m j v r} := by
  have hC : 0 < db.info.numColumns := by
    rw [hdb.count] at hi
    exact (index_split hi).1
  have step : ∀ i j r, SeesBut z dpf db n m i v r → SeesBut z dpf db n m j v (shift (db.info.numColumns / 8 + 1) m
      (unitDiff (db.info.numColumns / 8 + 1) (i % db.info.numColumns) (j % db.info.numColumns)) r) := by
    rintro i j r ⟨hr, w, hw, rfl⟩
    rw [sizes_eq z _ dpf hdb hC (by omega) hn2 hr, ok.injEq] at hw
    subst hw
    refine ⟨by simpa using hr, _, sizes_eq z _ dpf hdb hC (by omega) hn2 (by simpa using hr), ?_⟩
    rw [map_eraseIdx, map_eraseIdx, ← shares_shift hr (by omega)]
  apply Nat.card_congr
  refine ⟨fun r => ⟨_, step i j r.1 r.2⟩, fun r => ⟨_, step j i r.1 r.2⟩, ?_, ?_⟩
  · rintro ⟨r, hr⟩
    apply Subtype.ext
    simp only
    rw [unitDiff_comm _ (j % db.info.numColumns), shift_shift]
  · rintro ⟨r, hr⟩
    apply Subtype.ext
    simp only
    rw [unitDiff_comm _ (i % db.info.numColumns), shift_shift]

/-- C93: without compression the sizes are the same for all indices and all random choices: those of a query of one bit per
column and of an answer of one block per row. -/
theorem C93_without_compression (z : Gzip) (o : Options) (ho : o.compressed = false) (dpf : Dpf) (db : Bytes)
    (blocks : List (List Byte)) (hdb : Stores db blocks) (n i : Nat) (hn : 0 < n) (hn2 : n ≠ 2) (hi : i < blocks.length)
    (r : List Byte) (hr : r.length = (n - 1) * (db.info.numColumns / 8 + 1)) :
    sizes z o dpf (fun _ => ok r) 0 db i n =
      ok (List.replicate n (5 + (marshal (List.replicate (db.info.numColumns / 8 + 1) 0)).length,
        5 + (marshal (List.replicate (db.info.numRows * db.info.blockSize) 0)).length)) := by
  have hC : 0 < db.info.numColumns := by
    rw [hdb.count] at hi
    exact (index_split hi).1
  rw [sizes_eq z _ dpf hdb hC hn hn2 hr]
  congr 1
  rw [List.eq_replicate_iff]
  refine ⟨by rw [List.length_map, shares_length]; omega, ?_⟩
  intro s hs
  obtain ⟨q, hq, rfl⟩ := List.mem_map.mp hs
  have hql := shares_mem_length hr q hq
  obtain ⟨a, ha, hal, -⟩ := answerVec_spec hdb q (by rw [hql]; omega)
  simp only [linkSizes, ha, size, payload, serverOptions, ho, Bool.false_eq_true, if_false]
  rw [marshal_length (a := q) (b := List.replicate (db.info.numColumns / 8 + 1) 0) (by simp [hql]),
    marshal_length (a := a) (b := List.replicate (db.info.numRows * db.info.blockSize) 0) (by simp [hal])]

/-- C93: if the database is zero outside of one column, and the answer that consists of this column differs in size from an
answer of zeros, the sizes of the answers tell with certainty whether the index looked up lies in the column: it does if
the number of answers with the size of the column is odd. -/
theorem C93_column_seen (z : Gzip) (dpf : Dpf) (db : Bytes) (blocks : List (List Byte)) (hdb : Stores db blocks) (y : Nat)
    (hy : y < db.info.numColumns) (ho : OnlyColumn db blocks y)
    (hsize : (z.compress (marshal (column db blocks y))).length
      ≠ (z.compress (marshal (List.replicate (db.info.numRows * db.info.blockSize) 0))).length)
    (n i : Nat) (hn : 0 < n) (hn2 : n ≠ 2) (r : List Byte)
    (hr : r.length = (n - 1) * (db.info.numColumns / 8 + 1)) :
    ∃ v, sizes z clientOptions dpf (fun _ => ok r) 0 db i n = ok v ∧
      v.countP (fun s => s.2 = 5 + (z.compress (marshal (column db blocks y))).length) % 2
        = if i % db.info.numColumns = y then 1 else 0 := by
  have hC : 0 < db.info.numColumns := by omega
  refine ⟨_, sizes_eq z _ dpf hdb hC hn hn2 hr, ?_⟩
  rw [List.countP_map]
  have hp := shares_parity (C := db.info.numColumns) (y := i % db.info.numColumns) hr (Nat.mod_lt _ hC) y
  have he : (shares db.info.numColumns (i % db.info.numColumns) (n - 1) r).countP
        ((fun s : Nat × Nat => decide (s.2 = 5 + (z.compress (marshal (column db blocks y))).length)) ∘
          linkSizes z clientOptions db)
      = (shares db.info.numColumns (i % db.info.numColumns) (n - 1) r).countP (fun q => bitOf q y) := by
    apply List.countP_congr
    intro q hq
    have ha := answer_only hdb hy ho (q := q) (by rw [shares_mem_length hr q hq]; omega)
    simp only [Function.comp_apply, linkSizes, ha, size, payload, serverOptions, clientOptions, if_true, decide_eq_true_eq]
    cases hb : bitOf q y
    · simp only [Bool.false_eq_true, if_false, iff_false]
      omega
    · simp
  rw [he, hp]
  by_cases h : i % db.info.numColumns = y
  · rw [if_pos h.symm, if_pos h]
  · rw [if_neg (fun h' => h h'.symm), if_neg h]

/-- The database of the two blocks `a` and `b` of equal length in one row. -/
def twoBlocks (a b : List Byte) : Bytes := ⟨a ++ b, ⟨1, 2, a.length, [a.length, b.length], "", [], 0⟩⟩

theorem twoBlocks_stores {a b : List Byte} (h : a.length = b.length) : Stores (twoBlocks a b) [a, b] :=
  ⟨rfl, ⟨[], by simp [twoBlocks]⟩, rfl, by simp [twoBlocks, h]⟩

/-- A lossless compressor that makes a message of zeros shorter than its content gives another size to some other content of
the same length. -/
theorem other_size (z : Gzip) (hz : Lossless z) (m : Nat)
    (hm : (z.compress (marshal (List.replicate m 0))).length < m) :
    ∃ d : List Byte, d.length = m ∧
      (z.compress (marshal d)).length ≠ (z.compress (marshal (List.replicate m 0))).length := by
  by_contra hc
  push Not at hc
  generalize (z.compress (marshal (List.replicate m 0))).length = k at *
  let f : List.Vector Byte m → List.Vector Byte k := fun d => ⟨z.compress (marshal d.1), hc d.1 d.2⟩
  have hf : Function.Injective f := by
    intro a b hab
    have h1 : z.compress (marshal a.1) = z.compress (marshal b.1) := congrArg Subtype.val hab
    have h2 := hz (marshal a.1)
    rw [h1, hz, Option.some.injEq] at h2
    exact Subtype.ext (marshal_injective h2.symm)
  have e : Byte ≃ Fin (2 ^ 8) := ⟨BitVec.toFin, BitVec.ofFin, fun _ => rfl, fun _ => rfl⟩
  let _ : Fintype Byte := Fintype.ofEquiv _ e.symm
  have hb : Fintype.card Byte = 256 := by rw [Fintype.card_congr e, Fintype.card_fin]; rfl
  have h := Fintype.card_le_of_injective f hf
  rw [card_vector, card_vector, hb] at h
  exact absurd h (by rw [not_le]; exact Nat.pow_lt_pow_right (by omega) hm)

/-- C93: for every lossless compressor that compresses an answer of zeros at all there is a database of two records, and
somebody who sees the sizes of the messages of a lookup knows which of them is looked up, for every number of servers from
three and in every run. -/
theorem C93_any_compressor (z : Gzip) (hz : Lossless z) (m : Nat)
    (hm : (z.compress (marshal (List.replicate m 0))).length < m) (dpf : Dpf) (n : Nat) (hn : 0 < n) (hn2 : n ≠ 2) :
    ∃ a b : List Byte, a.length = m ∧ b.length = m ∧ Stores (twoBlocks a b) [a, b] ∧
      ∃ guess : List (Nat × Nat) → Nat, ∀ i : Nat, i < 2 → ∀ r, r.length = n - 1 → ∃ v,
        sizes z clientOptions dpf (fun _ => ok r) 0 (twoBlocks a b) i n = ok v ∧ guess v = i := by
  obtain ⟨d, hd, hne⟩ := other_size z hz m hm
  have hst : Stores (twoBlocks (List.replicate m 0) d) [List.replicate m 0, d] := twoBlocks_stores (by simp [hd])
  have hcol : column (twoBlocks (List.replicate m 0) d) [List.replicate m 0, d] 1 = d := by
    apply ext_getD
    · simp [column, twoBlocks, hd]
    · intro p hp
      have hpm : p < m := by simpa [column, twoBlocks] using hp
      simp [column, twoBlocks, List.getD, hpm, Nat.div_eq_of_lt hpm, Nat.mod_eq_of_lt hpm]
  refine ⟨List.replicate m 0, d, by simp, hd, hst,
    fun v => v.countP (fun s => s.2 = 5 + (z.compress (marshal d)).length) % 2, ?_⟩
  intro i hi r hr
  obtain ⟨v, hv, hc⟩ := C93_column_seen z dpf _ _ hst 1 (by simp [twoBlocks]) (by
      intro j hj hj1 b hb
      have : j = 0 := by simp [twoBlocks] at hj hj1; omega
      subst this
      exact (List.mem_replicate.mp (by simpa using hb)).2) (by
      rw [hcol]
      simpa [twoBlocks] using hne) n i hn hn2 r (by simpa [twoBlocks] using hr)
  refine ⟨v, hv, ?_⟩
  rw [hcol] at hc
  simp only
  rw [hc]
  simp only [twoBlocks]
  rcases (show i = 0 ∨ i = 1 by omega) with rfl | rfl <;> rfl

/-- C93 as claimed is false of every lossless compressor that compresses an answer of zeros. -/
theorem C93_refuted (z : Gzip) (hz : Lossless z) (m : Nat) (hm : (z.compress (marshal (List.replicate m 0))).length < m) :
    ¬ C93_Statement z := by
  intro h
  let dpf : Dpf := ⟨fun _ _ => err "", fun _ _ => err ""⟩
  obtain ⟨a, b, -, -, hst, guess, hg⟩ := C93_any_compressor z hz m hm dpf 3 (by omega) (by omega)
  obtain ⟨v, hv, hgv⟩ := hg 0 (by omega) [0, 0] rfl
  have hc := h dpf (twoBlocks a b) [a, b] hst 3 (by omega) 0 1 (by simp) (by simp) v
  have h1 : IsEmpty {r // Sees z dpf (twoBlocks a b) 3 1 v r} := by
    constructor
    rintro ⟨r, hr, hv'⟩
    obtain ⟨w, hw, hgw⟩ := hg 1 (by omega) r (by simpa [twoBlocks] using hr)
    have := hv'.symm.trans hw
    rw [ok.injEq] at this
    rw [← this, hgv] at hgw
    omega
  have : Finite Byte := Finite.of_injective BitVec.toFin fun _ _ h => BitVec.toFin_inj.mp h
  have h0 : Finite {r // Sees z dpf (twoBlocks a b) 3 0 v r} :=
    Set.Finite.subset (List.finite_length_eq Byte 2) (fun r hr => by simpa [twoBlocks] using hr.1)
  rw [Nat.card_eq_zero.mpr (Or.inl h1)] at hc
  rcases Nat.card_eq_zero.mp hc with he | he
  · exact he.elim ⟨[0, 0], by simp [twoBlocks], hv⟩
  · exact he.not_finite h0

/-- A compressor that has a short form for one message. -/
def toyGzip : Gzip :=
  { compress := fun x => if x = marshal (List.replicate 5 0) then [1] else 0 :: x
    decompress := fun x => match x with
      | 0 :: x => some x
      | [1] => some (marshal (List.replicate 5 0))
      | _ => none }

theorem toyGzip_lossless : Lossless toyGzip := by
  intro x
  by_cases h : x = marshal (List.replicate 5 0)
  · simp only [toyGzip, if_pos h]
    rw [h]
    rfl
  · simp only [toyGzip, if_neg h]
    rfl

theorem toyGzip_shortens : (toyGzip.compress (marshal (List.replicate 5 0))).length < 5 := by simp [toyGzip]

/-- The hypotheses of the theorems above are met. -/
example := C93_any_compressor toyGzip toyGzip_lossless 5 toyGzip_shortens plainDpf 3 (by decide) (by decide)
example : ¬ C93_Statement toyGzip := C93_refuted toyGzip toyGzip_lossless 5 toyGzip_shortens
example := C93_all_but_one_partial toyGzip plainDpf exDB exBlocks exDB_stores 3 1 (by decide) (by decide) 0 3 (by decide)
example := C93_without_compression toyGzip ⟨false, 100, 100⟩ rfl plainDpf exDB exBlocks exDB_stores 3 2 (by decide) (by decide)
  (by decide) [5, 6] rfl
example : ∃ v r, SeesBut toyGzip plainDpf exDB 3 1 3 v r :=
  ⟨_, [5, 6], rfl, _, sizes_eq toyGzip _ plainDpf exDB_stores (by decide) (by decide) (by decide) rfl, rfl⟩

/-! ### C94 -/

/-- C94: a call brings the query to the server and the answer back as they were sent, if both are at most 1 GiB (before and
after compression); what the server reports instead of an answer is what the client gets; and if the query or the answer is
larger the call fails. -/
theorem C94_call (z : Gzip) (hz : Lossless z) (handler : List Byte → Res (List Byte)) (q : List Byte) :
    (Fits z q → (∀ a, handler q = ok a → Fits z a) → call z clientOptions handler q = handler q) ∧
    (¬ Fits z q → ∃ m, call z clientOptions handler q = err m) ∧
    (Fits z q → ∀ a, handler q = ok a → ¬ Fits z a → ∃ m, call z clientOptions handler q = err m) := by
  have e1 : clientOptions.maxSend = GiB := by decide
  have e2 : (serverOptions clientOptions).maxRecv = GiB := by decide
  have e3 : (serverOptions clientOptions).maxSend = GiB := by decide
  have e4 : clientOptions.maxRecv = GiB := by decide
  refine ⟨?_, ?_, ?_⟩
  · intro hq ha
    rw [call, transmit_fits hz rfl e1 e2 hq, ok_bind]
    cases h : handler q with
    | ok a => rw [ok_bind, transmit_fits hz rfl e3 e4 (ha a h)]
    | err m => rfl
    | crash m => rfl
  · intro hq
    obtain ⟨m, hm⟩ := transmit_large hz rfl e1 e2 hq
    exact ⟨m, by rw [call, hm]; rfl⟩
  · intro hq a ha hl
    obtain ⟨m, hm⟩ := transmit_large hz rfl e3 e4 hl
    exact ⟨m, by rw [call, transmit_fits hz rfl e1 e2 hq, ok_bind, ha, ok_bind, hm]⟩

/-- C94 for the clients: the connections make no difference to what queries of at most 1 GiB with answers of at most 1 GiB
bring back, for all servers and in every order of arrival. -/
theorem C94_queries (z : Gzip) (hz : Lossless z) (net : Client.Net) (S : Client.Schedule) (servers : List String)
    (queries : List (List Byte)) (hq : ∀ q ∈ queries, Fits z q)
    (ha : ∀ s ∈ servers, ∀ q ∈ queries, ∀ a, net.answer s q = ok a → Fits z a) :
    Client.runQueriesActor (overWire z net) S servers queries = Client.runQueriesActor net S servers queries := by
  unfold Client.runQueriesActor
  cases hs : Client.sends servers queries with
  | err m => rfl
  | crash m => rfl
  | ok sent =>
    simp only [ok_bind]
    have hmem : ∀ m ∈ sent, m.1 ∈ servers ∧ m.2 ∈ queries := by
      intro m hm
      obtain ⟨c, hc, he⟩ := (Local.mapM_forall hs).2 m hm
      obtain ⟨q, hq, he⟩ := bind_eq_ok.mp he
      cases he
      exact ⟨(List.mem_zipIdx hc).2.2 ▸ List.getElem_mem _, List.mem_of_getElem? (idx_eq_ok.mp hq)⟩
    rw [mapM_congr (g := fun m => Client.orFatal (net.answer m.1 m.2))]
    intro m hm
    obtain ⟨h1, h2⟩ := hmem m hm
    simp only [overWire, (C94_call z hz (net.answer m.1) m.2).1 (hq _ h2) (ha _ h1 _ h2)]

theorem fits_of_length {z : Gzip} (hz : Modest z) {b : List Byte} (h : b.length ≤ 2 ^ 29) : Fits z b := by
  have h1 := marshal_length_le (b := b) (k := 5) (by omega) (by omega)
  have h2 := hz (marshal b)
  unfold Fits GiB
  constructor <;> omega

/-- C94 for lookups: over connections with a compressor that makes messages at most slightly longer, every record is found of
a database with up to 2^32 columns and up to 512 MiB in one column, with every number of servers other than two. -/
theorem C94_lookup (z : Gzip) (hz : Lossless z) (hm : Modest z) (dpf : Dpf) (read : Nat → Res (List Byte))
    (hread : Delivers read) (db : Bytes) (blocks : List (List Byte)) (hdb : Stores db blocks)
    (hC : db.info.numColumns < 2 ^ 32) (hR : db.info.numRows * db.info.blockSize ≤ 2 ^ 29) (i n : Nat)
    (hi : i < blocks.length) (hn : 0 < n) (hn2 : n ≠ 2) :
    retrieve z dpf read 0 db i n = ok (zeroExtend db.info.blockSize blocks[i]) := by
  rw [← C01_retrieve dpf read hread db blocks hdb i n hi hn hn2]
  have hi' := hi
  rw [hdb.count] at hi'
  obtain ⟨rand, -, hrl, hq⟩ := query_shares dpf hread (i := i) (index_split hi').1 hn hn2
  unfold retrieve Point.retrieve
  rw [hq]
  simp only [ok_bind]
  rw [mapM_congr (g := answer dpf 0 db)]
  intro q hq
  have hql := shares_mem_length hrl q hq
  refine (C94_call z hz _ q).1 (fits_of_length hm (by rw [hql]; omega)) ?_
  intro a ha
  obtain ⟨b, hb, hbl, -⟩ := answerVec_spec hdb q (by rw [hql]; omega)
  have hab : a = b := by
    have := hb.symm.trans ha
    rw [ok.injEq] at this
    exact this.symm
  exact fits_of_length hm (by rw [hab, hbl]; exact hR)

/-- C94: a database with more than 1 GiB in one column is of no use: every lookup fails with an error. -/
theorem C94_large_database (z : Gzip) (hz : Lossless z) (dpf : Dpf) (read : Nat → Res (List Byte))
    (hread : Delivers read) (db : Bytes) (blocks : List (List Byte)) (hdb : Stores db blocks)
    (hR : 2 ^ 30 < db.info.numRows * db.info.blockSize) (i n : Nat) (hi : i < blocks.length) (hn : 0 < n) (hn2 : n ≠ 2) :
    ∃ m, retrieve z dpf read 0 db i n = err m := by
  rw [hdb.count] at hi
  obtain ⟨rand, -, hrl, hq⟩ := query_shares dpf hread (i := i) (index_split hi).1 hn hn2
  unfold retrieve
  rw [hq]
  simp only [ok_bind]
  have hne := shares_length db.info.numColumns (i % db.info.numColumns) (n - 1) rand
  have hmem := shares_mem_length (C := db.info.numColumns) (y := i % db.info.numColumns) hrl
  generalize shares db.info.numColumns (i % db.info.numColumns) (n - 1) rand = l at hne hmem
  cases l with
  | nil => simp at hne
  | cons q l =>
    have hql := hmem q (by simp)
    obtain ⟨a, ha, hal, -⟩ := answerVec_spec hdb q (by rw [hql]; omega)
    have hlarge : ¬ Fits z a := by
      intro hf
      have h1 := le_marshal_length a
      have h2 := hf.1
      rw [hal] at h1
      unfold GiB at h2
      omega
    have : ∃ m, call z clientOptions (answer dpf 0 db) q = err m := by
      by_cases hf : Fits z q
      · exact (C94_call z hz _ q).2.2 hf a ha hlarge
      · exact (C94_call z hz _ q).2.1 hf
    obtain ⟨m, hm⟩ := this
    exact ⟨m, by rw [List.mapM_cons, hm]; rfl⟩

theorem toyGzip_modest : Modest toyGzip := by
  intro x
  simp only [toyGzip]
  split
  · simp
  · simp; omega

/-- The hypotheses are met; so are those of `C94_large_database`, by one block of zeros of more than 1 GiB. -/
example := C94_lookup toyGzip toyGzip_lossless toyGzip_modest plainDpf sevens sevens_delivers exDB exBlocks exDB_stores (by decide)
  (by decide) 3 3 (by decide) (by decide) (by decide)

example (m : Nat) (hm : 2 ^ 30 < m) := C94_large_database toyGzip toyGzip_lossless plainDpf sevens sevens_delivers
  ⟨List.replicate m 0, ⟨1, 1, m, [m], "", [], 0⟩⟩ [List.replicate m 0]
  ⟨rfl, ⟨[], by simp⟩, by simp, by simp⟩ (by simpa using hm) 0 3 (by simp) (by decide) (by decide)

example (net : Client.Net) (S : Client.Schedule) (hnet : ∀ s q a, net.answer s q = ok a → a.length = 5) :=
  C94_queries toyGzip toyGzip_lossless net S ["a", "b"] [[1], [2, 3]]
    (by intro q hq; exact fits_of_length toyGzip_modest (by simp at hq; rcases hq with rfl | rfl <;> simp))
    (fun s _ q _ a ha => fits_of_length toyGzip_modest (by rw [hnet s q a ha]; decide))

end Verif.Wire
