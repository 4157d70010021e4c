import Verif.Lemmas.SingleAnswer
import Verif.Lemmas.Local
import Verif.Props.Dh

/-! # C144: exactly what the single-server schemes' servers do with any query (lib/server/lwe.go, lwe128.go, dh.go) -/

namespace Verif.Lwe
open Res Verif.Matrix Verif.Utils Verif.Lwe.Spec Finset

theorem getD_map_range {w : Nat} (n : Nat) (f : Nat → Nat) (i : Nat) :
    (((List.range n).map (fun k => BitVec.ofNat w (f k))).getD i 0).toNat = if i < n then f i % 2 ^ w else 0 := by
  split
  · rename_i h
    simp [List.getD, h]
  · rename_i h
    simp [List.getD, h]

/-- C144 for the 32-bit LWE server: it panics unless the query announces a matrix that can be multiplied with the table and
carries an entry. Announced rows from 2^31 on are answered by zeros. Otherwise the C code is outside of what the language
defines exactly if entries are missing or a matrix has more than 2^31 entries; if not, the answer holds the sums of the selected
entries modulo 2^32. -/
theorem C144_lwe (db : Db 32) (hv : db.Valid) (hR : db.numRows < 2 ^ 31) (hC : db.numColumns < 2 ^ 31) (q : List Byte) :
    (¬ (Conforms db.numRows db.numColumns q ∧ 0 < carried format32 q) → Panics (answerBytes lwe32 db q)) ∧
    (Conforms db.numRows db.numColumns q → 0 < carried format32 q →
      (2 ^ 31 ≤ announcedRows q → ∃ a, answerBytes lwe32 db q = ok a ∧
        Holds format32 a (announcedRows q) db.numColumns (fun _ _ => 0)) ∧
      (announcedRows q < 2 ^ 31 →
        (¬ (Indexable (announcedRows q) db.numRows db.numColumns ∧ announcedRows q * db.numRows ≤ carried format32 q) →
          Undefined (answerBytes lwe32 db q)) ∧
        (Indexable (announcedRows q) db.numRows db.numColumns → announcedRows q * db.numRows ≤ carried format32 q →
          ∃ a, answerBytes lwe32 db q = ok a ∧ Holds format32 a (announcedRows q) db.numColumns
            (fun i j => selectedSum (format32.word q) db.matrix db.numRows i j % 2 ^ 32)))) := by
  by_cases h8 : 8 ≤ q.length
  swap
  · refine ⟨fun _ => panics_bind (read_short q (by omega)).1, fun h => absurd h.1 h8⟩
  set A : Mat 32 := ⟨announcedRows q, announcedColumns q,
    (List.range (carried format32 q)).map (fun n => BitVec.ofNat 32 (format32.word q n))⟩ with hA
  have hlen : A.data.length = carried format32 q := by simp [hA]
  have hrow : A.rows < 2 ^ 32 := number_lt q 0
  have key : answerBytes lwe32 db q = (binaryMul A db.matrix >>= fun c => ok (enc c)) := by
    unfold answerBytes
    show (bytesToMatrix q >>= fun m => binaryMul m db.matrix >>= fun a => matrixToBytes a) = _
    rw [read32 q h8, ok_bind]
    simp only [matrixToBytes_eq]
    rfl
  have hdec := binaryMul_decided A db.matrix hv.wf (by rw [hv.rows]; exact hR) (by rw [hv.cols]; exact hC) hrow
  rw [hv.rows, hv.cols, hlen] at hdec
  rw [key]
  refine ⟨fun h => panics_bind (hdec.1 fun h' => h ⟨⟨h8, h'.1, h'.2.1, h'.2.2.1, h'.2.2.2.1⟩, h'.2.2.2.2⟩), ?_⟩
  intro hc h0
  obtain ⟨hz, hu⟩ := hdec.2 hc.2.1 hc.2.2.1 hc.2.2.2.1 hc.2.2.2.2 h0
  refine ⟨fun h => ?_, fun h => ⟨fun hn => undefined_bind (hu h hn), fun hi hl => ?_⟩⟩
  · rw [hz h, ok_bind]
    have hh := holds32 (new 32 A.rows db.numColumns) (by simp [Mat.WellFormed, new]) hrow
      (by show db.numColumns < _; omega)
    refine ⟨_, rfl, ?_⟩
    have e : (fun i j => ((new 32 A.rows db.numColumns).entry i j).toNat) = fun _ _ => 0 := by
      funext i j
      unfold Mat.entry new
      rw [getD_zeros]
      rfl
    rw [e] at hh
    exact hh
  · have hf : FitsInt A.rows A.cols db.matrix.cols := by
      rw [hv.cols]
      show FitsInt (announcedRows q) (announcedColumns q) _
      rw [hc.2.1]
      exact ⟨hc.2.2.1, hc.2.2.2.1, hc.2.2.2.2, h, hR, hC, hi.1, hi.2.1, hi.2.2⟩
    have hcols : A.cols = db.numRows := hc.2.1
    obtain ⟨c, h1, h2, h3, h4, h5⟩ := mulGo_spec andOp A db.matrix (by rw [hv.rows]; exact hc.2.1) hf
      (by rw [hlen, hcols]; exact hl) (Nat.le_of_eq hv.wf.symm)
    have h1' : binaryMul A db.matrix = ok c := h1
    rw [h1', ok_bind]
    refine ⟨_, rfl, ?_⟩
    have hh := holds32 c h4 (by rw [h2]; exact hrow) (by rw [h3, hv.cols]; omega)
    rw [h2, h3, hv.cols] at hh
    refine ⟨hh.1, hh.2.1, hh.2.2.1, fun i j hi' hj => ?_⟩
    rw [hh.2.2.2 i j hi' hj]
    dsimp only
    rw [h5 i j hi' (by rw [hv.cols]; exact hj), toNat_sum, hcols]
    unfold selectedSum
    rw [← sum_mod_word]
    congr 1
    refine sum_congr rfl fun k hk => ?_
    rw [andOp_stored _ _ hv.bin]
    have hlt : i * db.numRows + k < carried format32 q := by
      have hk' := mem_range.mp hk
      have : (i + 1) * db.numRows ≤ announcedRows q * db.numRows := Nat.mul_le_mul_right _ hi'
      rw [Nat.succ_mul] at this
      omega
    split
    · unfold Mat.entry
      rw [hcols, hA, getD_map_range, if_pos hlt]
    · rfl

/-- A table of two rows and one column. -/
def exTable (w : Nat) : Db w := ⟨⟨2, 1, [1, 1]⟩, 2, 1, ⟨1, 1, [0]⟩⟩

example (w : Nat) : (exTable w).Valid ∧ (exTable w).numRows < 2 ^ 31 ∧ (exTable w).numColumns < 2 ^ 31 :=
  ⟨⟨rfl, by intro x hx; right; simpa [exTable] using hx, rfl, rfl⟩, by simp [exTable], by simp [exTable]⟩

-- The four cases: a header that does not fit the table, 2^31 rows, a missing entry, a complete query.
example : ¬ Conforms 2 1 [0, 0, 0, 1, 0, 0, 0, 3, 0, 0, 0, 7] := by decide
example : Conforms 2 1 [128, 0, 0, 0, 0, 0, 0, 2, 0, 0, 0, 7] ∧ 0 < carried format32 [128, 0, 0, 0, 0, 0, 0, 2, 0, 0, 0, 7] ∧
    2 ^ 31 ≤ announcedRows [128, 0, 0, 0, 0, 0, 0, 2, 0, 0, 0, 7] := by decide
example : Conforms 2 1 [0, 0, 0, 1, 0, 0, 0, 2, 0, 0, 0, 7] ∧ 0 < carried format32 [0, 0, 0, 1, 0, 0, 0, 2, 0, 0, 0, 7] ∧
    ¬ 1 * 2 ≤ carried format32 [0, 0, 0, 1, 0, 0, 0, 2, 0, 0, 0, 7] := by decide
example : answerBytes lwe32 (exTable 32) [0, 0, 0, 1, 0, 0, 0, 2, 0, 0, 0, 7, 0, 0, 1, 1] =
    ok [0, 0, 0, 1, 0, 0, 0, 1, 0, 0, 1, 8] := by decide +kernel

/-- C144 for the 128-bit LWE server: it panics unless the query announces a matrix that can be multiplied with the table and
carries no more entries than announced. Announced rows from 2^31 on are answered by zeros. Otherwise the C code is outside of what
the language defines exactly if a matrix has more than 2^31 entries; if not, the answer holds the sums of the selected entries
modulo 2^128, those that are missing counting as zero. -/
theorem C144_lwe128 (db : Db 128) (hv : db.Valid) (hR : db.numRows < 2 ^ 31) (hC : db.numColumns < 2 ^ 31) (q : List Byte) :
    (¬ (Conforms db.numRows db.numColumns q ∧ carried format128 q ≤ announcedRows q * db.numRows) →
      Panics (answerBytes lwe128 db q)) ∧
    (Conforms db.numRows db.numColumns q → carried format128 q ≤ announcedRows q * db.numRows →
      (2 ^ 31 ≤ announcedRows q → ∃ a, answerBytes lwe128 db q = ok a ∧
        Holds format128 a (announcedRows q) db.numColumns (fun _ _ => 0)) ∧
      (announcedRows q < 2 ^ 31 →
        (¬ Indexable (announcedRows q) db.numRows db.numColumns → Undefined (answerBytes lwe128 db q)) ∧
        (Indexable (announcedRows q) db.numRows db.numColumns →
          ∃ a, answerBytes lwe128 db q = ok a ∧ Holds format128 a (announcedRows q) db.numColumns
            (fun i j => selectedSum (fun n => if n < carried format128 q then format128.word q n else 0)
              db.matrix db.numRows i j % 2 ^ 128)))) := by
  by_cases h8 : 8 ≤ q.length
  swap
  · refine ⟨fun _ => panics_bind (read_short q (by omega)).2, fun h => absurd h.1 h8⟩
  set A : Mat 128 := ⟨announcedRows q, announcedColumns q,
    (List.range (carried format128 q)).map (fun n => BitVec.ofNat 128 (format128.word q n))⟩ with hA
  have hlen : A.data.length = carried format128 q := by simp [hA]
  have hrow : A.rows < 2 ^ 32 := number_lt q 0
  have hdec := binaryMul128_decided A db.matrix hv.wf (by rw [hv.rows]; exact hR) (by rw [hv.cols]; exact hC) hrow
  rw [hv.rows, hv.cols, hlen] at hdec
  have key : answerBytes lwe128 db q = (binaryMul128 A db.matrix >>= fun c => matrix128ToBytes c) := by
    unfold answerBytes
    show (bytesToMatrix128 q >>= fun m => binaryMul128 m db.matrix >>= fun a => matrix128ToBytes a) = _
    rw [read128 q h8, ok_bind]
  rw [key]
  refine ⟨fun h => panics_bind (hdec.1 fun h' => h ⟨⟨h8, h'.1, h'.2.1, h'.2.2.1, h'.2.2.2.1⟩, h'.2.2.2.2⟩), ?_⟩
  intro hc h0
  obtain ⟨hz, hu⟩ := hdec.2 hc.2.1 hc.2.2.1 hc.2.2.2.1 hc.2.2.2.2 h0
  refine ⟨fun h => ?_, fun h => ⟨fun hn => undefined_bind (hu h hn), fun hi => ?_⟩⟩
  · rw [hz h, ok_bind, matrix128ToBytes_eq]
    have hh := holds128 (new 128 A.rows db.numColumns) (by simp [Mat.WellFormed, new]) hrow
      (by show db.numColumns < _; omega)
    refine ⟨_, rfl, ?_⟩
    have e : (fun i j => ((new 128 A.rows db.numColumns).entry i j).toNat) = fun _ _ => 0 := by
      funext i j
      unfold Mat.entry new
      rw [getD_zeros]
      rfl
    rw [e] at hh
    exact hh
  · have hcols : A.cols = db.numRows := hc.2.1
    have hle : A.data.length ≤ A.rows * A.cols := by rw [hlen, hcols]; exact h0
    set B : Mat 128 := ⟨A.rows, A.cols, A.data ++ List.replicate (A.rows * A.cols - A.data.length) 0⟩ with hB
    have hwf : B.WellFormed := by
      simp only [hB, Mat.WellFormed, List.length_append, List.length_replicate]; omega
    have hsame : binaryMul128 A db.matrix = binaryMul128 B db.matrix := by
      unfold binaryMul128
      rw [pack_short A hle, pack_eq B hwf]
    have hf : FitsInt B.rows B.cols db.matrix.cols := by
      rw [hv.cols]
      show FitsInt (announcedRows q) (announcedColumns q) _
      rw [hc.2.1]
      exact ⟨hc.2.2.1, hc.2.2.2.1, hc.2.2.2.2, h, hR, hC, hi.1, hi.2.1, hi.2.2⟩
    obtain ⟨c, h1, h2, h3, h4, h5⟩ := binaryMul128_spec B db.matrix (by rw [hv.rows]; exact hc.2.1) hf hwf hv.wf
    rw [hsame, h1, ok_bind, matrix128ToBytes_eq]
    refine ⟨_, rfl, ?_⟩
    have hh := holds128 c h4 (by rw [h2]; exact hrow) (by rw [h3, hv.cols]; omega)
    rw [h2, h3, hv.cols] at hh
    refine ⟨hh.1, hh.2.1, hh.2.2.1, fun i j hi' hj => ?_⟩
    rw [hh.2.2.2 i j hi' hj]
    dsimp only
    rw [h5 i j hi' (by rw [hv.cols]; exact hj), toNat_sum]
    have hBc : B.cols = db.numRows := hcols
    rw [hBc]
    unfold selectedSum
    rw [← sum_mod_word]
    congr 1
    refine sum_congr rfl fun k hk => ?_
    rw [andOp_stored _ _ hv.bin]
    split
    · unfold Mat.entry
      rw [hBc]
      have : B.data.getD (i * db.numRows + k) 0 = A.data.getD (i * db.numRows + k) 0 := by
        simp only [hB, List.getD]
        by_cases hlt : i * db.numRows + k < A.data.length
        · rw [List.getElem?_append_left hlt]
        · rw [List.getElem?_append_right (by omega), List.getElem?_eq_none (l := A.data) (by omega)]
          rw [List.getElem?_replicate]
          split <;> rfl
      rw [this, hA, getD_map_range]
      dsimp only
      by_cases hlt : i * db.numRows + k < carried format128 q
      · rw [if_pos hlt, if_pos hlt]
      · rw [if_neg hlt, if_neg hlt, Nat.zero_mod]
    · rfl

-- A query of one row that carries no entry is answered by zero.
example : Conforms 2 1 [0, 0, 0, 1, 0, 0, 0, 2] ∧ carried format128 [0, 0, 0, 1, 0, 0, 0, 2] ≤ 1 * 2 ∧ Indexable 1 2 1 := by
  decide
example : answerBytes lwe128 (exTable 128) [0, 0, 0, 1, 0, 0, 0, 2] = ok ([0, 0, 0, 1, 0, 0, 0, 1] ++ List.replicate 16 0) := by
  decide +kernel

end Verif.Lwe

namespace Verif.Dh
open Res Verif.Dh.Spec Verif.Parallel

variable {G : Type}

/-- Reading the first `m` whole pieces. -/
theorem read_prefix (g : Grp G) (n : Nat) (q : List Byte) (m : Nat) (hm : m * n ≤ q.length)
    (h : ∀ i, i < m → ∃ x, g.dec (piece n q i) = ok x) :
    ∃ v : List G, v.length = m ∧ (∀ i x, v[i]? = some x → g.dec (piece n q i) = ok x) ∧
      forLoop m (fun i decoded => do
        let b ← slice q (i * n) (i * n + n)
        let elem ← g.dec b
        ok (decoded ++ [elem])) [] = ok v := by
  induction m with
  | zero => exact ⟨[], rfl, by simp, rfl⟩
  | succ m ih =>
    rw [Nat.succ_mul] at hm
    obtain ⟨v, hl, hv, hloop⟩ := ih (by omega) (fun i hi => h i (by omega))
    obtain ⟨x, hx⟩ := h m (by omega)
    refine ⟨v ++ [x], by simp [hl], ?_, ?_⟩
    · intro i y hy
      rcases Nat.lt_trichotomy i m with hi | hi | hi
      · rw [List.getElem?_append_left (by omega)] at hy
        exact hv i y hy
      · subst hi
        rw [List.getElem?_append_right (by omega), hl, Nat.sub_self] at hy
        simp only [List.getElem?_cons_zero, Option.some.injEq] at hy
        rw [← hy]
        exact hx
      · rw [List.getElem?_eq_none (by simp; omega)] at hy
        cases hy
    · rw [forLoop_succ, hloop, ok_bind, slice_of_le (by omega) hm, ok_bind,
        show m * n + n - m * n = n by omega]
      unfold piece at hx
      rw [hx, ok_bind]

/-- The loop over the pieces of a message ends with what piece `m` gives if the pieces before it are decoded. -/
theorem loop_stops {σ : Type} {n m : Nat} {body : Nat → σ → Res σ} {s t : σ} (hm : m < n) (h : forLoop m body s = ok t) :
    (∀ e, body m t = err e → forLoop n body s = err e) ∧ (∀ e, body m t = crash e → forLoop n body s = crash e) := by
  obtain ⟨k, rfl⟩ : ∃ k, n = m + 1 + k := ⟨n - (m + 1), by omega⟩
  have hs : forLoop (m + 1) body s = body m t := by rw [forLoop_succ, h, ok_bind]
  induction k with
  | zero =>
    rw [Nat.add_zero, hs]
    exact ⟨fun e he => he, fun e he => he⟩
  | succ k ih =>
    obtain ⟨h1, h2⟩ := ih (by omega)
    rw [show m + 1 + (k + 1) = (m + 1 + k) + 1 by omega, forLoop_succ]
    refine ⟨fun e he => by rw [h1 e he, err_bind], fun e he => by rw [h2 e he, crash_bind]⟩

theorem unmarshal_lists (g : Grp G) (n : Nat) (hn : 0 < n) (q : List Byte) (v : List G) (h : Lists g n q v) :
    unmarshalGroupElements g q n = ok v := by
  obtain ⟨hl, hv⟩ := h
  obtain ⟨v', h1, h2, h3⟩ := read_prefix g n q v.length (by omega) (fun i hi => ⟨v[i], hv i _ (by simp [hi])⟩)
  have : v' = v := by
    refine List.ext_getElem h1 fun i hi hi' => ?_
    have e1 := h2 i v'[i] (by simp [hi])
    have e2 := hv i v[i] (by simp [hi'])
    rw [e1] at e2
    simpa using e2
  unfold unmarshalGroupElements
  have hc : (q.length + n - 1) / n = v.length := by
    rw [hl, show v.length * n + n - 1 = n * v.length + (n - 1) by rw [Nat.mul_comm]; omega, Nat.mul_add_div hn,
      Nat.div_eq_of_lt (by omega), Nat.add_zero]
  rw [if_neg (by omega), hc, h3, this]

variable [AddCommGroup G] [DecidableEq G]

omit [DecidableEq G] in
/-- The rows of a query with an element for each set bit. -/
theorem processRows_covered (db : Elliptic) (hc : db.entries.length = db.info.numRows * db.info.numColumns) (v : List G)
    (hv : CoversBits db v.length) :
    processRows db 0 db.info.numRows v =
      ok ((List.range db.info.numRows).map (fun i => rowSum db (fun j => v.getD j 0) i)) := by
  unfold processRows
  rw [if_neg (by omega), Nat.sub_zero]
  exact forLoop_eq (n := db.info.numRows) (body := fun k prods => do
    let p ← forLoop db.info.numColumns (fun j p => do
      let b ← idx db.entries ((0 + k) * db.info.numColumns + j)
      if b = 1 then do
        let q ← idx v j
        ok (p + q)
      else ok p) 0
    ok (prods ++ [p])) (fun m => (List.range m).map (fun k => rowSum db (fun j => v.getD j 0) k)) (by
      intro k hk
      rw [sum_loop db (fun j => v.getD j 0) k _ (by
        intro j p hj
        obtain ⟨b, h1, h2⟩ := idx_bit hc hk hj
        rw [Nat.zero_add, h1, ok_bind]
        by_cases hb : b = 1
        · have hlt := hv k j hk hj (h2.mp hb)
          rw [if_pos hb, if_pos (h2.mp hb), idx_of_lt hlt, ok_bind]
          simp [List.getD, hlt]
        · rw [if_neg hb, if_neg (fun h => hb (h2.mpr h))]), ok_bind, List.range_succ, List.map_append]
      rfl)

omit [DecidableEq G] in
/-- A set bit whose column has no element makes the server panic. -/
theorem processRows_uncovered (db : Elliptic) (hc : db.entries.length = db.info.numRows * db.info.numColumns) (v : List G)
    (hv : ¬ CoversBits db v.length) : (processRows db 0 db.info.numRows v).isCrash := by
  have hq : ∀ x : Res (List G), (∀ e, x ≠ err e) → (∀ a, x ≠ ok a) → x.isCrash := by
    intro x h1 h2
    cases x with
    | ok a => exact absurd rfl (h2 a)
    | err e => exact absurd rfl (h1 e)
    | crash m => trivial
  have hloop : ∀ {σ : Type} (n : Nat) (body : Nat → σ → Res σ) (s : σ), (∀ i t e, body i t ≠ err e) →
      ∀ e, forLoop n body s ≠ err e := by
    intro σ n body s hb
    induction n with
    | zero => intro e h; cases h
    | succ n ih =>
      intro e h
      rw [forLoop_succ] at h
      cases hx : forLoop n body s with
      | ok t => rw [hx, ok_bind] at h; exact hb _ _ _ h
      | err e' => exact ih e' hx
      | crash m => rw [hx, crash_bind] at h; cases h
  have hidx : ∀ {α : Type} (l : List α) (i : Nat) (e : String), idx l i ≠ err e := by
    intro α l i e h
    unfold idx at h
    split at h <;> cases h
  have hbody : ∀ (k j : Nat) (p : G) (e : String), (do
      let b ← idx db.entries ((0 + k) * db.info.numColumns + j)
      if b = 1 then do
        let q ← idx v j
        ok (p + q)
      else ok p) ≠ err e := by
    intro k j p e h
    cases hx : idx db.entries ((0 + k) * db.info.numColumns + j) with
    | ok b =>
      rw [hx, ok_bind] at h
      split at h
      · cases hy : idx v j with
        | ok y => rw [hy, ok_bind] at h; cases h
        | err e' => exact hidx _ _ _ hy
        | crash m => rw [hy, crash_bind] at h; cases h
      · cases h
    | err e' => exact hidx _ _ _ hx
    | crash m => rw [hx, crash_bind] at h; cases h
  unfold processRows
  rw [if_neg (by omega), Nat.sub_zero]
  refine hq _ (hloop _ _ _ ?_) ?_
  · intro k t e h
    cases hx : forLoop db.info.numColumns (fun j p => do
      let b ← idx db.entries ((0 + k) * db.info.numColumns + j)
      if b = 1 then do
        let q ← idx v j
        ok (p + q)
      else ok p) 0 with
    | ok p => rw [hx, ok_bind] at h; cases h
    | err e' => exact hloop _ _ _ (hbody k) _ hx
    | crash m => rw [hx, crash_bind] at h; cases h
  · intro a ha
    refine hv fun i j hi hj hbit => ?_
    by_contra hlt
    obtain ⟨t, t', ht⟩ := Verif.Local.forLoop_at ha i hi
    obtain ⟨p, hp, -⟩ := bind_eq_ok.mp ht
    obtain ⟨u, u', hu⟩ := Verif.Local.forLoop_at hp j hj
    obtain ⟨b, h1, h2⟩ := idx_bit hc hi hj
    rw [Nat.zero_add, h1, ok_bind, if_pos (h2.mpr hbit)] at hu
    obtain ⟨y, hy, -⟩ := bind_eq_ok.mp hu
    unfold idx at hy
    rw [List.getElem?_eq_none (by omega)] at hy
    cases hy

omit [DecidableEq G] in
theorem answer_read (g : Grp G) (db : Elliptic) (q : List Byte) (v : List G)
    (h : unmarshalGroupElements g q db.info.elementSize = ok v) :
    answerBytes g db q = (processRows db 0 db.info.numRows v >>= fun c => ok (c.flatMap g.enc)) := by
  unfold answerBytes
  rw [h, ok_bind]
  rcases Nat.eq_zero_or_pos db.info.numRows with h0 | h0
  · simp only [h0]
    rfl
  · rw [if_neg (by omega)]
    have hcd : ceilDiv db.info.numRows 1 = db.info.numRows := by simp [ceilDiv]
    have hb : chunkBounds db.info.numRows db.info.numRows 0 = (0, db.info.numRows) := by simp [chunkBounds]
    dsimp only
    rw [hcd]
    unfold gather
    rw [show List.range 1 = [0] from rfl, List.mapM_cons, hb]
    cases processRows db 0 db.info.numRows v with
    | ok c =>
      rw [ok_bind, ok_bind, List.mapM_nil]
      show ok (marshalGroupElements g ([c].flatten)) = _
      rw [marshal_eq]
      simp
    | err e => rfl
    | crash m => rfl

omit [DecidableEq G] in
/-- C144 for the server of the group scheme: a query that consists of encoded elements is answered by the encodings of, row by row,
the sum of the elements at the set bits, if every column with a set bit has an element, and makes the server panic if not. The
server reports the first piece of a query the library refuses, panics if the library does, and panics if a query ends within a
piece. -/
theorem C144_group (g : Grp G) (db : Elliptic) (hc : db.entries.length = db.info.numRows * db.info.numColumns)
    (hn : 0 < db.info.elementSize) (q : List Byte) :
    (∀ v, Lists g db.info.elementSize q v →
      (CoversBits db v.length → answerBytes g db q =
        ok ((List.range db.info.numRows).flatMap (fun i => g.enc (rowSum db (fun j => v.getD j 0) i)))) ∧
      (¬ CoversBits db v.length → (answerBytes g db q).isCrash)) ∧
    (∀ m, (∀ i, i < m → ∃ x, g.dec (piece db.info.elementSize q i) = ok x) →
      ((m + 1) * db.info.elementSize ≤ q.length →
        (∀ e, g.dec (piece db.info.elementSize q m) = err e → answerBytes g db q = err e) ∧
        (∀ e, g.dec (piece db.info.elementSize q m) = crash e → answerBytes g db q = crash e)) ∧
      (m * db.info.elementSize < q.length → q.length < (m + 1) * db.info.elementSize → (answerBytes g db q).isCrash)) := by
  refine ⟨fun v hv => ?_, fun m hm => ?_⟩
  · have hr := answer_read g db q v (unmarshal_lists g _ hn q v hv)
    refine ⟨fun h => ?_, fun h => ?_⟩
    · rw [hr, processRows_covered db hc v h, ok_bind, List.flatMap_map]
    · rw [hr, isCrash_bind]
      exact Or.inl (processRows_uncovered db hc v h)
  · generalize hes : db.info.elementSize = n at *
    have hdiv : ∀ k, k * n < q.length → k < (q.length + n - 1) / n := by
      intro k hk
      have : (k + 1) * n ≤ q.length + n - 1 := by rw [Nat.succ_mul]; omega
      exact (Nat.le_div_iff_mul_le hn).mpr this
    refine ⟨fun hl => ?_, fun h1 h2 => ?_⟩
    · rw [Nat.succ_mul] at hl
      obtain ⟨v, -, -, hloop⟩ := read_prefix g n q m (by omega) hm
      have hlt := hdiv m (by omega)
      refine ⟨fun e he => ?_, fun e he => ?_⟩
      · have hb : (do
            let b ← slice q (m * n) (m * n + n)
            let elem ← g.dec b
            ok (v ++ [elem])) = (err e : Res (List G)) := by
          rw [slice_of_le (by omega) hl, ok_bind, show m * n + n - m * n = n by omega]
          unfold piece at he
          rw [he, err_bind]
        have := (loop_stops (body := fun i decoded => do
            let b ← slice q (i * n) (i * n + n)
            let elem ← g.dec b
            ok (decoded ++ [elem])) hlt hloop).1 e hb
        unfold answerBytes unmarshalGroupElements
        rw [hes, if_neg (by omega), this, err_bind]
      · have hb : (do
            let b ← slice q (m * n) (m * n + n)
            let elem ← g.dec b
            ok (v ++ [elem])) = (crash e : Res (List G)) := by
          rw [slice_of_le (by omega) hl, ok_bind, show m * n + n - m * n = n by omega]
          unfold piece at he
          rw [he, crash_bind]
        have := (loop_stops (body := fun i decoded => do
            let b ← slice q (i * n) (i * n + n)
            let elem ← g.dec b
            ok (decoded ++ [elem])) hlt hloop).2 e hb
        unfold answerBytes unmarshalGroupElements
        rw [hes, if_neg (by omega), this, crash_bind]
    · rw [Nat.succ_mul] at h2
      obtain ⟨v, -, -, hloop⟩ := read_prefix g n q m (by omega) hm
      have hlt := hdiv m h1
      have hb : (do
            let b ← slice q (m * n) (m * n + n)
            let elem ← g.dec b
            ok (v ++ [elem])) = (crash "slice bounds out of range" : Res (List G)) := by
        unfold slice
        rw [if_neg (by omega), crash_bind]
      have := (loop_stops (body := fun i decoded => do
            let b ← slice q (i * n) (i * n + n)
            let elem ← g.dec b
            ok (decoded ++ [elem])) hlt hloop).2 _ hb
      unfold answerBytes unmarshalGroupElements
      rw [hes, if_neg (by omega), this, crash_bind]
      trivial

-- Two elements for two columns; one is too few; a piece the library refuses; half a piece.
example : twoRows.entries.length = twoRows.info.numRows * twoRows.info.numColumns ∧ 0 < twoRows.info.elementSize := by decide
example : Lists fixedGroup 2 [2, 3, 2, 4] [3, 4] ∧ CoversBits twoRows 2 ∧ ¬ CoversBits twoRows 1 := by
  refine ⟨⟨rfl, fun i x h => ?_⟩, fun i j _ hj _ => hj, fun h => absurd (h 0 1 (by decide) (by decide) (by decide)) (by decide)⟩
  match i, h with
  | 0, h => cases h; decide
  | 1, h => cases h; decide
example : answerBytes fixedGroup twoRows [2, 3, 2, 4] = ok [2, 4, 2, 3] := by decide
example : answerBytes fixedGroup twoRows [2, 3] = crash "index out of range" := by decide
example : answerBytes fixedGroup twoRows [2, 3, 9, 9] = err "invalid" := by decide
example : answerBytes fixedGroup twoRows [2, 3, 2] = crash "slice bounds out of range" := by decide

end Verif.Dh
