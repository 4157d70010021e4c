import Verif.Lemmas.Dh
import Verif.Lemmas.Layout
import Mathlib.Data.ZMod.Basic

/-! # The group-based single-server scheme (C39, C40, C41, C42, C43) -/

set_option linter.unusedSimpArgs false
namespace Verif.Dh
open Res Verif.Dh.Spec Verif.Parallel Verif.Database Verif.Layout Finset

variable {G : Type} [AddCommGroup G] [DecidableEq G]

/-! ### Concrete groups for the examples -/

/-- The integers modulo five with an encoding in which the neutral element is one byte and the others two, as for NIST
curves. -/
def shortGroup : Grp (ZMod 5) where
  enc x := if x = 0 then [0] else [2, BitVec.ofNat 8 x.val]
  dec b := if b = [0] then ok 0 else
    if b = [2, 1] then ok 1 else if b = [2, 2] then ok 2 else if b = [2, 3] then ok 3 else if b = [2, 4] then ok 4 else
    err "invalid"
  hashTo b := (b.headD 0).toNat + 1

/-- The same group with encodings of two bytes throughout. -/
def fixedGroup : Grp (ZMod 5) where
  enc x := [2, BitVec.ofNat 8 x.val]
  dec b := if b = [2, 0] then ok 0 else
    if b = [2, 1] then ok 1 else if b = [2, 2] then ok 2 else if b = [2, 3] then ok 3 else if b = [2, 4] then ok 4 else
    err "invalid"
  hashTo b := (b.headD 0).toNat + 1

theorem shortGroup_decodes : Decodes shortGroup := by unfold Decodes; decide

theorem shortGroup_short : ShortIdentity shortGroup 2 := by
  refine ⟨by decide, by decide, by decide⟩

theorem fixedGroup_decodes : Decodes fixedGroup := by unfold Decodes; decide

theorem fixedGroup_fixed : FixedSize fixedGroup 2 := ⟨by decide, by decide⟩

/-! ### C43: the wire format of vectors of group elements -/

/-- C43 as claimed: for every library that decodes its own encodings and every vector. -/
def C43_Statement : Prop :=
  ∀ (G : Type) [AddCommGroup G] [DecidableEq G] (g : Grp G) (n : Nat), Decodes g →
    (FixedSize g n ∨ ShortIdentity g n) → ∀ v : List G,
    unmarshalGroupElements g (marshalGroupElements g v) n = ok v

omit [DecidableEq G] in
/-- C43 for vectors whose elements have encodings of the announced size. Missing from the full claim: vectors with
shorter encodings among them, for which it is false. -/
theorem C43_roundtrip_partial (g : Grp G) (n : Nat) (hn : 0 < n) (hd : Decodes g) (v : List G)
    (hv : ∀ x ∈ v, (g.enc x).length = n) : unmarshalGroupElements g (marshalGroupElements g v) n = ok v :=
  unmarshal_marshal g n hn v hv (fun x _ => hd x)

omit [DecidableEq G] in
/-- C43 holds without exception where all encodings have the same size. -/
theorem C43_fixed_size_partial (g : Grp G) (n : Nat) (hf : FixedSize g n) (hd : Decodes g) (v : List G) :
    unmarshalGroupElements g (marshalGroupElements g v) n = ok v :=
  C43_roundtrip_partial g n hf.1 hd v (fun x _ => hf.2 x)

omit [DecidableEq G] in
/-- Where the neutral element has a shorter encoding, no vector that contains it is read back. -/
theorem C43_identity_never (g : Grp G) (n : Nat) (hs : ShortIdentity g n) (v : List G) (hv : (0 : G) ∈ v) :
    unmarshalGroupElements g (marshalGroupElements g v) n ≠ ok v := by
  intro h
  have h1 := unmarshal_length h
  rw [marshal_eq] at h1
  have key : ∀ l : List G, (l.flatMap g.enc).length ≤ l.length * n ∧
      ((0 : G) ∈ l → (l.flatMap g.enc).length < l.length * n) := by
    intro l
    induction l with
    | nil => simp
    | cons x l ih =>
      rw [List.flatMap_cons, List.length_append, List.length_cons, Nat.succ_mul]
      have hx : (g.enc x).length ≤ n ∧ (x = 0 → (g.enc x).length < n) := by
        by_cases h0 : x = 0
        · subst h0
          have := hs.1
          rw [hs.2.1]
          exact ⟨by omega, fun _ => by omega⟩
        · exact ⟨le_of_eq (hs.2.2 x h0), fun h => absurd h h0⟩
      refine ⟨by omega, fun hm => ?_⟩
      rcases List.mem_cons.mp hm with h0 | hm
      · have := hx.2 h0.symm
        omega
      · have := ih.2 hm
        omega
  have := (key v).2 hv
  omega

/-- C43 as claimed is false. -/
theorem C43_refuted : ¬ C43_Statement := by
  intro h
  exact C43_identity_never shortGroup 2 shortGroup_short [0, 1] (by decide)
    (h (ZMod 5) shortGroup 2 shortGroup_decodes (Or.inr shortGroup_short) [0, 1])

/-- A vector to which `C43_roundtrip_partial` applies in the group with the short neutral element. -/
example : Decodes shortGroup ∧ ∀ x ∈ ([1, 2, 4] : List (ZMod 5)), (shortGroup.enc x).length = 2 :=
  ⟨shortGroup_decodes, by decide⟩

/-! ### C39: an honest server's answer is decoded to the requested bit -/

theorem ht_index {y : Nat} (hy : y < 2 ^ 64) : (((y : Nat) : Int) % 2 ^ 64).toNat = y := by
  rw [Int.emod_eq_of_lt (by omega) (by exact_mod_cast hy)]
  rfl

omit [DecidableEq G] in
/-- The query for an index, computed. -/
theorem query_eq (g : Grp G) (info : Info) (r t : Int) (k : Nat) (hC : 0 < info.numColumns)
    (hC64 : info.numColumns ≤ 2 ^ 64) :
    queryBytes g info r t k = ok (marshalGroupElements g ((List.range info.numColumns).map
      (queryElement (hashIndexToGroup g) r t (k % info.numColumns))),
      ⟨((k / info.numColumns : Nat) : Int), ((k % info.numColumns : Nat) : Int), r,
        t • hashIndexToGroup g (k % info.numColumns)⟩) := by
  have hy := Nat.mod_lt k hC
  unfold queryBytes vectorToMatrixIndices
  rw [if_neg (by omega)]
  simp only [ok_bind]
  have e1 : (k : Int).tdiv (info.numColumns : Int) = ((k / info.numColumns : Nat) : Int) := rfl
  have e2 : (k : Int).tmod (info.numColumns : Int) = ((k % info.numColumns : Nat) : Int) := rfl
  rw [e1, e2, if_neg (by omega), ht_index (by omega), Int.toNat_natCast, idx_of_lt (by simpa using hy), ok_bind,
    setAt_of_lt (by simpa using hy), ok_bind]
  congr 3
  apply List.ext_getElem (by simp)
  intro j h1 h2
  have hj : j < info.numColumns := by simpa using h2
  rw [List.getElem_set]
  simp only [List.getElem_map, List.getElem_range, queryElement, commitScalarToIndex]
  by_cases hjy : k % info.numColumns = j
  · subst hjy
    simp
  · rw [if_neg hjy, if_neg (Ne.symm hjy), add_zero]

omit [DecidableEq G] in
/-- The honest answer, computed. -/
theorem answer_eq (g : Grp G) (db : Elliptic) (hc : db.entries.length = db.info.numRows * db.info.numColumns)
    (hes : 0 < db.info.elementSize) (hd : Decodes g) (x : Nat → G)
    (hx : ∀ j, j < db.info.numColumns → (g.enc (x j)).length = db.info.elementSize) :
    answerBytes g db (marshalGroupElements g ((List.range db.info.numColumns).map x)) =
      ok (marshalGroupElements g ((List.range db.info.numRows).map (rowSum db x))) := by
  unfold answerBytes
  rw [unmarshal_marshal g _ hes _ (by
    intro y hy
    obtain ⟨j, hj, rfl⟩ := List.mem_map.mp hy
    exact hx j (by simpa using hj)) (fun y _ => hd y), ok_bind]
  rcases Nat.eq_zero_or_pos db.info.numRows with h0 | h0
  · simp only [h0]
    rfl
  · rw [if_neg (by omega)]
    have hcd : ceilDiv db.info.numRows 1 = db.info.numRows := by simp [ceilDiv]
    have hb : chunkBounds db.info.numRows db.info.numRows 0 = (0, db.info.numRows) := by simp [chunkBounds]
    dsimp only
    rw [hcd, gather_ok (v := fun _ => (List.range db.info.numRows).map (rowSum db x)) (by
      intro i hi
      obtain rfl : i = 0 := by omega
      rw [hb, processRows_eq db hc 0 _ (by omega) (le_refl _)]
      simp), ok_bind]
    simp

/-- The client's loop when digests and answers can be decoded. -/
theorem reconstruct_eq (g : Grp G) (db : Elliptic) (hcom : Committed g db) (hd : Decodes g)
    (hdig : ∀ i, i < db.info.numRows →
      (g.enc (rowSum db (hashIndexToGroup g) i)).length = db.info.elementSize)
    (st : State G) (a : List Byte) (ans : List G)
    (ha : unmarshalGroupElements g a db.info.elementSize = ok ans) :
    reconstructBytes g db.info st a = forLoop db.info.numRows (fun i res => do
      let ai ← idx ans i
      let m := (-st.r) • rowSum db (hashIndexToGroup g) i + ai
      if m ≠ 0 ∧ m ≠ st.ht then err "reject" else
      if (i : Int) = st.ix then
        ok (if m = 0 then 0 else 1)
      else ok res) 0 := by
  unfold reconstructBytes
  rw [ha, ok_bind]
  apply forLoop_congr
  intro i res hi
  have hl : ∀ x ∈ List.range db.info.numRows, (g.enc (rowSum db (hashIndexToGroup g) x)).length = db.info.elementSize :=
    fun x hx => hdig x (by simpa using hx)
  have hlen := flatMap_length hl
  rw [List.length_range] at hlen
  have hle : (i + 1) * db.info.elementSize ≤ db.info.numRows * db.info.elementSize := Nat.mul_le_mul_right _ hi
  have hp := flatMap_piece hl (i := i) (by simpa using hi)
  rw [hcom.digests, slice_of_le (Nat.mul_le_mul_right _ (by omega)) (by omega), ok_bind,
    show (i + 1) * db.info.elementSize - i * db.info.elementSize = db.info.elementSize by rw [Nat.succ_mul]; omega, hp,
    List.getElem_range, hd, ok_bind]

/-- C39 as claimed: the bit is returned whenever the blinding element is not neutral. -/
def C39_Statement : Prop :=
  ∀ (G : Type) [AddCommGroup G] [DecidableEq G] (g : Grp G) (db : Elliptic) (r t : Int) (k : Nat), Decodes g →
    (FixedSize g db.info.elementSize ∨ ShortIdentity g db.info.elementSize) → Committed g db →
    db.info.numColumns ≤ 2 ^ 63 → k < db.info.numRows * db.info.numColumns →
    t • hashIndexToGroup g (k % db.info.numColumns) ≠ 0 →
    (∀ j, j < db.info.numColumns →
      queryElement (hashIndexToGroup g) r t (k % db.info.numColumns) j ≠ 0) →
    ∃ q st a, queryBytes g db.info r t k = ok (q, st) ∧ answerBytes g db q = ok a ∧
      reconstructBytes g db.info st a = ok (if db.entries.getD k 0 = 1 then 1 else 0)

/-- C39 when query, digests and answers have encodings of the announced size. Missing from the full claim: rows whose
digest or answer is the neutral element in groups that encode it in fewer bytes, for which it is false. -/
theorem C39_retrieve_partial (g : Grp G) (db : Elliptic) (r t : Int) (k : Nat) (hd : Decodes g)
    (hes : 0 < db.info.elementSize) (hcom : Committed g db) (hC : db.info.numColumns ≤ 2 ^ 63)
    (hk : k < db.info.numRows * db.info.numColumns)
    (ht : t • hashIndexToGroup g (k % db.info.numColumns) ≠ 0)
    (hq : ∀ j, j < db.info.numColumns →
      (g.enc (queryElement (hashIndexToGroup g) r t (k % db.info.numColumns) j)).length = db.info.elementSize)
    (hdig : ∀ i, i < db.info.numRows →
      (g.enc (rowSum db (hashIndexToGroup g) i)).length = db.info.elementSize)
    (hans : ∀ i, i < db.info.numRows →
      (g.enc (rowSum db (queryElement (hashIndexToGroup g) r t (k % db.info.numColumns)) i)).length =
        db.info.elementSize) :
    ∃ q st a, queryBytes g db.info r t k = ok (q, st) ∧ answerBytes g db q = ok a ∧
      reconstructBytes g db.info st a = ok (if db.entries.getD k 0 = 1 then 1 else 0) := by
  have hCpos : 0 < db.info.numColumns := by
    rcases Nat.eq_zero_or_pos db.info.numColumns with h | h
    · rw [h] at hk; simp at hk
    · exact h
  have hy := Nat.mod_lt k hCpos
  have hx : k / db.info.numColumns < db.info.numRows := (Nat.div_lt_iff_lt_mul hCpos).mpr hk
  refine ⟨_, _, _, query_eq g db.info r t k hCpos (by omega), answer_eq g db hcom.complete hes hd _ hq, ?_⟩
  have hun : unmarshalGroupElements g (marshalGroupElements g ((List.range db.info.numRows).map
      (rowSum db (queryElement (hashIndexToGroup g) r t (k % db.info.numColumns))))) db.info.elementSize =
      ok ((List.range db.info.numRows).map
        (rowSum db (queryElement (hashIndexToGroup g) r t (k % db.info.numColumns)))) := by
    apply unmarshal_marshal g _ hes _ _ (fun y _ => hd y)
    intro y hy
    obtain ⟨i, hi, rfl⟩ := List.mem_map.mp hy
    exact hans i (by simpa using hi)
  rw [reconstruct_eq g db hcom hd hdig _ _ _ hun]
  have hbit : Bit db (k / db.info.numColumns) (k % db.info.numColumns) ↔ db.entries.getD k 0 = 1 := by
    unfold Bit
    rw [Nat.mul_comm, Nat.div_add_mod]
  have hm : ∀ i, (-r) • rowSum db (hashIndexToGroup g) i +
      rowSum db (queryElement (hashIndexToGroup g) r t (k % db.info.numColumns)) i =
      if Bit db i (k % db.info.numColumns) then t • hashIndexToGroup g (k % db.info.numColumns) else 0 := by
    intro i
    rw [rowSum_query db _ r t hy, ← add_assoc, neg_smul, neg_add_cancel, zero_add]
  have := forLoop_eq (n := db.info.numRows) (body := fun i (res : Byte) => do
      let ai ← idx ((List.range db.info.numRows).map
        (rowSum db (queryElement (hashIndexToGroup g) r t (k % db.info.numColumns)))) i
      let m := (-r) • rowSum db (hashIndexToGroup g) i + ai
      if m ≠ 0 ∧ m ≠ t • hashIndexToGroup g (k % db.info.numColumns) then err "reject" else
      if (i : Int) = ((k / db.info.numColumns : Nat) : Int) then
        ok (if m = 0 then 0 else 1)
      else ok res)
    (fun m => if k / db.info.numColumns < m ∧ db.entries.getD k 0 = 1 then 1 else 0) (by
      intro i hi
      rw [idx_of_lt (by simpa using hi), ok_bind]
      simp only [List.getElem_map, List.getElem_range]
      rw [hm i]
      by_cases hik : i = k / db.info.numColumns
      · subst hik
        rw [if_pos rfl]
        by_cases hb : Bit db (k / db.info.numColumns) (k % db.info.numColumns)
        · rw [if_pos hb, if_neg (by simp), if_neg ht, if_pos ⟨by omega, hbit.mp hb⟩]
        · rw [if_neg hb, if_neg (by simp), if_pos rfl, if_neg (fun h => hb (hbit.mpr h.2))]
      · rw [if_neg (by
          by_cases hb : Bit db i (k % db.info.numColumns)
          · rw [if_pos hb]; simp
          · rw [if_neg hb]; simp), if_neg (by omega)]
        have : (k / db.info.numColumns < i ∧ db.entries.getD k 0 = 1) ↔
            (k / db.info.numColumns < i + 1 ∧ db.entries.getD k 0 = 1) := by
          constructor <;> rintro ⟨a, b⟩ <;> exact ⟨by omega, b⟩
        simp only [this])
  simp only [Nat.not_lt_zero, false_and, if_false] at this
  rw [this]
  simp [hx]

/-- C39 without exception where all encodings have the same size. -/
theorem C39_fixed_size_partial (g : Grp G) (db : Elliptic) (r t : Int) (k : Nat) (hd : Decodes g)
    (hf : FixedSize g db.info.elementSize) (hcom : Committed g db) (hC : db.info.numColumns ≤ 2 ^ 63)
    (hk : k < db.info.numRows * db.info.numColumns)
    (ht : t • hashIndexToGroup g (k % db.info.numColumns) ≠ 0) :
    ∃ q st a, queryBytes g db.info r t k = ok (q, st) ∧ answerBytes g db q = ok a ∧
      reconstructBytes g db.info st a = ok (if db.entries.getD k 0 = 1 then 1 else 0) :=
  C39_retrieve_partial g db r t k hd hf.1 hcom hC hk ht (fun _ _ => hf.2 _) (fun _ _ => hf.2 _) (fun _ _ => hf.2 _)

/-- A database of one row of two zeros, in the group with the short neutral element. -/
def zeroRow : Elliptic := ⟨[0, 0], ⟨1, 2, 2, [], [0]⟩⟩

theorem zeroRow_committed : Committed shortGroup zeroRow := ⟨rfl, by decide⟩

/-- C39 as claimed is false: the answer for a row of zeros is the neutral element, which the client cannot read. -/
theorem C39_refuted : ¬ C39_Statement := by
  intro h
  obtain ⟨q, st, a, h1, h2, h3⟩ := h (ZMod 5) shortGroup zeroRow 1 1 0 shortGroup_decodes (Or.inr shortGroup_short)
    zeroRow_committed (by decide) (by decide) (by decide) (by decide)
  have e1 : queryBytes shortGroup zeroRow.info 1 1 ((0 : Nat) : Int) = ok ([2, 2, 2, 2], ⟨0, 0, 1, 1⟩) := by rfl
  rw [e1] at h1
  simp only [ok.injEq, Prod.mk.injEq] at h1
  obtain ⟨rfl, rfl⟩ := h1
  have e2 : answerBytes shortGroup zeroRow [2, 2, 2, 2] = ok [0] := by decide
  rw [e2] at h2
  simp only [ok.injEq] at h2
  subst h2
  have e3 : (reconstructBytes shortGroup zeroRow.info ⟨0, 0, 1, 1⟩ [0]).isCrash := by decide
  rw [h3] at e3
  simp at e3

/-- The premises of `C39_retrieve_partial` for a database of two rows, the stored bit being one. -/
def twoRows : Elliptic := ⟨[0, 1, 1, 0], ⟨2, 2, 2, [], [2, 2, 2, 1]⟩⟩

theorem twoRows_committed : Committed shortGroup twoRows := ⟨rfl, by decide⟩

example : ∃ q st a, queryBytes shortGroup twoRows.info 1 2 1 = ok (q, st) ∧ answerBytes shortGroup twoRows q = ok a ∧
    reconstructBytes shortGroup twoRows.info st a = ok 1 :=
  C39_retrieve_partial shortGroup twoRows 1 2 1 shortGroup_decodes (by decide) twoRows_committed (by decide) (by decide)
    (by decide) (by decide) (by decide) (by decide)

/-- When the blinding element happens to be neutral a stored one is returned as zero, and nothing is noticed. -/
theorem C39_neutral_blinding (g : Grp G) (db : Elliptic) (st : State G) (a : List Byte) (res : Byte)
    (hht : st.ht = 0) (h : reconstructBytes g db.info st a = ok res) : res = 0 := by
  unfold reconstructBytes at h
  obtain ⟨ans, -, h⟩ := bind_eq_ok.mp h
  refine forLoop_inv_ok (P := fun _ (x : Byte) => x = 0) rfl ?_ h
  intro i x x' _ hx hb
  obtain ⟨b, -, hb⟩ := bind_eq_ok.mp hb
  obtain ⟨d, -, hb⟩ := bind_eq_ok.mp hb
  obtain ⟨ai, -, hb⟩ := bind_eq_ok.mp hb
  dsimp only at hb
  rw [hht] at hb
  split at hb
  · cases hb
  · rename_i hm
    have hm : (-st.r) • d + ai = 0 := by
      by_contra hne
      exact hm ⟨hne, hne⟩
    split at hb
    · simpa [hm] using hb.symm
    · simp only [ok.injEq] at hb
      rw [← hb, hx]

/-- An index past the end is not refused: the client returns zero whenever it accepts. -/
theorem C39_past_the_end (g : Grp G) (info : Info) (r t : Int) (k : Nat) (q a : List Byte) (st : State G) (res : Byte)
    (hC : 0 < info.numColumns) (hC64 : info.numColumns ≤ 2 ^ 63) (hk : info.numRows * info.numColumns ≤ k)
    (hq : queryBytes g info r t k = ok (q, st)) (h : reconstructBytes g info st a = ok res) : res = 0 := by
  rw [query_eq g info r t k hC (by omega)] at hq
  simp only [ok.injEq, Prod.mk.injEq] at hq
  obtain ⟨-, rfl⟩ := hq
  have hx : info.numRows ≤ k / info.numColumns := (Nat.le_div_iff_mul_le hC).mpr hk
  unfold reconstructBytes at h
  obtain ⟨ans, -, h⟩ := bind_eq_ok.mp h
  refine forLoop_inv_ok (P := fun _ (x : Byte) => x = 0) rfl ?_ h
  intro i x x' hi hx' hb
  obtain ⟨b, -, hb⟩ := bind_eq_ok.mp hb
  obtain ⟨d, -, hb⟩ := bind_eq_ok.mp hb
  obtain ⟨ai, -, hb⟩ := bind_eq_ok.mp hb
  dsimp only at hb
  split at hb
  · cases hb
  · rw [if_neg (by omega)] at hb
    simp only [ok.injEq] at hb
    rw [← hb, hx']

example : ∃ q st a, queryBytes shortGroup twoRows.info 1 2 5 = ok (q, st) ∧ answerBytes shortGroup twoRows q = ok a ∧
    reconstructBytes shortGroup twoRows.info st a = ok 0 :=
  ⟨_, _, _, rfl, rfl, by decide⟩

/-! ### C40: a wrong bit needs the blinding element -/

/-- What the client reads from the row digests of an honest database if it accepts: then all have full length. -/
theorem digests_full (g : Grp G) (db : Elliptic) (hcom : Committed g db)
    (hsz : FixedSize g db.info.elementSize ∨ ShortIdentity g db.info.elementSize)
    (st : State G) (a : List Byte) (res : Byte) (h : reconstructBytes g db.info st a = ok res) (i : Nat)
    (hi : i < db.info.numRows) : (g.enc (rowSum db (hashIndexToGroup g) i)).length = db.info.elementSize := by
  rcases hsz with hf | hs
  · exact hf.2 _
  have hlen : db.info.numRows * db.info.elementSize ≤ db.info.subDigests.length := by
    unfold reconstructBytes at h
    obtain ⟨ans, -, h⟩ := bind_eq_ok.mp h
    refine forLoop_inv_ok (P := fun m (_ : Byte) => m * db.info.elementSize ≤ db.info.subDigests.length) (by simp) ?_ h
    intro m x x' _ _ hb
    obtain ⟨b, hb1, -⟩ := bind_eq_ok.mp hb
    exact (slice_eq_ok.mp hb1).2.1
  rw [hcom.digests] at hlen
  by_contra hne
  have key : ∀ l : List Nat, (l.flatMap fun i => g.enc (rowSum db (hashIndexToGroup g) i)).length ≤
        l.length * db.info.elementSize ∧
      (i ∈ l → (l.flatMap fun i => g.enc (rowSum db (hashIndexToGroup g) i)).length <
        l.length * db.info.elementSize) := by
    intro l
    induction l with
    | nil => simp
    | cons x l ih =>
      rw [List.flatMap_cons, List.length_append, List.length_cons, Nat.succ_mul]
      have hle : (g.enc (rowSum db (hashIndexToGroup g) x)).length ≤ db.info.elementSize := by
        by_cases h0 : rowSum db (hashIndexToGroup g) x = 0
        · rw [h0, hs.2.1]
          exact le_of_lt hs.1
        · exact le_of_eq (hs.2.2 _ h0)
      refine ⟨by omega, fun hm => ?_⟩
      rcases List.mem_cons.mp hm with h0 | hm
      · subst h0
        omega
      · have := ih.2 hm
        omega
  have := (key (List.range db.info.numRows)).2 (by simpa using hi)
  rw [List.length_range] at this
  omega

/-- C39 fails for every database with a row of zeros in groups with a short neutral element: no answer whatsoever is
accepted. -/
theorem C39_zero_row_never (g : Grp G) (db : Elliptic) (hcom : Committed g db)
    (hs : ShortIdentity g db.info.elementSize) (i : Nat) (hi : i < db.info.numRows)
    (hz : ∀ j, j < db.info.numColumns → db.entries.getD (i * db.info.numColumns + j) 0 = 0)
    (st : State G) (a : List Byte) (res : Byte) : reconstructBytes g db.info st a ≠ ok res := by
  intro h
  have h1 := digests_full g db hcom (Or.inr hs) st a res h i hi
  have h0 : rowSum db (hashIndexToGroup g) i = 0 := by
    unfold rowSum
    apply sum_eq_zero
    intro j hj
    rw [if_neg]
    unfold Bit
    rw [hz j (by simpa using hj)]
    decide
  rw [h0, hs.2.1] at h1
  have := hs.1
  omega

example : Committed shortGroup zeroRow ∧ ∀ j, j < 2 → zeroRow.entries.getD (0 * 2 + j) 0 = 0 :=
  ⟨zeroRow_committed, by decide⟩

/-- C40: whatever the answer, if the client accepts it then every row deviates from the honest answer by nothing, the
blinding element or its negative; and if the bit returned is wrong then the requested row deviates by exactly the
blinding element (when a one is claimed) or its negative (when a zero is). -/
theorem C40_wrong_bit_needs_blinding (g : Grp G) (db : Elliptic) (r t : Int) (k : Nat) (hd : Decodes g)
    (hsz : FixedSize g db.info.elementSize ∨ ShortIdentity g db.info.elementSize) (hcom : Committed g db)
    (hC : db.info.numColumns ≤ 2 ^ 63) (hk : k < db.info.numRows * db.info.numColumns)
    (q a : List Byte) (st : State G) (res : Byte)
    (hq : queryBytes g db.info r t k = ok (q, st)) (h : reconstructBytes g db.info st a = ok res) :
    ∃ ans : List G, unmarshalGroupElements g a db.info.elementSize = ok ans ∧
      ∃ hl : db.info.numRows ≤ ans.length,
      (∀ i (hi : i < db.info.numRows),
        let δ := ans[i] - rowSum db (queryElement (hashIndexToGroup g) r t (k % db.info.numColumns)) i
        let secret := t • hashIndexToGroup g (k % db.info.numColumns)
        δ = 0 ∨ δ = secret ∨ δ = -secret) ∧
      (res = 0 ∨ res = 1) ∧
      (res ≠ (if db.entries.getD k 0 = 1 then 1 else 0) →
        ∃ hx : k / db.info.numColumns < db.info.numRows,
        ans[k / db.info.numColumns] -
          rowSum db (queryElement (hashIndexToGroup g) r t (k % db.info.numColumns)) (k / db.info.numColumns) =
        if res = 1 then t • hashIndexToGroup g (k % db.info.numColumns)
        else -(t • hashIndexToGroup g (k % db.info.numColumns))) := by
  have hCpos : 0 < db.info.numColumns := by
    rcases Nat.eq_zero_or_pos db.info.numColumns with h | h
    · rw [h] at hk; simp at hk
    · exact h
  have hy := Nat.mod_lt k hCpos
  have hx : k / db.info.numColumns < db.info.numRows := (Nat.div_lt_iff_lt_mul hCpos).mpr hk
  have hfull := digests_full g db hcom hsz st a res h
  rw [query_eq g db.info r t k hCpos (by omega)] at hq
  simp only [ok.injEq, Prod.mk.injEq] at hq
  obtain ⟨-, rfl⟩ := hq
  have h' := h
  unfold reconstructBytes at h'
  obtain ⟨ans, hun, -⟩ := bind_eq_ok.mp h'
  clear h'
  rw [reconstruct_eq g db hcom hd hfull _ _ _ hun] at h
  dsimp only at h
  have hbit : Bit db (k / db.info.numColumns) (k % db.info.numColumns) ↔ db.entries.getD k 0 = 1 := by
    unfold Bit
    rw [Nat.mul_comm, Nat.div_add_mod]
  have hm : ∀ i x, (-r) • rowSum db (hashIndexToGroup g) i + x =
      (x - rowSum db (queryElement (hashIndexToGroup g) r t (k % db.info.numColumns)) i) +
        if Bit db i (k % db.info.numColumns) then t • hashIndexToGroup g (k % db.info.numColumns) else 0 := by
    intro i x
    rw [rowSum_query db _ r t hy, neg_smul]
    abel
  have hinv := forLoop_inv_ok (P := fun m (res : Byte) =>
      (∀ i, i < m → ∃ hi : i < ans.length,
        ((ans[i] - rowSum db (queryElement (hashIndexToGroup g) r t (k % db.info.numColumns)) i) +
          (if Bit db i (k % db.info.numColumns) then t • hashIndexToGroup g (k % db.info.numColumns) else 0) = 0 ∧
          (i = k / db.info.numColumns → res = 0)) ∨
        ((ans[i] - rowSum db (queryElement (hashIndexToGroup g) r t (k % db.info.numColumns)) i) +
          (if Bit db i (k % db.info.numColumns) then t • hashIndexToGroup g (k % db.info.numColumns) else 0) =
            t • hashIndexToGroup g (k % db.info.numColumns) ∧ (i = k / db.info.numColumns → res = 1)))) (by
      intro i hi; omega) (by
      intro m x x' hmR hP hb i hi
      obtain ⟨am, ha, hb⟩ := bind_eq_ok.mp hb
      obtain ⟨hml, hma⟩ := List.getElem?_eq_some_iff.mp (idx_eq_ok.mp ha)
      subst hma
      rw [hm m ans[m]] at hb
      have hacc : ¬ ((ans[m] - rowSum db (queryElement (hashIndexToGroup g) r t (k % db.info.numColumns)) m) +
          (if Bit db m (k % db.info.numColumns) then t • hashIndexToGroup g (k % db.info.numColumns) else 0) ≠ 0 ∧
          (ans[m] - rowSum db (queryElement (hashIndexToGroup g) r t (k % db.info.numColumns)) m) +
          (if Bit db m (k % db.info.numColumns) then t • hashIndexToGroup g (k % db.info.numColumns) else 0) ≠
            t • hashIndexToGroup g (k % db.info.numColumns)) := by
        intro hno
        rw [if_pos hno] at hb
        cases hb
      rw [if_neg hacc] at hb
      by_cases him : i = m
      · subst him
        refine ⟨hml, ?_⟩
        by_cases h0 : (ans[i] - rowSum db (queryElement (hashIndexToGroup g) r t (k % db.info.numColumns)) i) +
          (if Bit db i (k % db.info.numColumns) then t • hashIndexToGroup g (k % db.info.numColumns) else 0) = 0
        · left
          refine ⟨h0, fun hik => ?_⟩
          rw [if_pos (by omega), if_pos h0] at hb
          simpa using hb.symm
        · right
          refine ⟨by_contra fun h1 => hacc ⟨h0, h1⟩, fun hik => ?_⟩
          rw [if_pos (by omega), if_neg h0] at hb
          simpa using hb.symm
      · obtain ⟨hil, hor⟩ := hP i (by omega)
        refine ⟨hil, ?_⟩
        have hsame : i = k / db.info.numColumns → x' = x := by
          intro hik
          rw [if_neg (by omega)] at hb
          simpa using hb.symm
        rcases hor with ⟨h1, h2⟩ | ⟨h1, h2⟩
        · exact Or.inl ⟨h1, fun hik => by rw [hsame hik, h2 hik]⟩
        · exact Or.inr ⟨h1, fun hik => by rw [hsame hik, h2 hik]⟩) h
  have hl : db.info.numRows ≤ ans.length := by
    have hR : 0 < db.info.numRows := by
      have := Nat.zero_le (k / db.info.numColumns)
      exact lt_of_le_of_lt this hx
    obtain ⟨h1, -⟩ := hinv (db.info.numRows - 1) (by omega)
    omega
  refine ⟨ans, hun, hl, ?_, ?_, ?_⟩
  · intro i hi
    dsimp only
    obtain ⟨hil, hor⟩ := hinv i hi
    generalize ans[i] - rowSum db (queryElement (hashIndexToGroup g) r t (k % db.info.numColumns)) i = δ at *
    generalize t • hashIndexToGroup g (k % db.info.numColumns) = z at *
    by_cases hb : Bit db i (k % db.info.numColumns)
    · rw [if_pos hb] at hor
      rcases hor with ⟨h1, -⟩ | ⟨h1, -⟩
      · exact Or.inr (Or.inr (eq_neg_of_add_eq_zero_left h1))
      · left
        simpa using h1
    · rw [if_neg hb, add_zero] at hor
      rcases hor with ⟨h1, -⟩ | ⟨h1, -⟩
      · exact Or.inl h1
      · exact Or.inr (Or.inl h1)
  · obtain ⟨_, hor⟩ := hinv _ hx
    rcases hor with ⟨-, h1⟩ | ⟨-, h1⟩
    · exact Or.inl (h1 rfl)
    · exact Or.inr (h1 rfl)
  · intro hne
    refine ⟨hx, ?_⟩
    obtain ⟨_, hor⟩ := hinv _ hx
    by_cases hb : Bit db (k / db.info.numColumns) (k % db.info.numColumns)
    · rw [if_pos (hbit.mp hb)] at hne
      rw [if_pos hb] at hor
      rcases hor with ⟨h1, h2⟩ | ⟨h1, h2⟩
      · rw [h2 rfl, if_neg (by decide)]
        exact eq_neg_of_add_eq_zero_left h1
      · exact absurd (h2 rfl) hne
    · rw [if_neg (fun h => hb (hbit.mpr h))] at hne
      rw [if_neg hb, add_zero] at hor
      rcases hor with ⟨h1, h2⟩ | ⟨h1, h2⟩
      · exact absurd (h2 rfl) hne
      · rw [h2 rfl, if_pos rfl]
        exact h1

/-- Accepted honest and dishonest answers exist: the first row of `twoRows` read as zero by a server that knows the
blinding element. -/
example : ∃ q st, queryBytes shortGroup twoRows.info 1 2 1 = ok (q, st) ∧
    answerBytes shortGroup twoRows q = ok [2, 1, 2, 1] ∧
    reconstructBytes shortGroup twoRows.info st [2, 1, 2, 1] = ok 1 ∧
    reconstructBytes shortGroup twoRows.info st [2, 2, 2, 1] = ok 0 :=
  ⟨_, _, rfl, rfl, by decide, by decide⟩

/-! ### C41: the row digests are those committed to -/

omit [AddCommGroup G] [DecidableEq G] in
/-- C41: a client is created exactly for row digests that hash to the trusted digest. -/
theorem C41_accepts_iff (H : List Byte → List Byte) (info : Info) :
    (∃ c, newDH H info = ok c) ↔ H info.subDigests = info.digest := by
  unfold newDH
  split
  · rename_i h
    simp [h]
  · rename_i h
    simpa using h

/-- C41: row digests accepted under the digest of a database are those of the database, or they are a collision. -/
theorem C41_binding (H : List Byte → List Byte) (db : Elliptic) (info' c : Info)
    (htrusted : info'.digest = H db.info.subDigests) (hc : newDH H info' = ok c) :
    c = info' ∧ (info'.subDigests = db.info.subDigests ∨
      (info'.subDigests ≠ db.info.subDigests ∧ H info'.subDigests = H db.info.subDigests)) := by
  have h := (C41_accepts_iff H info').mp ⟨c, hc⟩
  unfold newDH at hc
  rw [if_neg (by simpa using h)] at hc
  simp only [ok.injEq] at hc
  refine ⟨hc.symm, ?_⟩
  by_cases he : info'.subDigests = db.info.subDigests
  · exact Or.inl he
  · exact Or.inr ⟨he, by rw [h, htrusted]⟩

/-- C41: other row digests end the program rather than giving an error. -/
theorem C41_mismatch_crashes (H : List Byte → List Byte) (info : Info) (h : H info.subDigests ≠ info.digest) :
    (newDH H info).isCrash := by
  unfold newDH
  rw [if_pos h]
  simp

example : newDH (fun l => l.take 1) ⟨2, 2, 2, [2], [2, 2, 2, 1]⟩ = ok ⟨2, 2, 2, [2], [2, 2, 2, 1]⟩ ∧
    (newDH (fun l => l.take 1) ⟨2, 2, 2, [2], [3, 2, 2, 1]⟩).isCrash := by decide

/-! ### C42: the parallel computation of the row digests -/

theorem gather_crash {β : Type _} {n : Nat} {work : Nat → Res β}
    (h : ∀ i, i < n → (∃ b, work i = ok b) ∨ (work i).isCrash) (hi : ∃ i, i < n ∧ (work i).isCrash) :
    (gather n work).isCrash := by
  unfold gather
  have key : ∀ l : List Nat, (∀ i ∈ l, i < n) → (∃ i ∈ l, (work i).isCrash) → (l.mapM work).isCrash := by
    intro l
    induction l with
    | nil => intro _ ⟨i, hi, _⟩; simp at hi
    | cons x l ih =>
      intro hl ⟨i, him, hic⟩
      rw [List.mapM_cons, isCrash_bind]
      rcases h x (hl x (by simp)) with ⟨b, hb⟩ | hc
      · right
        refine ⟨b, hb, ?_⟩
        rw [isCrash_bind]
        left
        apply ih (fun j hj => hl j (by simp [hj]))
        rcases List.mem_cons.mp him with rfl | hm
        · rw [hb] at hic; simp at hic
        · exact ⟨i, hm, hic⟩
      · exact Or.inl hc
  obtain ⟨i, h1, h2⟩ := hi
  exact key _ (by simp) ⟨i, by simpa using h1, h2⟩

omit [DecidableEq G] in
/-- C42: which sizes make a goroutine crash. With `n` goroutines and `R` rows, exactly those where the last goroutine
would start beyond the last row. -/
theorem C42_crash_iff (g : Grp G) (db : Elliptic)
    (hc : db.entries.length = db.info.numRows * db.info.numColumns) (n : Nat) (hn : 0 < n) :
    (rowDigests g n db.info.numRows db.info.numColumns db.entries).isCrash ↔
      db.info.numRows < (n - 1) * ((db.info.numRows + n - 1) / n) := by
  constructor
  · intro h
    by_contra hlt
    rw [rowDigests_eq g db hc n hn (by unfold ceilDiv; omega)] at h
    simp at h
  · intro h
    unfold rowDigests
    rw [isCrash_bind]
    left
    apply gather_crash
    · intro i hi
      by_cases hbe : (chunkBounds db.info.numRows (ceilDiv db.info.numRows n) i).2 <
          (chunkBounds db.info.numRows (ceilDiv db.info.numRows n) i).1
      · right
        unfold computeDigests
        rw [if_pos hbe]
        simp
      · left
        exact ⟨_, computeDigests_eq g db hc _ _ (by omega) (by
          unfold chunkBounds
          dsimp only
          split <;> omega)⟩
    · refine ⟨n - 1, by omega, ?_⟩
      unfold computeDigests
      rw [if_pos]
      · simp
      · unfold chunkBounds ceilDiv
        dsimp only
        have e : n - 1 + 1 = n := by omega
        rw [e]
        split
        · exact h
        · rename_i h2
          have : (n - 1) * ((db.info.numRows + n - 1) / n) ≤ n * ((db.info.numRows + n - 1) / n) :=
            Nat.mul_le_mul_right _ (by omega)
          omega

omit [DecidableEq G] in
/-- C42: all other sizes give one digest per row, in row order. -/
theorem C42_sequential_partial (g : Grp G) (db : Elliptic)
    (hc : db.entries.length = db.info.numRows * db.info.numColumns) (n : Nat) (hn : 0 < n)
    (hsafe : (n - 1) * ((db.info.numRows + n - 1) / n) ≤ db.info.numRows) :
    rowDigests g n db.info.numRows db.info.numColumns db.entries =
      ok ((List.range db.info.numRows).flatMap (fun i => g.enc (rowSum db (hashIndexToGroup g) i))) :=
  rowDigests_eq g db hc n hn hsafe

omit [DecidableEq G] in
/-- C42: `(n-1)^2` rows are enough for `n` goroutines. -/
theorem C42_many_rows_partial (g : Grp G) (db : Elliptic)
    (hc : db.entries.length = db.info.numRows * db.info.numColumns) (n : Nat) (hn : 0 < n)
    (hR : (n - 1) * (n - 1) ≤ db.info.numRows) :
    rowDigests g n db.info.numRows db.info.numColumns db.entries =
      ok ((List.range db.info.numRows).flatMap (fun i => g.enc (rowSum db (hashIndexToGroup g) i))) := by
  apply C42_sequential_partial g db hc n hn
  have hdm := Nat.div_add_mod (db.info.numRows + n - 1) n
  generalize (db.info.numRows + n - 1) / n = w at *
  -- `n * w ≤ R + n - 1`; if `w ≥ n - 1` then `(n-1) w = n w - w ≤ R`, else `(n-1) w ≤ (n-1)^2 ≤ R`
  rcases Nat.lt_or_ge w (n - 1) with h | h
  · exact le_trans (Nat.mul_le_mul_left _ (le_of_lt h)) hR
  · have : (n - 1) * w = n * w - w := by rw [Nat.sub_mul, Nat.one_mul]
    omega

/-- C42 as claimed, for the whole function: for every size it gives a database with the digests of its rows. -/
def C42_Statement : Prop :=
  ∀ (G : Type) [AddCommGroup G] [DecidableEq G] (g : Grp G) (H : List Byte → List Byte) (cpus es : Nat)
    (read : Nat → Res (List Byte)) (dbLen : Nat) (rebalanced : Bool), 0 < cpus → dbLen ≤ 2 ^ 52 →
    (∀ n, ∃ l, read n = ok l ∧ l.length = n) →
    ∃ db, createRandomEllipticWithDigest g H cpus es read dbLen rebalanced = ok db ∧ Committed g db

omit [DecidableEq G] in
/-- C42 for databases laid out in at least 49 rows, if there are 8 processors. Missing from the full claim: fewer rows,
for some of which, among them a single one, it is false. -/
theorem C42_create_partial (g : Grp G) (H : List Byte → List Byte) (cpus es : Nat) (read : Nat → Res (List Byte))
    (dbLen : Nat) (rebalanced : Bool) (hcpus : 0 < cpus) (hread : ∀ n, ∃ l, read n = ok l ∧ l.length = n)
    (hrows : 49 ≤ (calculateNumRowsAndColumns dbLen rebalanced).1)
    (hrows' : (cpus - 1) * (cpus - 1) ≤ (calculateNumRowsAndColumns dbLen rebalanced).1) :
    ∃ db, createRandomEllipticWithDigest g H cpus es read dbLen rebalanced = ok db ∧ Committed g db ∧
      db.info.digest = H db.info.subDigests ∧ db.info.elementSize = es ∧
      (db.info.numRows, db.info.numColumns) = calculateNumRowsAndColumns dbLen rebalanced ∧
      ∀ b ∈ db.entries, b = 0 ∨ b = 1 := by
  obtain ⟨l, hl, hlen⟩ := hread ((calculateNumRowsAndColumns dbLen rebalanced).1 *
    (calculateNumRowsAndColumns dbLen rebalanced).2)
  unfold createRandomEllipticWithDigest
  generalize calculateNumRowsAndColumns dbLen rebalanced = rc at *
  obtain ⟨R, C⟩ := rc
  dsimp only at *
  rw [hl, ok_bind]
  have hn : 0 < (if dbLen ≤ 1024 * 1024 then 8 else cpus) := by split <;> omega
  have hsq : ((if dbLen ≤ 1024 * 1024 then 8 else cpus) - 1) * ((if dbLen ≤ 1024 * 1024 then 8 else cpus) - 1) ≤ R := by
    split
    · exact hrows
    · exact hrows'
  generalize (if dbLen ≤ 1024 * 1024 then 8 else cpus) = n at *
  have := C42_many_rows_partial g ⟨l.map (fun b => b &&& 1), ⟨R, C, es, [], []⟩⟩ (by simpa using hlen) n hn hsq
  dsimp only at this
  rw [this, ok_bind]
  refine ⟨_, rfl, ⟨by simpa using hlen, rfl⟩, rfl, rfl, rfl, ?_⟩
  intro b hb
  obtain ⟨x, -, rfl⟩ := List.mem_map.mp hb
  have : ∀ x : Byte, x &&& 1 = 0 ∨ x &&& 1 = 1 := by decide
  exact this x

omit [DecidableEq G] in
/-- C42 is false for all databases of up to 2^20 bits that are not laid out as a square: the only row is given to
eight goroutines, and the third crashes. -/
theorem C42_single_row_crashes (g : Grp G) (H : List Byte → List Byte) (cpus es : Nat) (read : Nat → Res (List Byte))
    (dbLen : Nat) (hlen : dbLen ≤ 2 ^ 20) (hread : ∀ n, ∃ l, read n = ok l ∧ l.length = n) :
    (createRandomEllipticWithDigest g H cpus es read dbLen false).isCrash := by
  obtain ⟨l, hl, hll⟩ := hread (1 * dbLen)
  unfold createRandomEllipticWithDigest
  have e : calculateNumRowsAndColumns dbLen false = (1, dbLen) := rfl
  rw [e]
  dsimp only
  rw [hl, ok_bind, if_pos (by omega), isCrash_bind]
  left
  exact (C42_crash_iff g ⟨l.map (fun b => b &&& 1), ⟨1, dbLen, es, [], []⟩⟩ (by simpa using hll) 8 (by omega)).mpr
    (by simp)

/-- C42 as claimed is false. -/
theorem C42_refuted : ¬ C42_Statement := by
  intro h
  have key : ∀ (read : Nat → Res (List Byte)) (dbLen : Nat), dbLen ≤ 2 ^ 20 →
      (∀ n, ∃ l, read n = ok l ∧ l.length = n) → False := by
    intro read dbLen hlen hread
    obtain ⟨db, h1, -⟩ := h (ZMod 5) shortGroup id 8 2 read dbLen false (by omega) (by omega) hread
    have := C42_single_row_crashes shortGroup id 8 2 read dbLen hlen hread
    rw [h1] at this
    simp at this
  exact key (fun n => ok (List.replicate n 0)) 100 (by norm_num) (fun n => ⟨_, rfl, by simp⟩)

/-- Nine rows crash as well, eight and sixteen do not. -/
example : 9 < (8 - 1) * ((9 + 8 - 1) / 8) ∧ (8 - 1) * ((8 + 8 - 1) / 8) ≤ 8 ∧ (8 - 1) * ((16 + 8 - 1) / 8) ≤ 16 := by
  decide

/-- The premises of `C42_create_partial`. -/
example : 49 ≤ (calculateNumRowsAndColumns 2500 true).1 := by
  obtain ⟨c, h1, -, h2, -⟩ := calculate_matrix (n := 2500) (by norm_num)
  rw [h1]
  by_contra hlt
  have : c ≤ 48 := by simp only at hlt; omega
  have := Nat.mul_le_mul this this
  omega

/-! ### The scheme from creation to reconstruction (C39, C41, C42) -/

/-- A database created by the server is accepted by the client, and every bit is retrieved, in groups with encodings of
one size. -/
theorem C39_created_partial (g : Grp G) (H : List Byte → List Byte) (cpus es : Nat) (read : Nat → Res (List Byte))
    (dbLen : Nat) (rebalanced : Bool) (hcpus : 0 < cpus) (hread : ∀ n, ∃ l, read n = ok l ∧ l.length = n)
    (hrows : 49 ≤ (calculateNumRowsAndColumns dbLen rebalanced).1)
    (hrows' : (cpus - 1) * (cpus - 1) ≤ (calculateNumRowsAndColumns dbLen rebalanced).1)
    (hcols : (calculateNumRowsAndColumns dbLen rebalanced).2 ≤ 2 ^ 63)
    (hd : Decodes g) (hf : FixedSize g es) :
    ∃ db, createRandomEllipticWithDigest g H cpus es read dbLen rebalanced = ok db ∧ newDH H db.info = ok db.info ∧
      ∀ (r t : Int) (k : Nat), k < db.entries.length → t • hashIndexToGroup g (k % db.info.numColumns) ≠ 0 →
      ∃ q st a, queryBytes g db.info r t k = ok (q, st) ∧ answerBytes g db q = ok a ∧
        reconstructBytes g db.info st a = ok (db.entries.getD k 0) := by
  obtain ⟨db, h1, h2, h3, h4, h5, h6⟩ := C42_create_partial g H cpus es read dbLen rebalanced hcpus hread hrows hrows'
  refine ⟨db, h1, ?_, ?_⟩
  · unfold newDH
    rw [if_neg (by simp [h3])]
  · intro r t k hk ht
    have hcols' : db.info.numColumns ≤ 2 ^ 63 := by
      rw [← h5] at hcols
      exact hcols
    have := C39_fixed_size_partial g db r t k hd (h4.symm ▸ hf) h2 hcols' (by rw [← h2.complete]; exact hk) ht
    have he : (if db.entries.getD k 0 = 1 then (1 : Byte) else 0) = db.entries.getD k 0 := by
      have hm : db.entries.getD k 0 ∈ db.entries := by
        rw [List.getD_eq_getElem?_getD, List.getElem?_eq_getElem hk]
        exact List.getElem_mem hk
      rcases h6 _ hm with h | h <;> rw [h] <;> rfl
    rw [he] at this
    exact this

omit [AddCommGroup G] [DecidableEq G] in
/-- C41: the digests tell the columns of a database apart: with a hash to the group that has no collisions on indices, different
columns have different base elements, for up to 2^64 columns. -/
theorem C41_bases_distinct (g : Grp G) (j j' : Nat) (hj : j < 2 ^ 64) (hj' : j' < 2 ^ 64)
    (hinj : ∀ a b : List Byte, a.length = 8 → b.length = 8 → g.hashTo a = g.hashTo b → a = b) (hne : j ≠ j') :
    hashIndexToGroup g j ≠ hashIndexToGroup g j' := by
  intro h
  have h1 := hinj _ _ (leBytes_length 8 j) (leBytes_length 8 j') h
  have h2 := congrArg ofLE h1
  rw [ofLE_leBytes, ofLE_leBytes, Nat.mod_eq_of_lt (by norm_num; omega), Nat.mod_eq_of_lt (by norm_num; omega)] at h2
  exact hne h2

/-- Elements are byte strings, hashed to themselves, read as numbers. -/
example : hashIndexToGroup (G := Int) { enc := fun _ => [], dec := fun _ => err "", hashTo := fun b => ((ofLE b : Nat) : Int) } 1 ≠
    hashIndexToGroup (G := Int) { enc := fun _ => [], dec := fun _ => err "", hashTo := fun b => ((ofLE b : Nat) : Int) } 257 := by
  refine C41_bases_distinct _ 1 257 (by decide) (by decide) ?_ (by decide)
  intro a b ha hb h
  have h' : ofLE a = ofLE b := Int.ofNat.inj h
  rw [← leBytes_ofLE a, ← leBytes_ofLE b, ha, hb, h']

end Verif.Dh
