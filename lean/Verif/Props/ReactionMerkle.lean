import Verif.Lemmas.ReactionMerkle
import Verif.Lemmas.AmplifyBound
import Mathlib.Data.Set.Finite.List

/-! # C90: what a lying server of a Merkle-authenticated lookup learns from the client's reaction -/

namespace Verif.MerklePir
open Res Verif.Database Verif.Merkle Verif.Merkle.Spec Verif.Padding Verif.Point Verif.Point.Spec Verif.Reaction
open Verif.MerklePir.Spec

/-- C90 as claimed, for three or more servers: whatever one server answers, its message and the way the client ends have the
same distribution for any two indices. -/
def C90_Statement : Prop :=
  ∀ (H : List Byte → List Byte), (∀ s, (H s).length = 32) → ∀ (db : Bytes) (records : List (List Byte)),
    Holds H db records → db.info.numColumns < 2 ^ 63 → ∀ (n k : Nat), 3 ≤ n → k < n →
    ∀ (F : List Byte → Res (List Byte)) (dpf : Dpf) (i j : Nat), i < records.length → j < records.length →
    ∀ v, Nat.card {r // Shows H db n k F i dpf v r} = Nat.card {r // Shows H db n k F j dpf v r}

/-- Reconstruction looks at the requested row of each answer only. -/
theorem reconstruct_parts (answers : List (List Byte)) (info : Info) (st : Point.State) {k : Nat} (hk : k < answers.length)
    {f : List Byte} (h : part info st f = part info st answers[k]) :
    reconstructValue (answers.set k f) info st = reconstructValue answers info st := by
  have hmap : (answers.set k f).map (part info st) = answers.map (part info st) := by
    rw [List.map_set, h, ← List.getElem_map (part info st) (h := by simpa using hk), List.set_getElem_self]
  have key : ∀ as : List (List Byte), reconstructValue as info st = (as.map (part info st)).foldlM
      (fun sum p => p >>= fun s => ok (fastxor sum sum s)) (List.replicate info.blockSize 0) := by
    intro as
    rw [List.foldlM_map]
    rfl
  rw [key, key, hmap]

theorem stored_nonempty {H : List Byte → List Byte} {db : Bytes} {records stored : List (List Byte)}
    (hst : Stores db stored) (hf : List.Forall₂ (Sealed H db.info.root db.info.proofLen) records stored) {i : Nat}
    (hi : i < records.length) : 0 < db.info.blockSize := by
  obtain ⟨hlen, hget⟩ := forall₂_get hf
  have h := (hget i hi (by omega)).length
  have := hst.fits stored[i] (List.getElem_mem _)
  omega

/-- C90: one server that cuts its answer off after `x` rows learns whether the requested record is in these rows: then the
client goes on, otherwise it panics. No hash function prevents it. -/
theorem C90_short_answer (H : List Byte → List Byte) (db : Bytes) (records : List (List Byte)) (hh : Holds H db records)
    (hcols : db.info.numColumns < 2 ^ 63) (dpf : Dpf) (read : Nat → Res (List Byte)) (hread : Delivers read) (mode n : Nat)
    (hfit : ServersFit dpf mode n) (x i : Nat) (hi : i < records.length) :
    ∃ qs st answers, query dpf read db.info i n = ok (qs, st) ∧ qs.mapM (answer dpf mode db) = ok answers ∧
      answers.length = n ∧ ∀ k (hk : k < answers.length),
        reconstructPIR H (answers.set k (answers[k].take (x * db.info.blockSize))) db.info st =
          if i / db.info.numColumns < x then ok records[i] else crash "slice bounds out of range" := by
  obtain ⟨stored, hst, hf⟩ := hh.stored
  obtain ⟨hlen, hget⟩ := forall₂_get hf
  have hbs := stored_nonempty hst hf hi
  obtain ⟨qs, st, answers, h1, h2, h3, h4, ⟨iy, rfl⟩, h6, h7⟩ := honest_exchange dpf read hread mode n hfit db stored hst
    hcols i (by omega)
  refine ⟨qs, _, answers, h1, h2, h3, fun k hk => ?_⟩
  rw [pir_merkle hh.type]
  have hak : answers[k].length = db.info.numRows * db.info.blockSize := h4 _ (List.getElem_mem _)
  generalize i / db.info.numColumns = w at *
  have hcut : (answers[k].take (x * db.info.blockSize)).length = min x db.info.numRows * db.info.blockSize := by
    rw [List.length_take, hak, Nat.mul_min_mul_right]
  split
  · rename_i hx
    rw [reconstruct_parts _ _ _ hk, h7, ok_bind]
    · exact checkBlock_sealed (hget i hi (by omega)) _
    · rw [part_of_row hak h6, part_of_row hcut (by omega)]
      congr 1
      have hb := row_bound (C := db.info.blockSize) hx
      unfold rowOf
      rw [List.drop_take, List.take_take]
      congr 1
      omega
  · rename_i hx
    rw [reconstructValue_eq, if_neg, crash_bind]
    intro hall
    obtain ⟨s, hs⟩ := hall _ (List.mem_set hk _)
    have hsl := part_length hs
    unfold part sliceInt at hs
    split at hs
    · simp at hs
    · rw [slice_eq_ok] at hs
      obtain ⟨-, hle, -⟩ := hs
      rw [hcut] at hle
      have e : ((db.info.blockSize : Int) * ((w : Int) + 1)).toNat = db.info.blockSize * (w + 1) := by
        have : (db.info.blockSize : Int) * ((w : Int) + 1) = ((db.info.blockSize * (w + 1) : Nat) : Int) := by push_cast; rfl
        rw [this, Int.toNat_natCast]
      rw [e, Nat.mul_comm] at hle
      have := Nat.le_of_mul_le_mul_right hle hbs
      omega

/-- C90: the same in terms of what the server sees, with three or more servers: the reaction is a function of the row alone. -/
theorem C90_row_seen (H : List Byte → List Byte) (db : Bytes) (records : List (List Byte)) (hh : Holds H db records)
    (hcols : db.info.numColumns < 2 ^ 63) (n k : Nat) (hn : 3 ≤ n) (hk : k < n) (dpf : Dpf) (x i : Nat)
    (hi : i < records.length) (r : List Byte) (hr : r.length = (n - 1) * (db.info.numColumns / 8 + 1)) :
    ∃ q, view H db n k (fun q => answerVec db q >>= fun a => ok (a.take (x * db.info.blockSize))) i dpf r =
      ok (q, if i / db.info.numColumns < x then ok () else crash "slice bounds out of range") := by
  have hC : 0 < db.info.numColumns := by
    obtain ⟨stored, hst, hf⟩ := hh.stored
    have hi' : i < stored.length := by rw [← (forall₂_get hf).1]; exact hi
    rw [hst.count] at hi'
    exact (index_split hi').1
  have hdel : Delivers (fun m => if m = r.length then ok r else ok (List.replicate m 0)) := by
    intro m
    by_cases hm : m = r.length
    · exact ⟨r, by simp [hm], hm.symm⟩
    · exact ⟨List.replicate m 0, by simp [hm], by simp⟩
  obtain ⟨qs, st, answers, h1, h2, h3, h4⟩ := C90_short_answer H db records hh hcols dpf _ hdel 0 n
    (Or.inl ⟨rfl, by omega, by omega⟩) x i hi
  obtain ⟨rand, hrand, -, hqs⟩ := query_shares dpf hdel (info := db.info) (i := i) hC (by omega : 0 < n) (by omega)
  rw [if_pos hr.symm, ok.injEq] at hrand
  subst hrand
  have hq := query_fixed dpf (info := db.info) (i := i) hC (by omega : 0 < n) (by omega) hr
  rw [← hqs, h1] at hq
  obtain ⟨hlen, hget⟩ := Lwe.mapM_get h2
  have hkq : k < qs.length := by omega
  have hka : k < answers.length := by omega
  have hans : answerVec db qs[k] = ok answers[k] :=
    hget k _ _ (List.getElem?_eq_getElem hkq) (List.getElem?_eq_getElem hka)
  refine ⟨qs[k], ?_⟩
  unfold view
  rw [hq, ok_bind]
  simp only [h2, ok_bind, idx_of_lt hkq, hans, h4 k hka]
  split <;> rfl

theorem rowMask_length (db : Bytes) (x : Nat) : (rowMask db x).length = db.info.numRows * db.info.blockSize := by
  simp [rowMask]

theorem rowMask_row (db : Bytes) {x w : Nat} (hw : w < db.info.numRows) (hbs : 0 < db.info.blockSize) :
    rowOf (rowMask db x) db.info.blockSize w =
      if w = x then 1 :: List.replicate (db.info.blockSize - 1) 0 else List.replicate db.info.blockSize 0 := by
  have hb := row_bound (C := db.info.blockSize) hw
  apply ext_getD
  · rw [rowOf_length (rowMask_length db x) hw]
    split
    · simp; omega
    · simp
  intro t ht
  rw [rowOf_length (rowMask_length db x) hw] at ht
  rw [MerklePir.rowOf_getD ht]
  unfold rowMask
  rw [List.getD_eq_getElem?_getD, List.getElem?_set, List.length_replicate]
  have hdiv : (w * db.info.blockSize + t) / db.info.blockSize = w := by
    rw [Nat.mul_comm, Nat.mul_add_div hbs, Nat.div_eq_of_lt ht, Nat.add_zero]
  by_cases hx : w = x
  · subst hx
    rw [if_pos rfl]
    by_cases h0 : t = 0
    · subst h0
      rw [Nat.add_zero, if_pos rfl, if_pos (by omega)]
      rfl
    · rw [if_neg (by omega)]
      obtain ⟨u, rfl⟩ : ∃ u, t = u + 1 := ⟨t - 1, by omega⟩
      rw [List.getD_cons_succ, getD_replicate, List.getElem?_replicate]
      split <;> rfl
  · rw [if_neg hx, if_neg (by
      intro he
      apply hx
      rw [← hdiv, ← he, Nat.mul_div_cancel _ hbs]), getD_replicate, List.getElem?_replicate]
    split <;> rfl

/-- C90: one server that flips a bit in a single row, whichever message it got, learns whether the requested record is in that
row: then the client rejects, otherwise it goes on. So the answers of a client that insists on their full length tell as much.
The hypothesis excludes that the flipped record passes for the original one by a collision of the hash function. -/
theorem C90_flipped_row (H : List Byte → List Byte) (hH : ∀ s, (H s).length = 32) (db : Bytes)
    (records stored : List (List Byte)) (ht : db.info.pirType = "merkle") (hst : Stores db stored)
    (hf : List.Forall₂ (Sealed H db.info.root db.info.proofLen) records stored)
    (hcols : db.info.numColumns < 2 ^ 63) (dpf : Dpf) (read : Nat → Res (List Byte)) (hread : Delivers read) (mode n : Nat)
    (hfit : ServersFit dpf mode n) (x i : Nat) (hi : i < records.length) (hne : records[i] ≠ [])
    (hc : ∀ proof, storedProof records[i].length db.info.proofLen (stored.getD i []) = ok proof →
      NoClash H records[i] (flipFirst records[i]) proof) :
    ∃ qs st answers, query dpf read db.info i n = ok (qs, st) ∧ qs.mapM (answer dpf mode db) = ok answers ∧
      answers.length = n ∧ ∀ k (hk : k < answers.length),
        reconstructPIR H (answers.set k (Spec.xor answers[k] (rowMask db x))) db.info st =
          if i / db.info.numColumns = x then err "REJECT!" else ok records[i] := by
  obtain ⟨hlen, hget⟩ := forall₂_get hf
  have hbs := stored_nonempty hst hf hi
  have hi' : i < stored.length := by omega
  have hrow := hi'
  rw [hst.count] at hrow
  obtain ⟨-, hx, -, -⟩ := index_split hrow
  obtain ⟨qs, st, answers, h1, h2, h3, -, h5⟩ := exact_reaction H dpf read hread mode n hfit db ht stored hst hcols i hi'
  refine ⟨qs, st, answers, h1, h2, h3, fun k hk => ?_⟩
  rw [h5 k hk _ (rowMask_length db x), rowMask_row db hx hbs]
  have hs := hget i hi hi'
  have hfits := hst.fits stored[i] (List.getElem_mem _)
  rw [List.getD_eq_getElem?_getD, List.getElem?_eq_getElem hi', Option.getD_some] at hc
  have hzl : (zeroExtend db.info.blockSize stored[i]).length = db.info.blockSize := by unfold zeroExtend; simp; omega
  split
  · refine checkBlock_flipped hH hs hne (db.info.blockSize - stored[i].length) hc ?_
    obtain ⟨proof, enc, he, h2, -, -⟩ := hs.holds
    rw [he]
    generalize hd : records[i] = d at *
    cases d with
    | nil => exact absurd rfl hne
    | cons b d =>
      rw [List.drop_left]
      apply ext_getD
      · rw [xor_length (by rw [← he, hzl]; simp; omega), ← he, hzl]
        rw [he] at hfits ⊢
        simp [flipFirst] at hfits ⊢
        omega
      intro t _
      rw [xor_getD (by rw [← he, hzl]; simp; omega)]
      unfold zeroExtend flipFirst
      cases t with
      | zero => simp
      | succ t =>
        simp only [List.cons_append, List.getD_cons_succ, getD_replicate]
        exact BitVec.xor_zero
  · have : Spec.xor (zeroExtend db.info.blockSize stored[i]) (List.replicate db.info.blockSize 0) =
        zeroExtend db.info.blockSize stored[i] := by
      apply ext_getD (by rw [xor_length (by rw [hzl]; simp)])
      intro t _
      rw [xor_getD (by rw [hzl]; simp), getD_replicate]
      exact BitVec.xor_zero
    rw [this]
    exact checkBlock_sealed hs _

/-- C90, what does hold: with three or more servers and answers of full length, the server learns from the reaction only how
the requested block, changed by the requested row of its own deviation, passes the check. Two indices for which this is the
same, for every message, cannot be told apart. Missing from the full claim: indices for which it differs, see
`C90_flipped_row`, and answers of another length, see `C90_short_answer`. -/
theorem C90_view_partial (H : List Byte → List Byte) (db : Bytes) (ht : db.info.pirType = "merkle")
    (stored : List (List Byte)) (hst : Stores db stored) (hcols : db.info.numColumns < 2 ^ 63) (n k : Nat) (hn : 3 ≤ n)
    (hk : k < n) (F : List Byte → Res (List Byte)) (hF : FullLength db F) (dpf : Dpf) (i j : Nat) (hi : i < stored.length)
    (hj : j < stored.length)
    (hsame : ∀ q, q.length = db.info.numColumns / 8 + 1 → learned H db stored F i q = learned H db stored F j q)
    (v : List Byte × Res Unit) :
    Nat.card {r // Shows H db n k F i dpf v r} = Nat.card {r // Shows H db n k F j dpf v r} := by
  obtain ⟨m, hm, hmk⟩ : ∃ m, m < n ∧ m ≠ k := by
    by_cases h : k = 0
    · exact ⟨1, by omega, by omega⟩
    · exact ⟨0, by omega, by omega⟩
  have move : ∀ a b, a < stored.length → b < stored.length →
      (∀ q, q.length = db.info.numColumns / 8 + 1 → learned H db stored F a q = learned H db stored F b q) →
      ∀ r, Shows H db n k F a dpf v r → Shows H db n k F b dpf v (shift (db.info.numColumns / 8 + 1) m
        (unitDiff (db.info.numColumns / 8 + 1) (a % db.info.numColumns) (b % db.info.numColumns)) r) := by
    rintro a b ha hb hab r ⟨hr, hv⟩
    refine ⟨by simpa using hr, ?_⟩
    obtain ⟨q, hq, hql, hview⟩ := view_eq H db ht stored hst hcols hn hk F hF ha dpf hr
    obtain ⟨q', hq', hql', hview'⟩ := view_eq H db ht stored hst hcols hn hk F hF hb dpf (r := shift
      (db.info.numColumns / 8 + 1) m (unitDiff (db.info.numColumns / 8 + 1) (a % db.info.numColumns)
      (b % db.info.numColumns)) r) (by simpa using hr)
    have hs := shares_shift (C := db.info.numColumns) (y := a % db.info.numColumns) (y' := b % db.info.numColumns)
      (m := m) hr (by omega)
    have hqq : q = q' := by
      by_cases hkm : k < m
      · have e := congrArg (fun l => l[k]?) hs
        simp only [List.getElem?_eraseIdx_of_lt hkm, hq, hq', Option.some.injEq] at e
        exact e
      · have e := congrArg (fun l => l[k - 1]?) hs
        simp only [List.getElem?_eraseIdx_of_ge (show m ≤ k - 1 by omega), show k - 1 + 1 = k by omega, hq, hq',
          Option.some.injEq] at e
        exact e
    subst hqq
    rw [hview', ← hab q hql, ← hview]
    exact hv
  apply Nat.card_congr
  refine ⟨fun r => ⟨_, move i j hi hj hsame r.1 r.2⟩,
    fun r => ⟨_, move j i hj hi (fun q hq => (hsame q hq).symm) r.1 r.2⟩, ?_, ?_⟩
  · rintro ⟨r, hr⟩
    apply Subtype.ext
    simp only
    rw [unitDiff_comm _ (j % db.info.numColumns), shift_shift]
  · rintro ⟨r, hr⟩
    apply Subtype.ext
    simp only
    rw [unitDiff_comm _ (i % db.info.numColumns), shift_shift]

/-- C90, a case: a server that changes rows of neither record tells the two indices apart no better than from its message
alone. -/
theorem C90_other_rows_partial (H : List Byte → List Byte) (db : Bytes) (records stored : List (List Byte))
    (ht : db.info.pirType = "merkle") (hst : Stores db stored)
    (hf : List.Forall₂ (Sealed H db.info.root db.info.proofLen) records stored) (hcols : db.info.numColumns < 2 ^ 63)
    (n k : Nat) (hn : 3 ≤ n) (hk : k < n) (F : List Byte → Res (List Byte)) (hF : FullLength db F) (dpf : Dpf) (i j : Nat)
    (hi : i < records.length) (hj : j < records.length)
    (hrows : ∀ q f h, F q = ok f → answerVec db q = ok h → ∀ x, x = i / db.info.numColumns ∨ x = j / db.info.numColumns →
      (f.drop (x * db.info.blockSize)).take db.info.blockSize = (h.drop (x * db.info.blockSize)).take db.info.blockSize)
    (v : List Byte × Res Unit) :
    Nat.card {r // Shows H db n k F i dpf v r} = Nat.card {r // Shows H db n k F j dpf v r} := by
  obtain ⟨hlen, hget⟩ := forall₂_get hf
  apply C90_view_partial H db ht stored hst hcols n k hn hk F hF dpf i j (by omega) (by omega)
  intro q hq
  have one : ∀ a (ha : a < records.length), a = i ∨ a = j →
      learned H db stored F a q = ending (F q) := by
    intro a ha haij
    have ha' : a < stored.length := by omega
    have hrow := ha'
    rw [hst.count] at hrow
    obtain ⟨-, hx, -, -⟩ := index_split hrow
    unfold learned
    obtain ⟨h, hh, hhl, -⟩ := answerVec_spec hst q (by omega)
    cases hfq : F q with
    | err m => rfl
    | crash m => rfl
    | ok f =>
      simp only [ok_bind, hh]
      have he := hrows q f h hfq hh (a / db.info.numColumns) (by rcases haij with rfl | rfl <;> simp)
      have hfl : f.length = h.length := by rw [hF _ _ hfq, hhl]
      have hz : rowOf (Spec.xor f h) db.info.blockSize (a / db.info.numColumns) = List.replicate db.info.blockSize 0 := by
        have hxl : (Spec.xor f h).length = db.info.numRows * db.info.blockSize := by rw [xor_length hfl, hF _ _ hfq]
        apply ext_getD (by rw [rowOf_length hxl hx]; simp)
        intro t hts
        rw [rowOf_length hxl hx] at hts
        rw [MerklePir.rowOf_getD hts, xor_getD hfl, getD_replicate, ← MerklePir.rowOf_getD hts, ← MerklePir.rowOf_getD hts]
        unfold rowOf
        rw [he, BitVec.xor_self]
        rfl
      have hfits := hst.fits stored[a] (List.getElem_mem _)
      have hzl : (zeroExtend db.info.blockSize stored[a]).length = db.info.blockSize := by unfold zeroExtend; simp; omega
      have hid : Spec.xor (zeroExtend db.info.blockSize stored[a]) (List.replicate db.info.blockSize 0) =
          zeroExtend db.info.blockSize stored[a] := by
        apply ext_getD (by rw [xor_length (by rw [hzl]; simp)])
        intro t _
        rw [xor_getD (by rw [hzl]; simp), getD_replicate]
        exact BitVec.xor_zero
      rw [List.getD_eq_getElem?_getD, List.getElem?_eq_getElem ha', Option.getD_some]
      unfold rowOf at hz
      rw [hz, hid, checkBlock_sealed (hget a ha ha')]
      rfl
  rw [one i hi (Or.inl rfl), one j hj (Or.inr rfl)]

/-! ### The hypotheses are met, and the claim is false -/

/-- Two records in two rows, over a toy hash function: the proof of each is the digest of the other. -/
def exProof : Nat → Proof
  | 0 => ⟨[toyHash [2, 1, 0, 0, 0]], 0⟩
  | _ => ⟨[toyHash [1, 0, 0, 0, 0]], 1⟩

def exEnc (i : Nat) : List Byte :=
  putLE32 (BitVec.ofNat 32 (exProof i).hashes.length) ++ (exProof i).hashes.flatten ++ putLE32 (exProof i).index

def exStored : List (List Byte) := [[1] ++ (exEnc 0 ++ [0x80]), [2] ++ (exEnc 1 ++ [0x80])]

def exMerkle : Bytes :=
  ⟨exStored.flatten, { numRows := 2, numColumns := 1, blockSize := 42, blockLengths := [42, 42], pirType := "merkle",
                       root := toyHash (toyHash [1, 0, 0, 0, 0] ++ toyHash [2, 1, 0, 0, 0]), proofLen := 40 }⟩

/-- It is the database the library makes. -/
example : createRandomMerkle toyHash fnv1a (fun _ => ok [1, 2]) 16 2 1 = ok exMerkle := by decide +kernel

theorem exMerkle_stores : Stores exMerkle exStored :=
  ⟨by decide, ⟨[], by rw [List.append_nil]; rfl⟩, by decide, by decide⟩

theorem exMerkle_sealed : List.Forall₂ (Sealed toyHash exMerkle.info.root exMerkle.info.proofLen) [[1], [2]] exStored := by
  have h : ∀ i, i < 2 → ∀ tail, decodeProof (exEnc i) tail = ok (exProof i) := by
    intro i hi tail
    have : i = 0 ∨ i = 1 := by omega
    rcases this with rfl | rfl
    · exact decodeProof_encoded (exProof 0) (by decide) (by decide) tail
    · exact decodeProof_encoded (exProof 1) (by decide) (by decide) tail
  refine .cons ⟨exProof 0, exEnc 0, rfl, by decide, h 0 (by decide), by decide⟩ (.cons ⟨exProof 1, exEnc 1, rfl, by decide,
    h 1 (by decide), by decide⟩ .nil)

theorem exMerkle_holds : Holds toyHash exMerkle [[1], [2]] := ⟨rfl, exStored, exMerkle_stores, exMerkle_sealed⟩

/-- The hypotheses of the two attacks. -/
example := C90_short_answer toyHash exMerkle [[1], [2]] exMerkle_holds (by decide) plainDpf sevens sevens_delivers 0 3
  (servers_fit_three _) 1 0 (by decide)

example := C90_flipped_row toyHash toyHash_length exMerkle [[1], [2]] exStored rfl exMerkle_stores exMerkle_sealed (by decide)
  plainDpf sevens sevens_delivers 0 3 (servers_fit_three _) 0 0 (by decide) (by decide) (by
    intro proof hp
    have : storedProof [(1 : Byte)].length exMerkle.info.proofLen (exStored.getD 0 []) = ok (exProof 0) :=
      by decide +kernel
    have he := this.symm.trans hp
    rw [ok.injEq] at he
    subst he
    unfold NoClash
    decide)

/-- A server that answers honestly meets the hypothesis of `C90_other_rows_partial`. -/
example (i j : Nat) (hi : i < 2) (hj : j < 2) :=
  C90_other_rows_partial toyHash exMerkle [[1], [2]] exStored rfl exMerkle_stores exMerkle_sealed (by decide) 3 1 (by decide)
    (by decide) (fun q => if q.length = 1 then answerVec exMerkle q else err "") (by
      intro q f hf
      simp only at hf
      split at hf
      · rename_i hq
        obtain ⟨h, hh, hhl, -⟩ := answerVec_spec exMerkle_stores q (by rw [hq]; decide)
        rw [hh, ok.injEq] at hf
        rw [← hf]
        exact hhl
      · simp at hf) plainDpf i j hi hj (by
      intro q f h hf hh x _
      split at hf
      · rw [hh, ok.injEq] at hf
        rw [hf]
      · simp at hf)

/-- C90 as claimed is false. -/
theorem C90_refuted : ¬ C90_Statement := by
  intro h
  let F : List Byte → Res (List Byte) := fun q => answerVec exMerkle q >>= fun a => ok (a.take (1 * exMerkle.info.blockSize))
  have hseen := C90_row_seen toyHash exMerkle [[1], [2]] exMerkle_holds (by decide) 3 1 (by decide) (by decide) plainDpf 1
  obtain ⟨q, hq⟩ := hseen 0 (by decide) [0, 0] rfl
  have hc := h toyHash toyHash_length exMerkle [[1], [2]] exMerkle_holds (by decide) 3 1 (by decide) (by decide) F plainDpf 0 1
    (by decide) (by decide) (q, ok ())
  have h1 : IsEmpty {r // Shows toyHash exMerkle 3 1 F 1 plainDpf (q, ok ()) r} := by
    constructor
    rintro ⟨r, hr, hv⟩
    obtain ⟨q', hq'⟩ := hseen 1 (by decide) r hr
    rw [hq'] at hv
    simp [exMerkle] at hv
  have h0 : Finite {r // Shows toyHash exMerkle 3 1 F 0 plainDpf (q, ok ()) r} :=
    Set.Finite.subset (List.finite_length_eq Byte 2) (fun r hr => hr.1)
  rw [Nat.card_eq_zero.mpr (Or.inl h1)] at hc
  rcases Nat.card_eq_zero.mp hc with he | he
  · exact he.elim ⟨[0, 0], rfl, hq⟩
  · exact he.not_finite h0

end Verif.MerklePir
