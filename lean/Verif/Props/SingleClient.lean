import Verif.Lemmas.SingleClient
import Verif.Lemmas.Ecc
import Verif.Props.SingleAnswer

/-! # C145: what the single-server clients make of any answer is given by a complete table (lib/client/lwe.go, lwe128.go,
amplify.go, dh.go) -/

namespace Verif.Lwe
open Res Verif.Matrix Verif.Utils Verif.Lwe.Spec Finset

/-- The table has one outcome for an answer. -/
theorem table_unique {w : Nat} {F : Format} {lo hi : Int} {m : Nat} {st : State w} {a : List Byte} {o o' : Outcome}
    (h : Table F lo hi m st a o) (h' : Table F lo hi m st a o') : o = o' := by
  cases h <;> cases h' <;> first | rfl | (exfalso; first | contradiction | (rename_i h1 _ _ h2 _ _; omega) | skip)
  all_goals first
    | (rename_i i _ hi hc _ hall _; exact hc (hall i hi))
    | (rename_i i _ hi hc _ hall _ _; exact hc (hall i hi))
    | (rename_i _ hall _ i _ hi hc; exact hc (hall i hi))
    | (rename_i _ hall _ _ i _ hi hc; exact hc (hall i hi))

theorem table_of {w : Nat} (S : Scheme w) (F : Format) (lo hi : Int) (p : Params) (st : State w) (hj : st.j < p.m) (E : Mat w)
    (hmul : S.mul st.secret st.digest = ok E) (hE1 : E.rows = 1) (hE2 : E.cols = p.m) (hE3 : E.WellFormed)
    (hE : ∀ i, i < p.m → E.entry 0 i = BitVec.ofInt w (awaited st i))
    (hr : ∀ v : BitVec w, S.inRange p.b v = true ↔ ∃ x : Int, -lo ≤ x ∧ x ≤ hi ∧ v = BitVec.ofInt w x)
    (a : List Byte) (hshort : a.length < 8 → (S.ofBytes a).isCrash)
    (hread : 8 ≤ a.length → S.ofBytes a = ok ⟨announcedRows a, announcedColumns a,
      (List.range (carried F a)).map (fun n => BitVec.ofNat w (F.word a n))⟩) :
    Table F lo hi p.m st a (outcome (reconstructBytes S p st a)) := by
  have hcrash : ∀ x : Res U32, x.isCrash → outcome x = .panic := by
    intro x hx
    cases x with
    | ok v => exact absurd hx (by simp [isCrash])
    | err e => exact absurd hx (by simp [isCrash])
    | crash m => rfl
  have herr : ∀ x : Res U32, x.isErr → outcome x = .reject := by
    intro x hx
    cases x with
    | ok v => exact absurd hx (by simp [isErr])
    | err e => rfl
    | crash m => exact absurd hx (by simp [isErr])
  by_cases h8 : 8 ≤ a.length
  swap
  · rw [hcrash]
    · exact Table.malformed fun h => h8 h.1
    · unfold reconstructBytes
      rw [isCrash_bind]
      exact Or.inl (hshort (by omega))
  set A : Mat w := ⟨announcedRows a, announcedColumns a,
    (List.range (carried F a)).map (fun n => BitVec.ofNat w (F.word a n))⟩ with hA
  have hb : reconstructBytes S p st a = reconstruct S p st A := by
    unfold reconstructBytes
    rw [hread h8, ok_bind]
  rw [hb]
  have hAl : A.data.length = carried F a := by simp [hA]
  have hEl : E.data.length = p.m := by rw [hE3, hE1, hE2, Nat.one_mul]
  obtain ⟨t1, t2⟩ := reconstruct_table S p st A E hmul hE1 hE2 hEl hj _ (fun k => rfl)
  have hval : ∀ k, k < carried F a → k < p.m →
      A.data.getD k 0 - E.data.getD k 0 = BitVec.ofInt w (rest F st a k) := by
    intro k hk hkm
    have e1 : A.data.getD k 0 = BitVec.ofNat w (F.word a k) := by simp [hA, hk]
    have e2 : E.data.getD k 0 = E.entry 0 k := by
      unfold Mat.entry
      rw [Nat.zero_mul, Nat.zero_add]
    rw [e1, e2, hE k hkm]
    unfold rest
    rw [← BitVec.ofInt_natCast, BitVec.sub_eq_add_neg, sub_eq_add_neg, BitVec.ofInt_add, BitVec.ofInt_neg]
  have hnear : ∀ z : Int, S.inRange p.b (BitVec.ofInt w z) = true ↔ Near w lo hi z := by
    intro z
    rw [hr]
    unfold Near
    simp only [ofInt_eq_iff]
  have ht : ∀ z : Int, BitVec.ofInt w z - st.t = BitVec.ofInt w (z - st.t.toNat) := by
    intro z
    rw [sub_eq_add_neg z, BitVec.ofInt_add, BitVec.ofInt_neg, BitVec.ofInt_natCast, BitVec.ofNat_toNat, BitVec.setWidth_eq,
      BitVec.sub_eq_add_neg]
  have hclear : ∀ k, k < carried F a → k < p.m →
      ((S.inRange p.b (A.data.getD k 0 - E.data.getD k 0) = true ∨
        S.inRange p.b (A.data.getD k 0 - E.data.getD k 0 - st.t) = true) ↔ Clear F lo hi st a k) := by
    intro k hk hkm
    rw [hval k hk hkm, ht, hnear, hnear]
    rfl
  by_cases hrow : Row F p.m a
  swap
  · rw [hcrash]
    · exact Table.malformed hrow
    · exact t1 fun h => hrow ⟨h8, h.1, h.2.1, hAl ▸ h.2.2⟩
  obtain ⟨u1, u2⟩ := t2 hrow.2.1 hrow.2.2.1 (hAl ▸ hrow.2.2.2)
  rw [hAl] at u1 u2
  have hle := hrow.2.2.2
  by_cases hall : ∀ i, i < carried F a → Clear F lo hi st a i
  swap
  · push Not at hall
    obtain ⟨i, hi', hc⟩ := hall
    rw [herr]
    · exact Table.unclear i hrow hi' hc
    · exact u1 ⟨i, hi', fun h => hc ((hclear i hi' (by omega)).mp h)⟩
  obtain ⟨w1, w2⟩ := u2 (fun k hk => (hclear k hk (by omega)).mpr (hall k hk))
  rcases Nat.lt_or_ge (carried F a) p.m with hlt | hge
  · rw [hcrash _ (w1 hlt)]
    exact Table.missing hrow hall hlt
  · have heq : carried F a = p.m := by omega
    rw [w2 heq, hval _ (by omega) hj]
    by_cases hn : Near w lo hi (rest F st a st.j)
    · rw [if_pos ((hnear _).mpr hn)]
      exact Table.zero hrow hall heq hn
    · rw [if_neg (fun h => hn ((hnear _).mp h))]
      exact Table.one hrow hall heq hn

theorem table32 (p : Params) (hb : 0 < p.b.toNat) (st : State 32) (hst : Prepared p st) (a : List Byte) :
    Table format32 ((p.b.toNat : Int) - 1) ((p.b.toNat : Int) - 1) p.m st a (outcome (reconstructBytes lwe32 p st a)) := by
  have hf : FitsInt st.secret.rows st.secret.cols st.digest.cols := by
    rw [hst.one, hst.matching, hst.width]; exact hst.fits
  obtain ⟨E, h1, h2, h3, h4, h5⟩ := mulGo_spec mulOp st.secret st.digest hst.matching hf hst.secret.ge hst.digest.ge
  refine table_of lwe32 format32 _ _ p st hst.column E h1 (by rw [h2, hst.one]) (by rw [h3, hst.width]) h4 ?_
    (range32 p.b hb) a (fun h => (read_short a h).1.1) (read32 a)
  intro i hi
  rw [h5 0 i (by rw [hst.one]; omega) (by rw [hst.width]; exact hi), ofInt_sum]
  rfl

theorem table128 (p : Params) (hb : p.b.toNat < 2 ^ 32 - 1) (st : State 128) (hst : Prepared p st) (a : List Byte) :
    Table format128 ((p.b.toNat : Int) + 1) ((p.b.toNat : Int) - 1) p.m st a (outcome (reconstructBytes lwe128 p st a)) := by
  have hf : FitsInt st.secret.rows st.secret.cols st.digest.cols := by
    rw [hst.one, hst.matching, hst.width]; exact hst.fits
  obtain ⟨E, h1, h2, h3, h4, h5⟩ := mul128_spec st.secret st.digest hst.matching hf hst.secret hst.digest
  refine table_of lwe128 format128 _ _ p st hst.column E h1 (by rw [h2, hst.one]) (by rw [h3, hst.width]) h4 ?_
    (range128 p.b hb) a (fun h => (read_short a h).2.1) (read128 a)
  intro i hi
  rw [h5 0 i (by rw [hst.one]; omega) (by rw [hst.width]; exact hi), ofInt_sum]
  rfl

/-- C145 for the 32-bit LWE client: the table gives exactly what it does with any answer. -/
theorem C145_lwe (p : Params) (hb : 0 < p.b.toNat) (st : State 32) (hst : Prepared p st) (a : List Byte) (o : Outcome) :
    outcome (reconstructBytes lwe32 p st a) = o ↔
      Table format32 ((p.b.toNat : Int) - 1) ((p.b.toNat : Int) - 1) p.m st a o :=
  ⟨fun h => h ▸ table32 p hb st hst a, fun h => table_unique (table32 p hb st hst a) h⟩

/-- C145 for the 128-bit LWE client. -/
theorem C145_lwe128 (p : Params) (hb : p.b.toNat < 2 ^ 32 - 1) (st : State 128) (hst : Prepared p st) (a : List Byte)
    (o : Outcome) :
    outcome (reconstructBytes lwe128 p st a) = o ↔
      Table format128 ((p.b.toNat : Int) + 1) ((p.b.toNat : Int) - 1) p.m st a o :=
  ⟨fun h => h ▸ table128 p hb st hst a, fun h => table_unique (table128 p hb st hst a) h⟩

/-- A client of two columns that waits for column 1: the expected words are 10 and 20, the blinding word is 100. -/
def waiting (w : Nat) : State w := ⟨⟨1, 1, [0]⟩, ⟨1, 2, [2, 4]⟩, ⟨1, 1, [5]⟩, 0, 1, 100⟩

/-- Its parameters: noise below 3. -/
def waitingParams : Params := { n := 1, l := 1, m := 2, b := 3, seedA := [], bytesMod := 4 }

theorem waiting_prepared (w : Nat) : Prepared waitingParams (waiting w) :=
  ⟨rfl, rfl, rfl, rfl, rfl, (by decide : FitsInt 1 1 2), (by decide : 1 < 2)⟩

-- A one with noise 2 in both words, a zero with noise -1, an unclear word, an unclear word after a missing one, a missing word, a
-- word too many and nothing at all.
example : 0 < waitingParams.b.toNat ∧ waitingParams.b.toNat < 2 ^ 32 - 1 := by decide
example : reconstructBytes lwe32 waitingParams (waiting 32) [0, 0, 0, 1, 0, 0, 0, 2, 0, 0, 0, 12, 0, 0, 0, 122] = ok 1 := by
  decide +kernel
example : reconstructBytes lwe32 waitingParams (waiting 32) [0, 0, 0, 1, 0, 0, 0, 2, 0, 0, 0, 12, 0, 0, 0, 19] = ok 0 := by
  decide +kernel
example : reconstructBytes lwe32 waitingParams (waiting 32) [0, 0, 0, 1, 0, 0, 0, 2, 0, 0, 0, 13] = err "REJECT" := by
  decide +kernel
example : Table format32 2 2 2 (waiting 32) [0, 0, 0, 1, 0, 0, 0, 2, 0, 0, 0, 13] .reject :=
  (C145_lwe waitingParams (by decide) (waiting 32) (waiting_prepared 32) _ _).mp (by decide +kernel)
example : (reconstructBytes lwe32 waitingParams (waiting 32) [0, 0, 0, 1, 0, 0, 0, 2, 0, 0, 0, 12]).isCrash := by
  decide +kernel
example : (reconstructBytes lwe32 waitingParams (waiting 32)
    [0, 0, 0, 1, 0, 0, 0, 2, 0, 0, 0, 13, 0, 0, 0, 19, 0, 0, 0, 19]).isCrash := by decide +kernel
example : (reconstructBytes lwe32 waitingParams (waiting 32) []).isCrash := by decide +kernel
-- The 128-bit client takes a noise of -4 as well, but not 3.
example : reconstructBytes lwe128 waitingParams (waiting 128)
    ([0, 0, 0, 1, 0, 0, 0, 2] ++ (6 :: List.replicate 15 0) ++ (16 :: List.replicate 15 0)) = ok 0 := by decide +kernel
example : Table format128 4 2 2 (waiting 128)
    ([0, 0, 0, 1, 0, 0, 0, 2] ++ (6 :: List.replicate 15 0) ++ (23 :: List.replicate 15 0)) .reject :=
  (C145_lwe128 waitingParams (by decide) (waiting 128) (waiting_prepared 128) _ _).mp (by decide +kernel)

/-! ### The amplified client -/

/-- The matrix read from a piece of eight bytes or more. -/
def matOf (b : List Byte) : Mat 32 := ⟨announcedRows b, announcedColumns b,
  (List.range (carried format32 b)).map (fun n => BitVec.ofNat 32 (format32.word b n))⟩

theorem pieceOf_length (a : List Byte) (i : Nat) (h4 : 4 ≤ a.length) (hi : i < pieces a) :
    4 + (i + 1) * number a 0 ≤ a.length ∧ (pieceOf a i).length = number a 0 := by
  have h1 : (i + 1) * number a 0 ≤ a.length - 4 :=
    le_trans (Nat.mul_le_mul_right _ hi) (Nat.div_mul_le_self _ _)
  refine ⟨by omega, ?_⟩
  unfold pieceOf
  rw [List.length_take, List.length_drop]
  rw [Nat.succ_mul] at h1
  omega

theorem split_pieces (a : List Byte) (hl : a.length < 2 ^ 32) :
    (¬ Splits a → (bytesToMatrices a).isCrash) ∧
    (Splits a → bytesToMatrices a = ok ((List.range (pieces a)).map (fun i => matOf (pieceOf a i)))) := by
  by_cases h4 : 4 ≤ a.length
  swap
  · refine ⟨fun _ => ?_, fun h => absurd h.1 h4⟩
    unfold bytesToMatrices
    rw [isCrash_bind]
    exact Or.inl (panics_slice (by omega)).1
  have hhead : bytesToMatrices a = (if number a 0 = 0 then crash "integer divide by zero" else
      forLoop (pieces a) (fun i out => do
        let s ← slice a (4 + i * number a 0) (4 + (i + 1) * number a 0)
        let m ← bytesToMatrix s
        ok (out ++ [m])) []) := by
    unfold bytesToMatrices
    rw [slice_of_le (by omega) h4, ok_bind, read_number _ (by simp; omega), ok_bind]
    dsimp only
    rw [toNat_number, number_take _ _ (by omega), number_drop, Nat.zero_add]
    have : (a.length - 4) / number a 0 % 2 ^ 32 = pieces a := by
      unfold pieces
      exact Nat.mod_eq_of_lt (lt_of_le_of_lt (Nat.div_le_self _ _) (by omega))
    rw [this]
  rw [hhead]
  by_cases h0 : number a 0 = 0
  · rw [if_pos h0]
    exact ⟨fun _ => trivial, fun h => by have := h.2.1; omega⟩
  rw [if_neg h0]
  have hslice : ∀ i, i < pieces a → slice a (4 + i * number a 0) (4 + (i + 1) * number a 0) = ok (pieceOf a i) := by
    intro i hi
    have := (pieceOf_length a i h4 hi).1
    rw [slice_of_le (by rw [Nat.succ_mul]; omega) this]
    unfold pieceOf
    rw [show 4 + (i + 1) * number a 0 - (4 + i * number a 0) = number a 0 by rw [Nat.succ_mul]; omega]
  refine ⟨fun h => ?_, fun h => ?_⟩
  · have hs : number a 0 < 8 ∧ 0 < pieces a := by
      by_contra hc
      exact h ⟨h4, by omega, by omega⟩
    obtain ⟨t, ht, -, he⟩ := loop_first (n := pieces a) (m := 0) (s := ([] : List (Mat 32))) (body := fun i out => do
        let s ← slice a (4 + i * number a 0) (4 + (i + 1) * number a 0)
        let m ← bytesToMatrix s
        ok (out ++ [m])) hs.2 (fun _ _ => True) trivial (fun i t hi => absurd hi (by omega))
    have hc := (read_short (pieceOf a 0) (by rw [(pieceOf_length a 0 h4 hs.2).2]; exact hs.1)).1.1
    cases hx : bytesToMatrix (pieceOf a 0) with
    | ok m => rw [hx] at hc; exact absurd hc (by simp [isCrash])
    | err e => rw [hx] at hc; exact absurd hc (by simp [isCrash])
    | crash m =>
      rw [he m (by rw [hslice 0 hs.2, ok_bind, hx, crash_bind])]
      trivial
  · refine forLoop_eq (n := pieces a) (body := fun i out => do
        let s ← slice a (4 + i * number a 0) (4 + (i + 1) * number a 0)
        let m ← bytesToMatrix s
        ok (out ++ [m])) (fun i => (List.range i).map (fun i => matOf (pieceOf a i))) ?_
    intro i hi
    have h8 : 8 ≤ (pieceOf a i).length := by
      rw [(pieceOf_length a i h4 hi).2]
      have := h.2.2
      omega
    rw [hslice i hi, ok_bind, read32 _ h8, ok_bind, List.range_succ, List.map_append]
    rfl

theorem bits_agree {lo hi : Int} {m : Nat} {sts : List (State 32)} {a : List Byte} {n n' : Nat} {bs bs' : List Nat}
    (h : Bits lo hi m sts a n bs) (h' : Bits lo hi m sts a n' bs') {i : Nat} (hi' : i < sts.length) (hn : i < n) (hn' : i < n') :
    bs[i]? = bs'[i]? := by
  have l1 : i < bs.length := by rw [h.1]; exact hn
  have l2 : i < bs'.length := by rw [h'.1]; exact hn'
  have h1 := h.2 i sts[i] bs[i] (by simp [hi']) (by simp [l1])
  have h2 := h'.2 i sts[i] bs'[i] (by simp [hi']) (by simp [l2])
  have := table_unique h1 h2
  simp only [Outcome.bit.injEq] at this
  rw [List.getElem?_eq_getElem l1, List.getElem?_eq_getElem l2, this]

theorem bits_not {lo hi : Int} {m : Nat} {sts : List (State 32)} {a : List Byte} {n : Nat} {bs : List Nat}
    (h : Bits lo hi m sts a n bs) {i : Nat} (hn : i < n) {st : State 32} (hs : sts[i]? = some st) {o : Outcome}
    (ht : Table format32 lo hi m st (pieceOf a i) o) (ho : ∀ b, o ≠ .bit b) : False := by
  have l1 : i < bs.length := by rw [h.1]; exact hn
  have h1 := h.2 i st bs[i] hs (by simp [l1])
  exact ho _ (table_unique ht h1)

theorem bits_eq {lo hi : Int} {m : Nat} {sts : List (State 32)} {a : List Byte} {bs bs' : List Nat}
    (h : Bits lo hi m sts a sts.length bs) (h' : Bits lo hi m sts a sts.length bs') : bs = bs' := by
  refine List.ext_getElem? fun i => ?_
  by_cases hi : i < sts.length
  · exact bits_agree h h' hi hi hi
  · rw [List.getElem?_eq_none (by rw [h.1]; omega), List.getElem?_eq_none (by rw [h'.1]; omega)]

theorem lt_of_getElem? {α : Type} {l : List α} {i : Nat} {x : α} (h : l[i]? = some x) : i < l.length := by
  by_contra hc
  rw [List.getElem?_eq_none (by omega)] at h
  cases h

/-- The table of the amplified client has one outcome for an answer. -/
theorem manyTable_unique {lo hi : Int} {m : Nat} {sts : List (State 32)} {a : List Byte} {o o' : Outcome}
    (h : ManyTable lo hi m sts a o) (h' : ManyTable lo hi m sts a o') : o = o' := by
  cases h with
  | malformed hs =>
    cases h' with
    | malformed => rfl
    | stops => contradiction
    | missing => rfl
    | majority => contradiction
    | split => contradiction
  | stops i bs st _ hs hi hb hst ht ho =>
    cases h' with
    | malformed hs' => contradiction
    | stops i' bs' st' _ _ hi' hb' hst' ht' ho' =>
      rcases Nat.lt_trichotomy i i' with h | h | h
      · exact absurd (bits_not hb' h hst ht ho) id
      · subst h
        rw [hst] at hst'
        cases hst'
        exact table_unique ht ht'
      · exact absurd (bits_not hb h hst' ht' ho') id
    | missing bs' _ hl hb' => exact absurd (bits_not hb' hi hst ht ho) id
    | majority b bs' _ hl hb' _ => exact absurd (bits_not hb' (lt_of_getElem? hst) hst ht ho) id
    | split b bs' _ hl hb' _ => exact absurd (bits_not hb' (lt_of_getElem? hst) hst ht ho) id
  | missing bs hs hl hb =>
    cases h' with
    | malformed => rfl
    | stops i' bs' st' _ _ hi' hb' hst' ht' ho' => exact absurd (bits_not hb hi' hst' ht' ho') id
    | missing => rfl
    | majority b bs' _ hl' => omega
    | split b bs' _ hl' => omega
  | majority b bs hs hl hb hc =>
    cases h' with
    | malformed => contradiction
    | stops i' bs' st' _ _ hi' hb' hst' ht' ho' => exact absurd (bits_not hb (lt_of_getElem? hst') hst' ht' ho') id
    | missing bs' _ hl' => omega
    | majority b' bs' _ _ hb' _ =>
      have := bits_eq hb hb'
      cases this
      rfl
    | split b' bs' _ _ hb' hc' =>
      have := bits_eq hb hb'
      cases this
      contradiction
  | split b bs hs hl hb hc =>
    cases h' with
    | malformed => contradiction
    | stops i' bs' st' _ _ hi' hb' hst' ht' ho' => exact absurd (bits_not hb (lt_of_getElem? hst') hst' ht' ho') id
    | missing bs' _ hl' => omega
    | majority b' bs' _ _ hb' hc' =>
      have := bits_eq hb hb'
      cases this
      contradiction
    | split => rfl

/-- The bits read by the loop of the amplified client. -/
def readBits (t : List U32) (i : Nat) : List Nat := (t.take i).map BitVec.toNat

theorem manyTable (p : Params) (hb : 0 < p.b.toNat) (sts : List (State 32)) (hne : sts ≠ []) (hst : ∀ st ∈ sts, Prepared p st)
    (a : List Byte) (hl : a.length < 2 ^ 32) :
    ManyTable ((p.b.toNat : Int) - 1) ((p.b.toNat : Int) - 1) p.m sts a (outcome (amplifyReconstructBytes p sts a)) := by
  obtain ⟨s1, s2⟩ := split_pieces a hl
  by_cases hs : Splits a
  swap
  · have hc := s1 hs
    unfold amplifyReconstructBytes
    cases hx : bytesToMatrices a with
    | ok m => rw [hx] at hc; exact absurd hc (by simp [isCrash])
    | err e => rw [hx] at hc; exact absurd hc (by simp [isCrash])
    | crash m =>
      rw [crash_bind]
      exact ManyTable.malformed hs
  set lo : Int := (p.b.toNat : Int) - 1 with hlo
  set ms := (List.range (pieces a)).map (fun i => matOf (pieceOf a i)) with hms
  have hmsl : ms.length = pieces a := by simp [hms]
  have hrun : amplifyReconstructBytes p sts a = (forLoop sts.length (fun i outputs => do
      let a ← idx ms i
      let st ← idx sts i
      let b ← repetition p st a
      setAt outputs i b) (List.replicate sts.length 0) >>= fun outputs => Ecc.decode outputs) := by
    unfold amplifyReconstructBytes
    rw [s2 hs, ok_bind]
    rfl
  rw [hrun]
  -- one repetition
  have hrep : ∀ i (hi : i < sts.length), i < pieces a →
      Table format32 lo lo p.m sts[i] (pieceOf a i) (outcome (repetition p sts[i] (matOf (pieceOf a i)))) := by
    intro i hi hip
    have h8 : 8 ≤ (pieceOf a i).length := by
      rw [(pieceOf_length a i hs.1 hip).2]
      have := hs.2.2
      omega
    have ht := table32 p hb sts[i] (hst _ (List.getElem_mem hi)) (pieceOf a i)
    have e : reconstructBytes lwe32 p sts[i] (pieceOf a i) = reconstruct lwe32 p sts[i] (matOf (pieceOf a i)) := by
      unfold reconstructBytes
      show (bytesToMatrix (pieceOf a i) >>= _) = _
      rw [read32 _ h8, ok_bind]
      rfl
    rw [e] at ht
    have e2 : outcome (repetition p sts[i] (matOf (pieceOf a i))) = outcome (reconstruct lwe32 p sts[i] (matOf (pieceOf a i))) := by
      unfold repetition
      cases reconstruct lwe32 p sts[i] (matOf (pieceOf a i)) <;> rfl
    rw [e2]
    exact ht
  have hbody : ∀ i (hi : i < sts.length), i < pieces a → ∀ t : List U32, (do
      let a ← idx ms i
      let st ← idx sts i
      let b ← repetition p st a
      setAt t i b) = (repetition p sts[i] (matOf (pieceOf a i)) >>= fun b => setAt t i b) := by
    intro i hi hip t
    rw [idx_of_lt (by omega), ok_bind, idx_of_lt hi, ok_bind]
    simp [hms]
  -- reading a bit
  have hstep : ∀ i (hi : i < sts.length) (t : List U32) (b : U32), t.length = sts.length →
      Bits lo lo p.m sts a i (readBits t i) → i < pieces a →
      repetition p sts[i] (matOf (pieceOf a i)) = ok b → Bits lo lo p.m sts a (i + 1) (readBits (t.set i b) (i + 1)) := by
    intro i hi t b htl hbits hip hr
    have hrb : readBits (t.set i b) (i + 1) = readBits t i ++ [b.toNat] := by
      unfold readBits
      rw [List.take_add_one, List.take_set_of_le (le_refl i), List.getElem?_set_self (by omega), List.map_append]
      rfl
    have hlen : (readBits t i).length = i := hbits.1
    refine ⟨by rw [hrb]; simp [hlen], ?_⟩
    intro k st c hk hc
    rw [hrb] at hc
    rcases Nat.lt_trichotomy k i with h | h | h
    · rw [List.getElem?_append_left (by omega)] at hc
      exact hbits.2 k st c hk hc
    · subst h
      rw [List.getElem?_append_right (by omega), hlen, Nat.sub_self] at hc
      simp only [List.getElem?_cons_zero, Option.some.injEq] at hc
      have ht := hrep k hi hip
      rw [hr] at ht
      rw [List.getElem?_eq_getElem hi] at hk
      simp only [Option.some.injEq] at hk
      rw [← hk, ← hc]
      exact ht
    · rw [List.getElem?_eq_none (by simp; omega)] at hc
      cases hc
  -- the first repetition that is no bit
  by_cases hall : ∀ i, i < sts.length → i < pieces a ∧ ∃ b, (do
      let st ← idx sts i
      repetition p st (matOf (pieceOf a i))) = ok b
  · obtain ⟨t, ht, htl, hbits⟩ := forLoop_inv (n := sts.length) (s := List.replicate sts.length (0 : U32))
      (body := fun i outputs => do
        let a ← idx ms i
        let st ← idx sts i
        let b ← repetition p st a
        setAt outputs i b)
      (fun i t => t.length = sts.length ∧ Bits lo lo p.m sts a i (readBits t i))
      ⟨by simp, by simp [readBits, Bits]⟩ (by
        rintro i t hi ⟨htl, hbits⟩
        obtain ⟨hip, b, hbk⟩ := hall i hi
        rw [idx_of_lt hi, ok_bind] at hbk
        refine ⟨t.set i b, ?_, by simpa using htl, hstep i hi t b htl hbits hip hbk⟩
        rw [hbody i hi hip t, hbk, ok_bind, setAt_of_lt (by omega)])
    rw [ht, ok_bind]
    have hpos : 0 < sts.length := List.length_pos_iff.mpr hne
    have hle : sts.length ≤ pieces a := by
      have := (hall (sts.length - 1) (by omega)).1
      omega
    obtain ⟨x, l, rfl⟩ : ∃ x l, t = x :: l := by
      cases t with
      | nil => simp at htl; omega
      | cons x l => exact ⟨x, l, rfl⟩
    have hrb : readBits (x :: l) sts.length = x.toNat :: l.map BitVec.toNat := by
      unfold readBits
      rw [List.take_of_length_le (by omega)]
      rfl
    rw [hrb] at hbits
    have hcount : (x.toNat :: l.map BitVec.toNat).count x.toNat = (x :: l).count x := by
      rw [show x.toNat :: l.map BitVec.toNat = (x :: l).map BitVec.toNat from rfl]
      exact List.count_map_of_injective _ _ (fun u v h => BitVec.eq_of_toNat_eq h) x
    rw [Ecc.decode_eq]
    by_cases hmaj : (x :: l).count x > (x :: l).length / 2
    · rw [if_pos hmaj]
      exact ManyTable.majority x.toNat _ hs hle hbits (by rw [hcount]; omega)
    · rw [if_neg hmaj]
      exact ManyTable.split x.toNat _ hs hle hbits (by rw [hcount]; omega)
  · have hex : ∃ i, i < sts.length ∧ ¬ (i < pieces a ∧ ∃ b, (do
      let st ← idx sts i
      repetition p st (matOf (pieceOf a i))) = ok b) := by
      by_contra hc
      exact hall fun i hi => by
        by_contra hn
        exact hc ⟨i, hi, hn⟩
    classical
    have hm := Nat.find_spec hex
    have hmin := fun k (hk : k < Nat.find hex) => Nat.find_min hex hk
    generalize Nat.find hex = m at hm hmin
    obtain ⟨t, ⟨htl, hbits⟩, he, hc⟩ := loop_first (n := sts.length) (m := m) (s := List.replicate sts.length (0 : U32))
      (body := fun i outputs => do
        let a ← idx ms i
        let st ← idx sts i
        let b ← repetition p st a
        setAt outputs i b) hm.1
      (fun i t => t.length = sts.length ∧ Bits lo lo p.m sts a i (readBits t i))
      ⟨by simp, by simp [readBits, Bits]⟩ (by
        rintro i t hi ⟨htl, hbits⟩
        have hgood : i < pieces a ∧ ∃ b, (do
            let st ← idx sts i
            repetition p st (matOf (pieceOf a i))) = ok b := by
          by_contra hn
          exact hmin i hi ⟨by omega, hn⟩
        obtain ⟨hip, b, hbk⟩ := hgood
        rw [idx_of_lt (by omega), ok_bind] at hbk
        refine ⟨t.set i b, ?_, by simpa using htl, hstep i (by omega) t b htl hbits hip hbk⟩
        rw [hbody i (by omega) hip t, hbk, ok_bind, setAt_of_lt (by omega)])
    by_cases hmp : m < pieces a
    · have hnb : ∀ b, repetition p sts[m] (matOf (pieceOf a m)) ≠ ok b := by
        intro b hb'
        exact hm.2 ⟨hmp, b, by rw [idx_of_lt hm.1, ok_bind, hb']⟩
      have ht := hrep m hm.1 hmp
      have hq := hbody m hm.1 hmp t
      cases hx : repetition p sts[m] (matOf (pieceOf a m)) with
      | ok b => exact absurd hx (hnb b)
      | err e =>
        rw [hx, err_bind] at hq
        rw [he e hq, err_bind]
        rw [hx] at ht
        exact ManyTable.stops m _ sts[m] _ hs hmp hbits (by simp [hm.1]) ht (by intro b h; cases h)
      | crash e =>
        rw [hx, crash_bind] at hq
        rw [hc e hq, crash_bind]
        rw [hx] at ht
        exact ManyTable.stops m _ sts[m] _ hs hmp hbits (by simp [hm.1]) ht (by intro b h; cases h)
    · have hpm : pieces a = m := by
        rcases Nat.lt_or_ge (pieces a) m with h | h
        · have hgood : pieces a < pieces a := by
            by_contra hn
            exact hmin (pieces a) h ⟨by omega, fun h' => hn h'.1⟩
          omega
        · omega
      have := hc "index out of range" (by
        unfold idx
        rw [List.getElem?_eq_none (by omega), crash_bind])
      rw [this, crash_bind]
      exact ManyTable.missing (readBits t m) hs (by omega) (by rw [hpm]; exact hbits)

/-- C145 for the amplified LWE client: the table gives exactly what it does with any answer of less than 4 GiB (the largest message
has one). -/
theorem C145_amplified (p : Params) (hb : 0 < p.b.toNat) (sts : List (State 32)) (hne : sts ≠ [])
    (hst : ∀ st ∈ sts, Prepared p st) (a : List Byte) (hl : a.length < 2 ^ 32) (o : Outcome) :
    outcome (amplifyReconstructBytes p sts a) = o ↔
      ManyTable ((p.b.toNat : Int) - 1) ((p.b.toNat : Int) - 1) p.m sts a o :=
  ⟨fun h => h ▸ manyTable p hb sts hne hst a hl, fun h => manyTable_unique (manyTable p hb sts hne hst a hl) h⟩

-- Two repetitions, both of the bit 1; a one and a zero; only one; pieces of 0 and of 7 bytes.
example : [waiting 32, waiting 32] ≠ [] ∧ ∀ st ∈ [waiting 32, waiting 32], Prepared waitingParams st :=
  ⟨by simp, by simpa using waiting_prepared 32⟩
example : amplifyReconstructBytes waitingParams [waiting 32, waiting 32] [0, 0, 0, 16,
    0, 0, 0, 1, 0, 0, 0, 2, 0, 0, 0, 12, 0, 0, 0, 122, 0, 0, 0, 1, 0, 0, 0, 2, 0, 0, 0, 9, 0, 0, 0, 119] = ok 1 := by
  decide +kernel
example : ManyTable 2 2 2 [waiting 32, waiting 32] [0, 0, 0, 16,
    0, 0, 0, 1, 0, 0, 0, 2, 0, 0, 0, 12, 0, 0, 0, 122, 0, 0, 0, 1, 0, 0, 0, 2, 0, 0, 0, 9, 0, 0, 0, 19] .reject :=
  (C145_amplified waitingParams (by decide) [waiting 32, waiting 32] (by simp) (by simpa using waiting_prepared 32) _
    (by decide) _).mp (by decide +kernel)
example : (amplifyReconstructBytes waitingParams [waiting 32, waiting 32] [0, 0, 0, 16,
    0, 0, 0, 1, 0, 0, 0, 2, 0, 0, 0, 12, 0, 0, 0, 122]).isCrash := by decide +kernel
example : (amplifyReconstructBytes waitingParams [waiting 32] [0, 0, 0, 0, 1]).isCrash := by decide +kernel
example : (amplifyReconstructBytes waitingParams [waiting 32] [0, 0, 0, 7, 0, 0, 0, 1, 0, 0, 0]).isCrash := by decide +kernel

end Verif.Lwe

namespace Verif.Dh
open Res Verif.Dh.Spec Verif.Lwe.Spec Verif.Parallel

variable {G : Type}

theorem pieces_covered {n : Nat} (hn : 0 < n) (q : List Byte) (k : Nat) (hk : k * n < q.length) :
    k < (q.length + n - 1) / n := by
  have : (k + 1) * n ≤ q.length + n - 1 := by rw [Nat.succ_mul]; omega
  exact (Nat.le_div_iff_mul_le hn).mpr this

/-- What decoding a message gives if one of its pieces cannot be read. -/
theorem unmarshal_unreadable (g : Grp G) (n : Nat) (hn : 0 < n) (q : List Byte) (k : Nat) (o : Outcome)
    (h : Unreadable g n q k o) :
    (o = .reject ∧ ∃ e, unmarshalGroupElements g q n = err e) ∨ (o = .panic ∧ ∃ e, unmarshalGroupElements g q n = crash e) := by
  obtain ⟨hpre, hk, hcase⟩ := h
  obtain ⟨v, -, -, hloop⟩ := read_prefix g n q k (by omega) hpre
  have hs := loop_stops (body := fun i decoded => do
      let b ← slice q (i * n) (i * n + n)
      let elem ← g.dec b
      ok (decoded ++ [elem])) (pieces_covered hn q k hk) hloop
  unfold unmarshalGroupElements
  rw [if_neg (by omega)]
  rcases hcase with ⟨hl, rfl⟩ | ⟨hl, ⟨e, he⟩, rfl⟩ | ⟨hl, ⟨e, he⟩, rfl⟩
  · rw [Nat.succ_mul] at hl
    exact Or.inr ⟨rfl, _, hs.2 "slice bounds out of range" (by
      unfold slice
      rw [if_neg (by omega), crash_bind])⟩
  · rw [Nat.succ_mul] at hl
    exact Or.inl ⟨rfl, _, hs.1 e (by
      rw [slice_of_le (by omega) hl, ok_bind, show k * n + n - k * n = n by omega]
      unfold piece at he
      rw [he, err_bind])⟩
  · rw [Nat.succ_mul] at hl
    exact Or.inr ⟨rfl, _, hs.2 e (by
      rw [slice_of_le (by omega) hl, ok_bind, show k * n + n - k * n = n by omega]
      unfold piece at he
      rw [he, crash_bind])⟩

/-- A message lists elements or has a piece that cannot be read. -/
theorem lists_or_unreadable (g : Grp G) (n : Nat) (hn : 0 < n) (q : List Byte) :
    (∃ v, Lists g n q v) ∨ ∃ k o, Unreadable g n q k o := by
  classical
  by_cases hex : ∃ k, k * n < q.length ∧ ¬ ((k + 1) * n ≤ q.length ∧ ∃ x, g.dec (piece n q k) = ok x)
  · right
    have hm := Nat.find_spec hex
    have hmin := fun k (hk : k < Nat.find hex) => Nat.find_min hex hk
    generalize Nat.find hex = m at hm hmin
    have hpre : ∀ i, i < m → ∃ x, g.dec (piece n q i) = ok x := by
      intro i hi
      by_contra hc
      have : i * n < m * n := Nat.mul_lt_mul_of_pos_right hi hn
      exact hmin i hi ⟨by omega, fun h => hc h.2⟩
    by_cases hl : (m + 1) * n ≤ q.length
    · cases hx : g.dec (piece n q m) with
      | ok x => exact absurd ⟨hl, x, hx⟩ hm.2
      | err e => exact ⟨m, .reject, hpre, hm.1, Or.inr (Or.inl ⟨hl, ⟨e, hx⟩, rfl⟩)⟩
      | crash e => exact ⟨m, .panic, hpre, hm.1, Or.inr (Or.inr ⟨hl, ⟨e, hx⟩, rfl⟩)⟩
    · exact ⟨m, .panic, hpre, hm.1, Or.inl ⟨by omega, rfl⟩⟩
  · left
    have hall : ∀ k, k * n < q.length → (k + 1) * n ≤ q.length ∧ ∃ x, g.dec (piece n q k) = ok x := by
      intro k hk
      by_contra hc
      exact hex ⟨k, hk, hc⟩
    have hle : q.length / n * n ≤ q.length := Nat.div_mul_le_self _ _
    have heq : q.length = q.length / n * n := by
      by_contra hc
      have h1 := (hall (q.length / n) (by omega)).1
      have h2 := (Nat.le_div_iff_mul_le hn).mpr h1
      omega
    obtain ⟨v, hv, hd, -⟩ := read_prefix g n q (q.length / n) hle (fun i hi => by
      have : i * n < q.length / n * n := Nat.mul_lt_mul_of_pos_right hi hn
      exact (hall i (by omega)).2)
    exact ⟨v, by rw [hv]; exact heq, hd⟩

theorem lists_unique {g : Grp G} {n : Nat} (hn : 0 < n) {q : List Byte} {v v' : List G} (h : Lists g n q v)
    (h' : Lists g n q v') : v = v' := by
  have h1 := unmarshal_lists g n hn q v h
  rw [unmarshal_lists g n hn q v' h'] at h1
  exact (Res.ok.inj h1).symm

theorem not_both {g : Grp G} {n : Nat} (hn : 0 < n) {q : List Byte} {v : List G} {k : Nat} {o : Outcome} (h : Lists g n q v)
    (h' : Unreadable g n q k o) : False := by
  have h1 := unmarshal_lists g n hn q v h
  rcases unmarshal_unreadable g n hn q k o h' with ⟨-, e, he⟩ | ⟨-, e, he⟩ <;> rw [h1] at he <;> cases he

variable [AddCommGroup G] [DecidableEq G]

omit [DecidableEq G] in
/-- The table has one outcome for an answer. -/
theorem groupTable_unique {g : Grp G} {n : Nat} (hn : 0 < n) {ds : List G} {st : State G} {a : List Byte} {o o' : Outcome}
    (h : GroupTable g n ds st a o) (h' : GroupTable g n ds st a o') : o = o' := by
  cases h with
  | unreadable k _ hu =>
    cases h' with
    | unreadable k' _ hu' =>
      rcases unmarshal_unreadable g n hn a k o hu with ⟨ho, e, he⟩ | ⟨ho, e, he⟩ <;>
        rcases unmarshal_unreadable g n hn a k' o' hu' with ⟨ho', e', he'⟩ | ⟨ho', e', he'⟩ <;>
        rw [he] at he' <;> first | (cases he'; done) | (rw [ho, ho'])
    | unclear v i hl => exact absurd (not_both hn hl hu) id
    | missing v hl => exact absurd (not_both hn hl hu) id
    | zero v hl => exact absurd (not_both hn hl hu) id
    | one v i hl => exact absurd (not_both hn hl hu) id
  | unclear v i hl h1 h2 h3 =>
    cases h' with
    | unreadable k' _ hu' => exact absurd (not_both hn hl hu') id
    | unclear => rfl
    | missing v' hl' _ hall => cases lists_unique hn hl hl'; exact absurd (hall i h2) h3
    | zero v' hl' _ hall => cases lists_unique hn hl hl'; exact absurd (hall i h1) h3
    | one v' i' hl' _ hall => cases lists_unique hn hl hl'; exact absurd (hall i h1) h3
  | missing v hl h1 h2 =>
    cases h' with
    | unreadable k' _ hu' => exact absurd (not_both hn hl hu') id
    | unclear v' i hl' _ hi hc => cases lists_unique hn hl hl'; exact absurd (h2 i hi) hc
    | missing => rfl
    | zero v' hl' h3 => cases lists_unique hn hl hl'; omega
    | one v' i' hl' h3 => cases lists_unique hn hl hl'; omega
  | zero v hl h1 h2 h3 =>
    cases h' with
    | unreadable k' _ hu' => exact absurd (not_both hn hl hu') id
    | unclear v' i hl' hi _ hc => cases lists_unique hn hl hl'; exact absurd (h2 i hi) hc
    | missing v' hl' h => cases lists_unique hn hl hl'; omega
    | zero => rfl
    | one v' i' hl' _ _ hi hj hne => cases lists_unique hn hl hl'; exact absurd (h3 i' hi hj) hne
  | one v j hl h1 h2 h3 h4 h5 =>
    cases h' with
    | unreadable k' _ hu' => exact absurd (not_both hn hl hu') id
    | unclear v' i hl' hi _ hc => cases lists_unique hn hl hl'; exact absurd (h2 i hi) hc
    | missing v' hl' h => cases lists_unique hn hl hl'; omega
    | zero v' hl' _ _ hz => cases lists_unique hn hl hl'; exact absurd (hz j h3 h4) h5
    | one => rfl

/-- The answer has an outcome in the table, which is that of the client. -/
theorem groupTable (g : Grp G) (info : Info) (hn : 0 < info.elementSize) (ds : List G) (hd : Lists g info.elementSize info.subDigests ds)
    (hR : ds.length = info.numRows) (st : State G) (a : List Byte) :
    GroupTable g info.elementSize ds st a (outcomeOf (reconstructBytes g info st a)) := by
  rcases lists_or_unreadable g info.elementSize hn a with ⟨v, hv⟩ | ⟨k, o, hu⟩
  swap
  · rcases unmarshal_unreadable g info.elementSize hn a k o hu with ⟨ho, e, he⟩ | ⟨ho, e, he⟩
    · have : outcomeOf (reconstructBytes g info st a) = o := by
        unfold reconstructBytes
        rw [he, err_bind, ho]
        rfl
      rw [this]
      exact GroupTable.unreadable k o hu
    · have : outcomeOf (reconstructBytes g info st a) = o := by
        unfold reconstructBytes
        rw [he, crash_bind, ho]
        rfl
      rw [this]
      exact GroupTable.unreadable k o hu
  have hrun : reconstructBytes g info st a = forLoop info.numRows (fun i res => do
      let b ← slice info.subDigests (i * info.elementSize) ((i + 1) * info.elementSize)
      let d ← g.dec b
      let ai ← idx v i
      let m := (-st.r) • d + ai
      if m ≠ 0 ∧ m ≠ st.ht then err "reject" else
      if (i : Int) = st.ix then
        ok (if m = 0 then 0 else 1)
      else ok res) 0 := by
    unfold reconstructBytes
    rw [unmarshal_lists g info.elementSize hn a v hv, ok_bind]
  generalize hes : info.elementSize = n at *
  have hhead : ∀ i (hi : i < ds.length) (res : Byte), (do
      let b ← slice info.subDigests (i * n) ((i + 1) * n)
      let d ← g.dec b
      let ai ← idx v i
      let m := (-st.r) • d + ai
      if m ≠ 0 ∧ m ≠ st.ht then err "reject" else
      if (i : Int) = st.ix then
        ok (if m = 0 then 0 else 1)
      else ok res) = (do
      let ai ← idx v i
      let m := (-st.r) • ds.getD i 0 + ai
      if m ≠ 0 ∧ m ≠ st.ht then err "reject" else
      if (i : Int) = st.ix then
        ok (if m = 0 then 0 else 1)
      else ok res) := by
    intro i hi res
    have hle : (i + 1) * n ≤ info.subDigests.length := by
      rw [hd.1]
      exact Nat.mul_le_mul_right _ hi
    have hdec := hd.2 i ds[i] (by simp [hi])
    rw [slice_of_le (by rw [Nat.succ_mul]; omega) hle, ok_bind, show (i + 1) * n - i * n = n by rw [Nat.succ_mul]; omega]
    unfold piece at hdec
    rw [hdec, ok_bind]
    simp [hi]
  have hval : ∀ i, (-st.r) • ds.getD i 0 + v.getD i 0 = remainder st.r ds v i := by
    intro i
    unfold remainder
    rw [neg_smul]
    abel
  have hdec : ∀ i, Decidable (RowClear st ds v i) := fun i => by unfold RowClear; infer_instance
  have hrow : ∀ i, i < ds.length → i < v.length → ∀ res : Byte, (do
      let ai ← idx v i
      let m := (-st.r) • ds.getD i 0 + ai
      if m ≠ 0 ∧ m ≠ st.ht then err "reject" else
      if (i : Int) = st.ix then
        ok (if m = 0 then 0 else 1)
      else ok res) = (if ¬ RowClear st ds v i then err "reject" else
        ok (if (i : Int) = st.ix then (if remainder st.r ds v i = 0 then 0 else 1) else res)) := by
    intro i hi hiv res
    rw [idx_getD 0 hiv, ok_bind]
    dsimp only
    rw [hval i]
    by_cases h1 : remainder st.r ds v i = 0
    · rw [if_neg (fun h => h.1 h1), if_neg (not_not.mpr (show RowClear st ds v i from Or.inl h1))]
      split <;> rfl
    · by_cases h2 : remainder st.r ds v i = st.ht
      · rw [if_neg (fun h => h.2 h2), if_neg (not_not.mpr (show RowClear st ds v i from Or.inr h2))]
        split <;> rfl
      · rw [if_pos ⟨h1, h2⟩, if_pos (show ¬ RowClear st ds v i from fun h => h.elim h1 h2)]
  -- what is known after the first rows
  let Inv : Nat → Byte → Prop := fun i res =>
    (∀ k : Nat, (k : Int) = st.ix → k < i → res = if remainder st.r ds v k = 0 then 0 else 1) ∧
    ((∀ k : Nat, (k : Int) = st.ix → ¬ k < i) → res = 0)
  have hInv0 : Inv 0 0 := ⟨fun k _ hk => absurd hk (by omega), fun _ => rfl⟩
  have hInvS : ∀ i res, Inv i res → Inv (i + 1) (if (i : Int) = st.ix then (if remainder st.r ds v i = 0 then 0 else 1) else res) := by
    rintro i res ⟨h1, h2⟩
    by_cases hi : (i : Int) = st.ix
    · rw [if_pos hi]
      refine ⟨fun k hk _ => ?_, fun h => absurd (Nat.lt_succ_self i) (h i hi)⟩
      have : k = i := by omega
      rw [this]
    · rw [if_neg hi]
      refine ⟨fun k hk hlt => h1 k hk ?_, fun h => h2 fun k hk hlt => h k hk (by omega)⟩
      rcases Nat.lt_or_ge k i with h | h
      · exact h
      · have : k = i := by omega
        rw [this] at hk
        exact absurd hk hi
  rw [hrun]
  by_cases hall : ∀ i, i < ds.length → i < v.length ∧ RowClear st ds v i
  · have hle : ds.length ≤ v.length := by
      rcases Nat.eq_zero_or_pos ds.length with h | h
      · omega
      · have := (hall (ds.length - 1) (by omega)).1
        omega
    obtain ⟨res, hres, hI1, hI2⟩ := forLoop_inv (n := info.numRows) (s := (0 : Byte)) (body := fun i res => do
      let b ← slice info.subDigests (i * n) ((i + 1) * n)
      let d ← g.dec b
      let ai ← idx v i
      let m := (-st.r) • d + ai
      if m ≠ 0 ∧ m ≠ st.ht then err "reject" else
      if (i : Int) = st.ix then
        ok (if m = 0 then 0 else 1)
      else ok res) Inv hInv0 (by
        intro i res hi hI
        obtain ⟨hiv, hcl⟩ := hall i (by omega)
        refine ⟨_, ?_, hInvS i res hI⟩
        rw [hhead i (by omega), hrow i (by omega) hiv, if_neg (not_not.mpr hcl)])
    rw [hres]
    by_cases hone : ∃ k : Nat, (k : Int) = st.ix ∧ k < ds.length ∧ remainder st.r ds v k ≠ 0
    · obtain ⟨k, hk, hkl, hne⟩ := hone
      rw [hI1 k hk (by omega), if_neg hne]
      exact GroupTable.one v k hv hle (fun i hi => (hall i hi).2) hk hkl hne
    · have hz : ∀ k : Nat, (k : Int) = st.ix → k < ds.length → remainder st.r ds v k = 0 := by
        intro k hk hkl
        by_contra hc
        exact hone ⟨k, hk, hkl, hc⟩
      have : res = 0 := by
        by_cases hk : ∃ k : Nat, (k : Int) = st.ix ∧ k < info.numRows
        · obtain ⟨k, hk, hkl⟩ := hk
          rw [hI1 k hk hkl, if_pos (hz k hk (by omega))]
        · exact hI2 fun k h1 h2 => hk ⟨k, h1, h2⟩
      rw [this]
      exact GroupTable.zero v hv hle (fun i hi => (hall i hi).2) hz
  · have hex : ∃ i, i < ds.length ∧ ¬ (i < v.length ∧ RowClear st ds v i) := by
      by_contra hc
      exact hall fun i hi => by
        by_contra hn
        exact hc ⟨i, hi, hn⟩
    classical
    have hm := Nat.find_spec hex
    have hmin := fun k (hk : k < Nat.find hex) => Nat.find_min hex hk
    generalize Nat.find hex = m at hm hmin
    have hgood : ∀ i, i < m → i < v.length ∧ RowClear st ds v i := by
      intro i hi
      by_contra hc
      exact hmin i hi ⟨by omega, hc⟩
    obtain ⟨res, hI, he, hc⟩ := Lwe.loop_first (n := info.numRows) (m := m) (s := (0 : Byte)) (body := fun i res => do
      let b ← slice info.subDigests (i * n) ((i + 1) * n)
      let d ← g.dec b
      let ai ← idx v i
      let m := (-st.r) • d + ai
      if m ≠ 0 ∧ m ≠ st.ht then err "reject" else
      if (i : Int) = st.ix then
        ok (if m = 0 then 0 else 1)
      else ok res) (by omega) Inv hInv0 (by
        intro i res hi hI
        obtain ⟨hiv, hcl⟩ := hgood i hi
        refine ⟨_, ?_, hInvS i res hI⟩
        rw [hhead i (by omega), hrow i (by omega) hiv, if_neg (not_not.mpr hcl)])
    by_cases hmv : m < v.length
    · have hnc : ¬ RowClear st ds v m := fun h => hm.2 ⟨hmv, h⟩
      rw [he "reject" (by rw [hhead m hm.1, hrow m hm.1 hmv, if_pos hnc])]
      exact GroupTable.unclear v m hv hm.1 hmv hnc
    · rw [hc "index out of range" (by
        rw [hhead m hm.1]
        unfold idx
        rw [List.getElem?_eq_none (by omega), crash_bind])]
      have hvm : v.length = m := by
        rcases Nat.lt_or_ge v.length m with h | h
        · have := (hgood v.length h).1
          omega
        · omega
      exact GroupTable.missing v hv (by omega) (fun i hi => (hgood i (by omega)).2)

/-- C145 for the scheme over a group: with digests that decode, one for each row, the table gives exactly what the client does with any
answer. -/
theorem C145_group (g : Grp G) (info : Info) (hn : 0 < info.elementSize) (ds : List G)
    (hd : Lists g info.elementSize info.subDigests ds) (hR : ds.length = info.numRows) (st : State G) (a : List Byte) (o : Outcome) :
    outcomeOf (reconstructBytes g info st a) = o ↔ GroupTable g info.elementSize ds st a o :=
  ⟨fun h => h ▸ groupTable g info hn ds hd hR st a, fun h => groupTable_unique hn (groupTable g info hn ds hd hR st a) h⟩

-- A client of the group of order 5 that waits for row 1 with the scalar 1; the digests are 2 and 1 and the blinding element 3. A one,
-- a zero, an unclear row (even if a row is missing after it), a missing row, an element the library refuses, half an element.
example : Lists fixedGroup 2 twoRows.info.subDigests [2, 1] ∧ [2, 1].length = twoRows.info.numRows ∧ 0 < twoRows.info.elementSize := by
  refine ⟨⟨rfl, fun i x h => ?_⟩, rfl, by decide⟩
  match i, h with
  | 0, h => cases h; decide
  | 1, h => cases h; decide
example : reconstructBytes fixedGroup twoRows.info ⟨1, 0, 1, (3 : ZMod 5)⟩ [2, 2, 2, 4] = ok 1 := by decide
example : reconstructBytes fixedGroup twoRows.info ⟨1, 0, 1, (3 : ZMod 5)⟩ [2, 0, 2, 1] = ok 0 := by decide
example : reconstructBytes fixedGroup twoRows.info ⟨1, 0, 1, (3 : ZMod 5)⟩ [2, 1] = err "reject" := by decide
example : reconstructBytes fixedGroup twoRows.info ⟨1, 0, 1, (3 : ZMod 5)⟩ [2, 2] = crash "index out of range" := by decide
example : reconstructBytes fixedGroup twoRows.info ⟨1, 0, 1, (3 : ZMod 5)⟩ [2, 1, 9, 9] = err "invalid" := by decide
example : reconstructBytes fixedGroup twoRows.info ⟨1, 0, 1, (3 : ZMod 5)⟩ [2, 1, 2] = crash "slice bounds out of range" := by decide

end Verif.Dh
