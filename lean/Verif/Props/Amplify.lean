import Verif.Props.Lwe
import Verif.Props.Ecc

/-! # C33: amplified LWE retrieval -/

namespace Verif.Lwe
open Res Verif.Matrix Verif.Utils

/-- The repetition with client state `st` and answer `a`, taken alone, accepts a bit other than `v`. -/
def acceptsOther (p : Params) (v : U32) (x : State 32 × Mat 32) : Bool :=
  match reconstruct lwe32 p x.1 x.2 with
  | ok b => decide (b ≠ v)
  | _ => false

/-- Number of repetitions that, taken alone, accept a bit other than `v`. -/
def wrongRepetitions (p : Params) (sts : List (State 32)) (answers : List (Mat 32)) (v : U32) : Nat :=
  (sts.zip answers).countP (acceptsOther p v)

theorem repetition_ok {p : Params} {st : State 32} {a : Mat 32} {b : U32} :
    repetition p st a = ok b ↔ reconstruct lwe32 p st a = ok b := by
  unfold repetition
  cases reconstruct lwe32 p st a <;> simp

/-- Acceptance means that every repetition was accepted, and the returned bit is what the decoder makes of them. -/
theorem amplify_ok (p : Params) (sts : List (State 32)) (answers : List (Mat 32)) (b : U32)
    (h : amplifyReconstruct p sts answers = ok b) :
    ∃ outs : List U32, outs.length = sts.length ∧ sts.length ≤ answers.length ∧
      (∀ (i : Nat) st a, sts[i]? = some st → answers[i]? = some a → reconstruct lwe32 p st a = ok (outs.getD i 0)) ∧
      Ecc.decode outs = ok b := by
  unfold amplifyReconstruct at h
  rw [Res.bind_eq_ok] at h
  obtain ⟨outs, h1, h2⟩ := h
  have key : ∀ n outs, n ≤ sts.length → forLoop n (fun i outputs => do
      let a ← idx answers i
      let st ← idx sts i
      let b ← repetition p st a
      setAt outputs i b) (List.replicate sts.length 0) = ok outs →
      outs.length = sts.length ∧ n ≤ answers.length ∧
      ∀ i st a, i < n → sts[i]? = some st → answers[i]? = some a →
        reconstruct lwe32 p st a = ok (outs.getD i 0) := by
    intro n
    induction n with
    | zero =>
      intro outs _ h
      rw [forLoop_zero] at h
      simp only [ok.injEq] at h
      subst h
      simp
    | succ n ih =>
      intro outs hn h
      rw [forLoop_succ, Res.bind_eq_ok] at h
      obtain ⟨o, ho, h⟩ := h
      obtain ⟨l1, l2, l3⟩ := ih o (by omega) ho
      rw [Res.bind_eq_ok] at h
      obtain ⟨a, ha, h⟩ := h
      rw [Res.bind_eq_ok] at h
      obtain ⟨st, hst, h⟩ := h
      rw [Res.bind_eq_ok] at h
      obtain ⟨b, hb, h⟩ := h
      rw [idx_eq_ok] at ha hst
      rw [repetition_ok] at hb
      rw [setAt_of_lt (by omega)] at h
      simp only [ok.injEq] at h
      subst h
      refine ⟨by simpa using l1, ?_, ?_⟩
      · have := (List.getElem?_eq_some_iff.mp ha).1
        omega
      · intro i st' a' hi hs' ha'
        by_cases he : i = n
        · subst he
          rw [ha] at ha'
          rw [hst] at hs'
          simp only [Option.some.injEq] at ha' hs'
          subst ha' hs'
          rw [hb]
          simp [List.getD, l1, show i < sts.length by omega]
        · rw [l3 i st' a' (by omega) hs' ha']
          simp [List.getD, List.getElem?_set_ne (Ne.symm he)]
  obtain ⟨l1, l2, l3⟩ := key _ _ (le_refl _) h1
  refine ⟨outs, l1, l2, ?_, h2⟩
  intro i st a hs ha
  exact l3 i st a (List.getElem?_eq_some_iff.mp hs).1 hs ha

/-- C33, soundness: whatever the answers, a bit different from `v` is accepted only if more than half of the
repetitions, the first one among them, accept a bit different from `v` on their own; and all are accepted. -/
theorem C33_wrong_bit_needs_majority (p : Params) (sts : List (State 32)) (answers : List (Mat 32)) (b v : U32)
    (h : amplifyReconstruct p sts answers = ok b) (hb : b ≠ v) :
    sts.length < 2 * wrongRepetitions p sts answers v ∧
    (∃ st a, sts.head? = some st ∧ answers.head? = some a ∧ reconstruct lwe32 p st a = ok b) ∧
    (∀ (i : Nat) st a, sts[i]? = some st → answers[i]? = some a → ∃ c, reconstruct lwe32 p st a = ok c) := by
  obtain ⟨outs, h1, h2, h3, h4⟩ := amplify_ok p sts answers b h
  have hm := Ecc.C35_decode_majority outs b h4
  unfold Ecc.Spec.Majority at hm
  refine ⟨?_, ?_, fun i st a hs ha => ⟨_, h3 i st a hs ha⟩⟩
  · have hcount : ∀ (outs : List U32) (sts : List (State 32)) (answers : List (Mat 32)),
        outs.length = sts.length → sts.length ≤ answers.length →
        (∀ (i : Nat) st a, sts[i]? = some st → answers[i]? = some a → reconstruct lwe32 p st a = ok (outs.getD i 0)) →
        outs.count b ≤ wrongRepetitions p sts answers v := by
      intro outs
      induction outs with
      | nil => intros; simp
      | cons o outs ih =>
        intro sts answers e1 e2 e3
        match sts, answers with
        | [], _ => simp at e1
        | _ :: _, [] => simp at e2
        | st :: sts, a :: answers =>
          have i1 := ih sts answers (by simpa using e1) (by simpa using e2)
            (fun i st' a' hs ha => by simpa using e3 (i + 1) st' a' (by simpa using hs) (by simpa using ha))
          have i2 := e3 0 st a (by simp) (by simp)
          simp only [List.getD_cons_zero] at i2
          unfold wrongRepetitions at i1 ⊢
          rw [List.zip_cons_cons]
          by_cases ho : o = b
          · subst ho
            rw [List.count_cons_self, List.countP_cons_of_pos (by simp [acceptsOther, i2, hb])]
            omega
          · rw [List.count_cons_of_ne ho, List.countP_cons]
            omega
    have := hcount outs sts answers h1 h2 h3
    omega
  · match outs, sts, answers with
    | [], _, _ => simp at hm
    | _ :: _, [], _ => simp at h1
    | _ :: _, _ :: _, [] => simp at h2
    | o :: outs, st :: sts, a :: answers =>
      refine ⟨st, a, rfl, rfl, ?_⟩
      have := h3 0 st a (by simp) (by simp)
      simp only [List.getD_cons_zero] at this
      rw [this]
      rw [Ecc.decode_eq] at h4
      split at h4
      · simpa using h4
      · cases h4

/-- Three repetitions, two of them forged by adding the multiplier. -/
example :
    let p : Params := ⟨1, 1, 1, 10, [], 4⟩
    let st : State 32 := ⟨⟨1, 1, [0]⟩, ⟨1, 1, [0]⟩, ⟨1, 1, [0]⟩, 0, 0, 1000⟩
    amplifyReconstruct p [st, st, st] [⟨1, 1, [1000]⟩, ⟨1, 1, [1003]⟩, ⟨1, 1, [5]⟩] = ok 1 ∧
      wrongRepetitions p [st, st, st] [⟨1, 1, [1000]⟩, ⟨1, 1, [1003]⟩, ⟨1, 1, [5]⟩] 0 = 2 ∧
      reconstruct lwe32 p st ⟨1, 1, [20]⟩ = err "REJECT" := by
  decide

/-- Fact about C33: one repetition that is not accepted makes the amplified client reject, so amplification lowers the
forgery probability and not the failure probability of an honest exchange. -/
theorem C33_one_failure_rejects (p : Params) (sts : List (State 32)) (answers : List (Mat 32)) (i : Nat)
    (st : State 32) (a : Mat 32) (hs : sts[i]? = some st) (ha : answers[i]? = some a)
    (hr : ∀ c, reconstruct lwe32 p st a ≠ ok c) (b : U32) : amplifyReconstruct p sts answers ≠ ok b := by
  intro h
  obtain ⟨outs, -, -, h3, -⟩ := amplify_ok p sts answers b h
  exact hr _ (h3 i st a hs ha)

/-- The amplified exchange with an honest server, before encoding. -/
theorem amplify_exchange (aesctr : List Byte → Nat → Byte) (p : Params) (db : Db 32) (coins : List Coins)
    (t : Nat) (hn : coins.length = 2 * t + 1) (hs : ∀ c ∈ coins, Setup lwe32 aesctr p db c) (row col : Nat)
    (hrow : row < db.numRows) (hcolj : col < db.numColumns) (hB : 0 < p.b.toNat)
    (hcol : ∀ c ∈ coins, ∀ k, k < db.numColumns →
      |columnNoise (fun r => c.noise.getD r 0) db.matrix db.numRows k| < p.b.toNat)
    (ht : ∀ c ∈ coins, 2 * p.b.toNat ≤ multiplier 4 c ∧ multiplier 4 c + 2 * p.b.toNat ≤ 2 ^ 32) :
    ∃ (ms : List (State 32 × Mat 32)) (as : List (Mat 32)),
      amplifyQuery aesctr p db.digest coins row col = ok ms ∧ amplifyAnswer db (ms.map (·.2)) = ok as ∧
      ms.length = coins.length ∧ as.length = coins.length ∧
      (∀ q ∈ ms.map (·.2), q.rows = 1 ∧ q.cols = db.numRows ∧ q.WellFormed) ∧
      (∀ h ∈ as, h.rows = 1 ∧ h.cols = db.numColumns ∧ h.WellFormed) ∧
      amplifyReconstruct p (ms.map (·.1)) as = ok (BitVec.ofNat 32 (storedBit db.matrix row col)) := by
  have hone : ∀ c ∈ coins, ∃ st q h, query lwe32 aesctr p db.digest c row col = ok (st, q) ∧ binaryMul q db.matrix = ok h ∧
      (q.rows = 1 ∧ q.cols = db.numRows ∧ q.WellFormed) ∧ (h.rows = 1 ∧ h.cols = db.numColumns ∧ h.WellFormed) ∧
      reconstruct lwe32 p st h = ok (BitVec.ofNat 32 (storedBit db.matrix row col)) := by
    intro c hc
    have h := hs c hc
    have htc := ht c hc
    obtain ⟨st, q, a, h1, h2, ⟨rq, cq, wq, rh, ch, wh⟩, h3⟩ := reconstruct_honest aesctr p (good32 p.b hB) db h.valid
      h.params h.digest h.fits c h.noiseLen h.noise _ _ hrow hcolj (fun k hk => by
        have := abs_lt.mp (hcol c hc k hk)
        simp only [id]
        omega)
      (not_within32 hB (by rw [coinT32]; omega) (by rw [coinT32]; omega))
    exact ⟨st, q, a, h1, h2, ⟨rq, cq, wq⟩, ⟨rh, ch, wh⟩, h3⟩
  obtain ⟨ms, as, hm1, ha1, hl2, hl3, hq, ha2, hr⟩ :
      ∃ (ms : List (State 32 × Mat 32)) (as : List (Mat 32)),
      amplifyQuery aesctr p db.digest coins row col = ok ms ∧ amplifyAnswer db (ms.map (·.2)) = ok as ∧
      ms.length = coins.length ∧ as.length = coins.length ∧
      (∀ q ∈ ms.map (·.2), q.rows = 1 ∧ q.cols = db.numRows ∧ q.WellFormed) ∧
      (∀ h ∈ as, h.rows = 1 ∧ h.cols = db.numColumns ∧ h.WellFormed) ∧
      (∀ (i : Nat) st a, (ms.map (·.1))[i]? = some st → as[i]? = some a → reconstruct lwe32 p st a =
        ok (BitVec.ofNat 32 (storedBit db.matrix row col))) := by
    clear hs hcol ht hn
    unfold amplifyQuery amplifyAnswer
    induction coins with
    | nil => exact ⟨[], [], rfl, rfl, rfl, rfl, by simp, by simp, by simp⟩
    | cons c cs ih =>
      obtain ⟨st, q, h, e1, e2, e3, e4, e5⟩ := hone c (by simp)
      obtain ⟨ms, as, i2, i8, i5, i6, i7, i9, i10⟩ := ih (fun c hc => hone c (List.mem_cons_of_mem _ hc))
      refine ⟨(st, q) :: ms, h :: as, by rw [List.mapM_cons, e1, i2]; rfl,
        by rw [List.map_cons, List.mapM_cons, e2, i8]; rfl, by simp [i5], by simp [i6], ?_, ?_, ?_⟩
      · intro x hx
        rw [List.map_cons] at hx
        rcases List.mem_cons.mp hx with rfl | hx
        · exact e3
        · exact i7 x hx
      · intro x hx
        rcases List.mem_cons.mp hx with rfl | hx
        · exact e4
        · exact i9 x hx
      · intro i st' a' hs' ha'
        cases i with
        | zero =>
          simp only [List.map_cons, List.getElem?_cons_zero, Option.some.injEq] at hs' ha'
          subst hs' ha'
          exact e5
        | succ i =>
          simp only [List.map_cons, List.getElem?_cons_succ] at hs' ha'
          exact i10 i st' a' hs' ha'
  refine ⟨ms, as, hm1, ha1, hl2, hl3, hq, ha2, ?_⟩
  have hl1 : (ms.map (·.1)).length = coins.length := by simpa using hl2
  unfold amplifyReconstruct
  rw [forLoop_set_all (ms.map (·.1)).length (fun _ => BitVec.ofNat 32 (storedBit db.matrix row col)) _ _ ?_ (by simp)]
  · rw [ok_bind, hl1, hn]
    have := Ecc.C34_roundtrip t (BitVec.ofNat 32 (storedBit db.matrix row col))
    rw [Ecc.encode_eq, ok_bind] at this
    rw [← this]
    congr 1
    apply List.ext_getElem <;> simp
  · intro i outs hi ho
    have hia : i < as.length := by omega
    have ea : as[i]? = some as[i] := List.getElem?_eq_getElem hia
    have es : (ms.map (·.1))[i]? = some (ms.map (·.1))[i] := List.getElem?_eq_getElem hi
    have e := hr i _ _ es ea
    rw [idx_of_lt hia, ok_bind, idx_of_lt hi, ok_bind, repetition_ok.mpr e, ok_bind]

/-- C33, correctness over the wire: with an honest server and every repetition within the conditions of C30, the
stored bit is returned, for every number `2t+1` of repetitions. Sizes are bounded by the four-byte length field of
the wire format (C37). -/
theorem C33_honest_retrieval (aesctr : List Byte → Nat → Byte) (p : Params) (db : Db 32) (coins : List Coins)
    (t : Nat) (hn : coins.length = 2 * t + 1) (hn32 : 2 * t + 1 < 2 ^ 32)
    (hs : ∀ c ∈ coins, Setup lwe32 aesctr p db c) (index : Nat) (hidx : index < db.numRows * db.numColumns)
    (hB : 0 < p.b.toNat) (hR : 8 + 4 * db.numRows < 2 ^ 32) (hC : 8 + 4 * db.numColumns < 2 ^ 32)
    (hcol : ∀ c ∈ coins, ∀ k, k < db.numColumns →
      |columnNoise (fun r => c.noise.getD r 0) db.matrix db.numRows k| < p.b.toNat)
    (ht : ∀ c ∈ coins, 2 * p.b.toNat ≤ multiplier 4 c ∧ multiplier 4 c + 2 * p.b.toNat ≤ 2 ^ 32) :
    amplifyRetrieve aesctr p db.numColumns db.digest coins index (amplifyAnswerBytes db) =
      ok (BitVec.ofNat 32 (storedBit db.matrix (index / db.numColumns) (index % db.numColumns))) := by
  obtain ⟨c0, hc0⟩ : ∃ c, c ∈ coins := by
    cases coins with
    | nil => simp at hn
    | cons c cs => exact ⟨c, by simp⟩
  have hC0 : 0 < db.numColumns := (hs c0 hc0).fits.2.2.1
  obtain ⟨ms, as, hm1, ha1, hl2, hl3, hq, ha2, hr⟩ := amplify_exchange aesctr p db coins t hn hs _ _
    ((Nat.div_lt_iff_lt_mul hC0).mpr hidx) (Nat.mod_lt _ hC0) hB hcol ht
  have ne_of : ∀ {l : List (Mat 32)}, l.length = coins.length → l ≠ [] := by
    intro l h e
    rw [e] at h
    simp at h
    omega
  have hl2' : (ms.map (·.2)).length = coins.length := by simpa using hl2
  have wq := C37_matrices_round_trip_partial (ms.map (·.2)) 1 db.numRows (ne_of hl2') (by omega) (by omega) (by omega)
    (by omega) hq
  have wa := C37_matrices_round_trip_partial as 1 db.numColumns (ne_of hl3) (by omega) (by omega) (by omega) (by omega) ha2
  rw [Res.bind_eq_ok] at wq wa
  obtain ⟨qb, wq1, wq2⟩ := wq
  obtain ⟨ab, wa1, wa2⟩ := wa
  unfold amplifyRetrieve amplifyQueryBytes
  rw [if_neg (by omega), hm1, ok_bind]
  dsimp only
  rw [wq1, ok_bind, ok_bind]
  dsimp only
  unfold amplifyAnswerBytes
  rw [wq2, ok_bind, ha1, ok_bind, wa1, ok_bind]
  unfold amplifyReconstructBytes
  rw [wa2, ok_bind, hr]

/-- The hypotheses of the correctness theorem can be met for every odd number of repetitions. -/
example (aesctr : List Byte → Nat → Byte) (t : Nat) :
    ∃ db : Db 32, ∀ c ∈ List.replicate (2 * t + 1) (⟨[0, 0, 0, 64], [], [1, -2, 128]⟩ : Coins),
      Setup lwe32 aesctr (paramsWithDatabaseSize 3 3) db c ∧ 2 * 252 ≤ multiplier 4 c ∧
        multiplier 4 c + 2 * 252 ≤ 2 ^ 32 := by
  obtain ⟨⟨db, h, -⟩, -⟩ := setup_exists aesctr 3 3 [0b10110101, 1] (by decide) (by decide) (by decide)
    ⟨[0, 0, 0, 64], [], [1, -2, 128]⟩ (by decide) (by decide)
  refine ⟨db, fun c hc => ?_⟩
  rw [List.eq_of_mem_replicate hc]
  exact ⟨h, by decide, by decide⟩

end Verif.Lwe
