import Verif.Spec.Survive
import Verif.Lemmas.PredicateRun
import Verif.Lemmas.FssFinal
import Verif.Lemmas.FssLeak
import Verif.Lemmas.SharedRun
import Verif.Lemmas.Object

/-! # Lemmas about the queries that a predicate server answers -/

namespace Verif.Predicate
open Res Verif.Field Verif.Field.Spec Verif.Fss Verif.Fss.Spec Verif.Query Verif.Predicate.Spec Verif.Utils

/-- A loop each of whose iterations either keeps the invariant or panics, depending only on its number. -/
theorem forLoop_decides {σ : Type _} {n : Nat} {body : Nat → σ → Res σ} {s : σ} (Inv : Nat → σ → Prop) (P : Nat → Prop)
    (h0 : Inv 0 s) (hok : ∀ i t, i < n → Inv i t → P i → ∃ t', body i t = ok t' ∧ Inv (i + 1) t')
    (hbad : ∀ i t, i < n → Inv i t → ¬ P i → (body i t).isCrash) :
    ((∀ i, i < n → P i) → ∃ t, forLoop n body s = ok t ∧ Inv n t) ∧
    (¬ (∀ i, i < n → P i) → (forLoop n body s).isCrash) := by
  refine ⟨fun h => forLoop_inv Inv h0 fun i t hi ht => hok i t hi ht (h i hi), ?_⟩
  induction n with
  | zero => intro h; exact absurd (fun i hi => absurd hi (by omega)) h
  | succ n ih =>
    intro h
    rw [forLoop_succ, isCrash_bind]
    by_cases hall : ∀ i, i < n → P i
    · right
      obtain ⟨t, ht, hI⟩ := forLoop_inv (n := n) (body := body) (s := s) Inv h0
        fun i t hi ht => hok i t (by omega) ht (hall i hi)
      refine ⟨t, ht, hbad n t (by omega) hI fun hP => h fun i hi => ?_⟩
      rcases Nat.lt_succ_iff_lt_or_eq.mp hi with h | rfl
      · exact hall i h
      · exact hP
    · exact Or.inl (ih (fun i t hi => hok i t (by omega)) (fun i t hi => hbad i t (by omega)) hall)

/-! ### Evaluating a key -/

theorem idx_crash {α : Type _} {l : List α} {i : Nat} (h : l.length ≤ i) : (idx l i).isCrash := by
  rw [idx_of_ge h]
  simp

/-- The byte of the correction word used at position `j`. -/
def cwByte (j : Nat) : Nat := if j ≤ 16 then j else if j ≤ 32 then j - 17 else 17

/-- Whether the correction word of a level is long enough decides whether the level panics. -/
theorem correct_decides (out : List Byte) (ho : 34 ≤ out.length) (t : Byte) (cw : List Byte) :
    (18 ≤ cw.length → ∃ o, correct out t cw = ok o ∧ o.length = out.length) ∧
    (¬ 18 ≤ cw.length → (correct out t cw).isCrash) := by
  have key := forLoop_decides (n := 16 * 2 + 2) (s := ((out, 0) : List Byte × Nat)) (body := fun j (s : List Byte × Nat) => do
      let count := if j = 16 + 1 then 0 else if j = 16 * 2 + 1 then 16 + 1 else s.2
      let o ← idx s.1 j
      let c ← idx cw count
      let out ← setAt s.1 j (o ^^^ (t * c))
      ok (out, count + 1))
    (fun j s => s.1.length = out.length ∧ (j ≤ 33 → (if j = 16 + 1 then 0 else if j = 16 * 2 + 1 then 16 + 1 else s.2) = cwByte j))
    (fun j => cwByte j < cw.length) ⟨rfl, fun _ => by simp [cwByte]⟩
    (by
      rintro j ⟨o, c⟩ hj ⟨hl, hc⟩ h18
      simp only at hl hc
      have hc := hc (by omega)
      simp only [hc]
      rw [idx_of_lt (by omega)]
      simp only [ok_bind]
      rw [idx_of_lt h18]
      simp only [ok_bind]
      rw [setAt_of_lt (by omega)]
      refine ⟨_, rfl, by simpa using hl, fun hj' => ?_⟩
      simp only
      unfold cwByte
      split_ifs <;> omega)
    (by
      rintro j ⟨o, c⟩ hj ⟨hl, hc⟩ h18
      simp only at hl hc
      have hc := hc (by omega)
      simp only [hc]
      rw [idx_of_lt (by omega)]
      simp only [ok_bind]
      rw [isCrash_bind]
      exact Or.inl (idx_crash (by omega)))
  have hiff : (∀ j, j < 16 * 2 + 2 → cwByte j < cw.length) ↔ 18 ≤ cw.length := by
    constructor
    · intro h
      have := h 33 (by norm_num)
      simp [cwByte] at this
      omega
    · intro h j hj
      unfold cwByte
      split_ifs <;> omega
  rw [hiff] at key
  unfold correct
  constructor
  · intro h
    obtain ⟨s, hs, hl, -⟩ := key.1 h
    rw [hs]
    exact ⟨_, rfl, hl⟩
  · intro h
    rw [isCrash_bind]
    exact Or.inl (key.2 h)

theorem evalStep_decides {E : Cipher} (hE : BlockCipher E) (x : Bool) (cw : List Byte) {s : List Byte} (hs : s.length = 16)
    (t : Byte) : (18 ≤ cw.length → ∃ r, evalStep E x cw s t = ok r ∧ r.1.length = 16) ∧
      (¬ 18 ≤ cw.length → (evalStep E x cw s t).isCrash) := by
  have l := stream_length hE hs 3
  have hlen : (stream E s 3 ++ List.drop (3 * 16) (List.replicate 64 (0 : Byte))).length = 64 := by simp [l]
  have hc := correct_decides (stream E s 3 ++ List.drop (3 * 16) (List.replicate 64 (0 : Byte))) (by omega) t cw
  unfold evalStep
  rw [prf_eq hE hs (by omega) (by simp)]
  simp only [ok_bind]
  constructor
  · intro h
    obtain ⟨o, ho, hl⟩ := hc.1 h
    rw [ho]
    simp only [ok_bind]
    rw [hlen] at hl
    cases x
    · rw [if_pos (by decide), slice_of_le (by omega) (by omega), idx_of_lt (by omega)]
      refine ⟨_, rfl, ?_⟩
      simp; omega
    · rw [if_neg (by decide), slice_of_le (by omega) (by omega), idx_of_lt (by omega)]
      refine ⟨_, rfl, ?_⟩
      simp; omega
  · intro h
    rw [isCrash_bind]
    exact Or.inl (hc.2 h)

theorem evalPath_decides {E : Cipher} (hE : BlockCipher E) (k : Key) (x : List Bool) :
    ((x.length ≤ k.cw.length ∧ ∀ c ∈ k.cw.take x.length, 18 ≤ c.length) → ∃ r, evalPath E k x = ok r ∧ r.1.length = 16) ∧
    (¬ (x.length ≤ k.cw.length ∧ ∀ c ∈ k.cw.take x.length, 18 ≤ c.length) → (evalPath E k x).isCrash) := by
  obtain ⟨s0, hs0⟩ : ∃ s0, copyAt (List.replicate 16 (0 : Byte)) 0 k.sInit = ok s0 := by
    unfold copyAt
    rw [if_pos (Nat.zero_le _)]
    exact ⟨_, rfl⟩
  have h16 : s0.length = 16 := by
    unfold copyAt at hs0
    rw [if_pos (Nat.zero_le _)] at hs0
    cases hs0
    simp
    omega
  have key := forLoop_decides (n := x.length) (s := (s0, k.tInit)) (body := fun i (st : List Byte × Byte) => do
      let xi ← (if i ≠ maxBits then idx x i else ok false)
      let cw ← idx k.cw i
      evalStep E xi cw st.1 st.2)
    (fun _ st => st.1.length = 16) (fun i => ∃ h : i < k.cw.length, 18 ≤ k.cw[i].length) h16
    (by
      rintro i st hi hst ⟨h1, h2⟩
      obtain ⟨b, hb⟩ : ∃ b, (if i ≠ maxBits then idx x i else ok false) = ok b := by
        split
        · exact ⟨_, idx_of_lt hi⟩
        · exact ⟨_, rfl⟩
      rw [hb, ok_bind, idx_of_lt h1, ok_bind]
      exact (evalStep_decides hE b _ hst st.2).1 h2)
    (by
      rintro i st hi hst hn
      obtain ⟨b, hb⟩ : ∃ b, (if i ≠ maxBits then idx x i else ok false) = ok b := by
        split
        · exact ⟨_, idx_of_lt hi⟩
        · exact ⟨_, rfl⟩
      rw [hb, ok_bind]
      by_cases h1 : i < k.cw.length
      · rw [idx_of_lt h1, ok_bind]
        exact (evalStep_decides hE b _ hst st.2).2 fun h2 => hn ⟨h1, h2⟩
      · rw [isCrash_bind]
        exact Or.inl (idx_crash (by omega)))
  have hiff : (∀ i, i < x.length → ∃ h : i < k.cw.length, 18 ≤ k.cw[i].length) ↔
      (x.length ≤ k.cw.length ∧ ∀ c ∈ k.cw.take x.length, 18 ≤ c.length) := by
    constructor
    · intro h
      refine ⟨?_, ?_⟩
      · by_contra hc
        obtain ⟨h1, -⟩ := h k.cw.length (by omega)
        omega
      · intro c hc
        rw [List.mem_take_iff_getElem] at hc
        obtain ⟨i, hi, rfl⟩ := hc
        exact (h i (by omega)).2
    · rintro ⟨h1, h2⟩ i hi
      refine ⟨by omega, h2 _ ?_⟩
      rw [List.mem_take_iff_getElem]
      exact ⟨i, by omega, rfl⟩
  rw [hiff] at key
  unfold evalPath
  rw [hs0]
  exact key

theorem evalOut_decides {tmp fcw out : List U32} (h0 : tmp.length = out.length) (sn t : Byte) :
    (out.length ≤ fcw.length → ∃ r, evalOut sn tmp fcw t out = ok r ∧ r.length = out.length) ∧
    (¬ out.length ≤ fcw.length → (evalOut sn tmp fcw t out).isCrash) := by
  have key := forLoop_decides (n := out.length) (s := out) (body := fun i out => do
      let x ← idx tmp i
      let c ← idx fcw i
      let v := (x + t.setWidth 32 * c) % modP
      if sn = 0 then setAt out i v else setAt out i (modP - v))
    (fun _ o => o.length = out.length) (fun i => i < fcw.length) rfl
    (by
      intro i o hi ho hf
      rw [idx_of_lt (by omega), ok_bind, idx_of_lt hf, ok_bind]
      simp only
      split
      · rw [setAt_of_lt (by omega)]
        exact ⟨_, rfl, by simpa using ho⟩
      · rw [setAt_of_lt (by omega)]
        exact ⟨_, rfl, by simpa using ho⟩)
    (by
      intro i o hi ho hf
      rw [idx_of_lt (by omega), ok_bind, isCrash_bind]
      exact Or.inl (idx_crash (by omega)))
  have hiff : (∀ i, i < out.length → i < fcw.length) ↔ out.length ≤ fcw.length := by
    constructor
    · intro h
      by_contra hc
      exact absurd (h fcw.length (by omega)) (by omega)
    · intro h i hi
      omega
  rw [hiff] at key
  exact key

/-- A device whose randomness ends the re-sampling loop. -/
def Refills (env : Env) : Prop := ∃ e, resample env.fresh env.fuel 0 modP = ok e

theorem convertBlock_total {env : Env} (hE : BlockCipher env.E) (hr : Refills env) {n : Nat} (hn : n < 20) {ocb s : List Byte}
    (ho : BufferReady n ocb) (hs : s.length = 16) {out : List U32} (hout : out.length = n) :
    ∃ r b, convertBlock env ocb s out = ok (r, b) ∧ r.length = n ∧ BufferReady n b := by
  obtain ⟨e, he⟩ := hr
  have hl := stream_length hE hs (n / 4)
  have hlen : n * 4 ≤ (stream env.E s (n / 4) ++ ocb.drop (n / 4 * 16)).length := by
    rw [List.length_append, hl, List.length_drop, ho.1]
    omega
  obtain ⟨b, hb, -⟩ := bytesToElements_gen env.fresh env.fuel e he out _ (by rw [hout]; exact hlen)
  have hcv : ∃ r, convertBlock env ocb s out = ok (r, b) := by
    unfold convertBlock
    rw [hout, prf_eq hE hs (by omega) (by rw [ho.1]; omega), ok_bind]
    exact ⟨_, hb⟩
  obtain ⟨r, hr⟩ := hcv
  obtain ⟨h1, h2, -⟩ := convertBlock_tail hE ho hs hout hr
  exact ⟨r, b, hr, h1, h2⟩

/-- Whether the key of the query is large enough decides whether evaluating it panics. -/
theorem evaluatePF_decides {env : Env} (hE : BlockCipher env.E) (hr : Refills env) {n : Nat} (hn : n < 20) {ocb : List Byte}
    (ho : BufferReady n ocb) (sn : Byte) (k : Key) (x : List Bool) {out : List U32} (hout : out.length = n) :
    (Covers n k x.length → ∃ r b, evaluatePF env ocb sn k x out = ok (r, b) ∧ r.length = n ∧ BufferReady n b) ∧
    (¬ Covers n k x.length → (evaluatePF env ocb sn k x out).isCrash) := by
  have hp := evalPath_decides hE k x
  unfold evaluatePF
  by_cases h1 : x.length ≤ k.cw.length ∧ ∀ c ∈ k.cw.take x.length, 18 ≤ c.length
  · obtain ⟨⟨s, t⟩, hst, hs⟩ := hp.1 h1
    obtain ⟨tmp, b, hc, htl, hb⟩ := convertBlock_total hE hr hn ho hs (out := List.replicate out.length 0) (by simpa using hout)
    rw [hst, ok_bind]
    simp only
    rw [hc, ok_bind]
    simp only
    have hev := evalOut_decides (tmp := tmp) (fcw := k.finalCW) (out := out) (by omega) sn t
    constructor
    · intro h
      obtain ⟨r, hr, hrl⟩ := hev.1 (by rw [hout]; exact h.final)
      rw [hr]
      exact ⟨r, b, rfl, by omega, hb⟩
    · intro h
      rw [isCrash_bind]
      exact Or.inl (hev.2 fun h2 => h ⟨h1.1, h1.2, by omega⟩)
  · refine ⟨fun h => absurd ⟨h.levels, h.words⟩ h1, fun _ => ?_⟩
    rw [isCrash_bind]
    exact Or.inl (hp.2 h1)

theorem accumulate_total {out tmp : List U32} (h : tmp.length = out.length) :
    ∃ r, accumulate out tmp = ok r ∧ r.length = out.length := by
  unfold accumulate
  refine forLoop_inv (fun _ (o : List U32) => o.length = out.length) rfl ?_
  intro i o hi ho
  rw [idx_of_lt (by omega), ok_bind, idx_of_lt (by omega), ok_bind, setAt_of_lt (by omega)]
  exact ⟨_, rfl, by simpa using ho⟩

theorem accumulateAvg_total {out sum tmp : List U32} (h : tmp.length = out.length) (hs : sum.length = out.length) (d : Int) :
    ∃ r, accumulateAvg out sum tmp d = ok r ∧ r.1.length = out.length ∧ r.2.length = out.length := by
  unfold accumulateAvg
  refine forLoop_inv (fun _ (o : List U32 × List U32) => o.1.length = out.length ∧ o.2.length = out.length) ⟨rfl, hs⟩ ?_
  rintro i ⟨o, u⟩ hi ⟨ho, hu⟩
  simp only at ho hu
  rw [idx_of_lt (by simp only; omega), ok_bind, idx_of_lt (by omega), ok_bind, setAt_of_lt (by simp only; omega), ok_bind]
  simp only
  rw [idx_of_lt (by omega), ok_bind, setAt_of_lt (by omega), ok_bind]
  exact ⟨_, rfl, by simpa using ho, by simpa using hu⟩

/-! ### Selecting keys -/

/-- Nothing is wrong with the options of a query at this key of the database. -/
structure Readable (i : Info) (ki : KeyInfo) : Prop where
  bounds : AboutEmail i → 0 ≤ i.fromStart ∧ (i.fromStart = 0 → 0 ≤ i.fromEnd)
  date : i.and = false → i.target = 1 → ∃ b, ki.creation.bin = ok b

theorem bits8_flatMap_length (l : List Byte) : (l.flatMap bits8).length = 8 * l.length := by
  induction l with
  | nil => rfl
  | cons a l ih =>
    rw [List.flatMap_cons, List.length_append, ih, List.length_cons]
    simp [bits8]
    omega

theorem idForEmail_decides {hash : List Byte → List Byte} (hh : ∀ e, (hash e).length = 32) (i : Info) (ki : KeyInfo) :
    (0 ≤ i.fromStart ∧ (i.fromStart = 0 → 0 ≤ i.fromEnd) →
      ∃ o, idForEmail hash i ki.email = ok o ∧ o.map List.length = emailDepth i ki) ∧
    (¬ (0 ≤ i.fromStart ∧ (i.fromStart = 0 → 0 ≤ i.fromEnd)) → (idForEmail hash i ki.email).isCrash) := by
  unfold emailDepth
  by_cases h0 : i.fromStart = 0
  · by_cases h1 : i.fromEnd = 0
    · refine ⟨fun _ => ?_, fun h => absurd ⟨by omega, fun _ => by omega⟩ h⟩
      unfold idForEmail
      rw [if_neg (by simpa using h0), if_neg (by simpa using h1), if_neg (by simpa using h0), if_neg (by simpa using h1)]
      simp only
      rw [slice_of_le (by omega) (by rw [hh]; omega), ok_bind, byteToBits_eq, ok_bind]
      refine ⟨_, rfl, ?_⟩
      rw [Option.map_some, bits8_flatMap_length]
      simp [hh]
    · constructor
      · rintro ⟨-, h2⟩
        have h2 := h2 h0
        rw [idForEmail_suffix (n := i.fromEnd.toNat) (by omega) h0 (by omega)]
        refine ⟨_, rfl, ?_⟩
        rw [if_neg (show ¬ i.fromStart ≠ 0 by simpa using h0), if_pos h1]
        by_cases h3 : i.fromEnd ≤ ki.email.length
        · rw [if_pos (by omega), if_pos h3, Option.map_some, bits8_flatMap_length]
          simp
          omega
        · rw [if_neg (by omega), if_neg h3]
          rfl
      · intro h
        have h2 : i.fromEnd < 0 := by
          by_contra hc
          exact h ⟨by omega, fun _ => by omega⟩
        unfold idForEmail
        rw [if_neg (by simpa using h0), if_pos h1, if_neg (by omega), if_pos h2]
        simp
  · constructor
    · rintro ⟨h2, -⟩
      rw [idForEmail_prefix (n := i.fromStart.toNat) (by omega) (by omega)]
      refine ⟨_, rfl, ?_⟩
      rw [if_pos h0]
      by_cases h3 : i.fromStart ≤ ki.email.length
      · rw [if_pos (by omega), if_pos h3, Option.map_some, bits8_flatMap_length]
        simp
        omega
      · rw [if_neg (by omega), if_neg h3]
        rfl
    · intro h
      have h2 : i.fromStart < 0 := by
        by_contra hc
        exact h ⟨by omega, fun _ => by omega⟩
      unfold idForEmail
      rw [if_pos h0, if_neg (by omega), if_pos h2]
      simp

theorem selAnd_decides {hash : List Byte → List Byte} (hh : ∀ e, (hash e).length = 32) (i : Info) (ki : KeyInfo) :
    (0 ≤ i.fromStart ∧ (i.fromStart = 0 → 0 ≤ i.fromEnd) →
      ∃ o, selAnd hash i ki = ok o ∧ o.map List.length = (emailDepth i ki).map (32 + ·)) ∧
    (¬ (0 ≤ i.fromStart ∧ (i.fromStart = 0 → 0 ≤ i.fromEnd)) → (selAnd hash i ki).isCrash) := by
  have h := idForEmail_decides hh i ki
  unfold selAnd idForYearCreationTime
  rw [byteToBits_eq]
  simp only
  constructor
  · intro hb
    obtain ⟨o, ho, hd⟩ := h.1 hb
    rw [ho, ok_bind]
    cases o with
    | none =>
      simp only
      refine ⟨none, rfl, ?_⟩
      rw [← hd]; rfl
    | some id =>
      simp only
      refine ⟨_, rfl, ?_⟩
      rw [← hd, Option.map_some, Option.map_some, Option.map_some, List.length_append, bits8_flatMap_length]
      rfl
  · intro hb
    rw [isCrash_bind]
    exact Or.inl (h.2 hb)

theorem keyId_decides {hash : List Byte → List Byte} (hh : ∀ e, (hash e).length = 32) {i : Info} (hi : Supported i)
    (ki : KeyInfo) :
    (Readable i ki → ∃ o, keyId hash i ki = ok o ∧ o.map List.length = depth i ki) ∧
    (¬ Readable i ki → (keyId hash i ki).isCrash) := by
  obtain ⟨-, hi⟩ := hi
  unfold keyId depth
  cases hand : i.and with
  | true =>
    have hR : Readable i ki ↔ 0 ≤ i.fromStart ∧ (i.fromStart = 0 → 0 ≤ i.fromEnd) :=
      ⟨fun h => h.bounds (Or.inl hand), fun h => ⟨fun _ => h, fun h => by rw [hand] at h; cases h⟩⟩
    rw [hR]
    cases havg : i.avg with
    | true => simpa [selEmail] using idForEmail_decides hh i ki
    | false => simpa using selAnd_decides hh i ki
  | false =>
    rw [hand] at hi
    have ht : i.target ≤ 2 := by simpa using hi.resolve_left (by simp) |>.2
    by_cases h0 : i.target = 0
    · have hR : Readable i ki ↔ 0 ≤ i.fromStart ∧ (i.fromStart = 0 → 0 ≤ i.fromEnd) :=
        ⟨fun h => h.bounds (Or.inr h0), fun h => ⟨fun _ => h, fun _ h => by omega⟩⟩
      rw [hR]
      simpa [h0, selEmail] using idForEmail_decides hh i ki
    · have hne : ¬ AboutEmail i := by
        rintro (h | h)
        · rw [hand] at h; cases h
        · exact h0 h
      by_cases h2 : i.target = 2
      · refine ⟨fun _ => ?_, fun h => absurd ⟨fun h => absurd h hne, fun _ h => by omega⟩ h⟩
        simp only [h2, selAlgo, idForPubKeyAlgo, byteToBits_eq]
        exact ⟨_, rfl, by simp [bits8]⟩
      · have h1 : i.target = 1 := by omega
        have hR : Readable i ki ↔ ∃ b, ki.creation.bin = ok b :=
          ⟨fun h => h.date hand h1, fun h => ⟨fun h => absurd h hne, fun _ _ => h⟩⟩
        rw [hR]
        simp only [h1, selCreation, idForCreationTime]
        cases hb : ki.creation.bin with
        | ok b =>
          refine ⟨fun _ => ?_, fun h => absurd ⟨b, rfl⟩ h⟩
          simp only [ok_bind, byteToBits_eq]
          exact ⟨_, rfl, congrArg some (bits8_flatMap_length b)⟩
        | err m => exact ⟨fun ⟨b, h⟩ => (nomatch h), fun _ => by simp⟩
        | crash m => exact ⟨fun ⟨b, h⟩ => (nomatch h), fun _ => by simp⟩

/-! ### The loops over the database -/

/-- Nothing goes wrong with a query at this key of the database. -/
def Fine (n : Nat) (m : Msg) (ki : KeyInfo) : Prop :=
  Readable m.info ki ∧ ∀ d, depth m.info ki = some d → Covers n m.key d

theorem answerable_iff {n : Nat} {db : KeyDB} {m : Msg} (hs : Supported m.info) :
    Answerable n db m ↔ ∀ ki ∈ db.keys, Fine n m ki := by
  constructor
  · intro h ki hki
    exact ⟨⟨fun hb => h.bounds hb (List.ne_nil_of_mem hki), fun h1 h2 => h.dates h1 h2 ki hki⟩, h.covers ki hki⟩
  · intro h
    refine ⟨hs, fun hb hne => ?_, fun h1 h2 ki hki => (h ki hki).1.date h1 h2, fun ki hki => (h ki hki).2⟩
    obtain ⟨ki, hki⟩ := List.exists_mem_of_ne_nil _ hne
    exact (h ki hki).1.bounds hb

theorem all_keys {db : KeyDB} (hdb : Loaded db) {P : KeyInfo → Prop} :
    (∀ i, i < db.numColumns → ∃ h : i < db.keys.length, P db.keys[i]) ↔ ∀ ki ∈ db.keys, P ki := by
  constructor
  · intro h ki hki
    obtain ⟨i, hi, rfl⟩ := List.getElem_of_mem hki
    exact (h i (by rw [hdb]; exact hi)).2
  · intro h i hi
    rw [hdb] at hi
    exact ⟨hi, h _ (List.getElem_mem hi)⟩

section
variable {hash : List Byte → List Byte} (hh : ∀ e, (hash e).length = 32) {env : Nat → Env}
  (hE : ∀ i, BlockCipher (env i).E) (hr : ∀ i, Refills (env i)) {n : Nat} (hn : n < 20) {db : KeyDB} (hdb : Loaded db)
  {m : Msg} (hs : Supported m.info) {buf : List Byte} (hbuf : BufferReady n buf)
include hh hE hr hn hdb hs hbuf

theorem countLoop_decides (sn : Byte) :
    (Answerable n db m → ∃ s, countLoop env sn db m.key (keyId hash m.info) ⟨List.replicate n 0, List.replicate n 0, buf⟩ = ok s ∧
      s.out.length = n ∧ BufferReady n s.buf) ∧
    (¬ Answerable n db m →
      (countLoop env sn db m.key (keyId hash m.info) ⟨List.replicate n 0, List.replicate n 0, buf⟩).isCrash) := by
  rw [answerable_iff hs, ← all_keys hdb]
  have key := forLoop_decides (n := db.numColumns) (s := (⟨List.replicate n 0, List.replicate n 0, buf⟩ : Acc))
    (body := fun i (s : Acc) => do
      let ki ← idx db.keys i
      let id ← keyId hash m.info ki
      match id with
      | none => ok s
      | some id => do
        let (tmp, buf) ← evaluatePF (env i) s.buf sn m.key id s.tmp
        let out ← accumulate s.out tmp
        ok ⟨out, tmp, buf⟩)
    (fun _ s => s.out.length = n ∧ s.tmp.length = n ∧ BufferReady n s.buf)
    (fun i => ∃ h : i < db.keys.length, Fine n m db.keys[i]) ⟨by simp, by simp, hbuf⟩
    (by
      rintro i ⟨out, tmp, b⟩ hi ⟨hl, htl, hb⟩ ⟨hik, hR, hC⟩
      simp only at hl htl hb
      obtain ⟨o, ho, hd⟩ := (keyId_decides hh hs db.keys[i]).1 hR
      rw [idx_of_lt hik, ok_bind, ho, ok_bind]
      cases o with
      | none => exact ⟨_, rfl, hl, htl, hb⟩
      | some id =>
        obtain ⟨r, b', he, hrl, hb'⟩ := (evaluatePF_decides (hE i) (hr i) hn hb sn m.key id htl).1 (hC _ hd.symm)
        obtain ⟨o', ho', hol⟩ := accumulate_total (out := out) (tmp := r) (by omega)
        simp only [he, ok_bind, ho']
        exact ⟨_, rfl, by simp only; omega, hrl, hb'⟩)
    (by
      rintro i ⟨out, tmp, b⟩ hi ⟨hl, htl, hb⟩ hbad
      simp only at hl htl hb
      have hik : i < db.keys.length := by rw [← hdb]; exact hi
      rw [idx_of_lt hik, ok_bind]
      by_cases hR : Readable m.info db.keys[i]
      · obtain ⟨o, ho, hd⟩ := (keyId_decides hh hs db.keys[i]).1 hR
        rw [ho, ok_bind]
        cases o with
        | none => exact absurd ⟨hik, hR, fun d h => by rw [← hd] at h; cases h⟩ hbad
        | some id =>
          simp only
          rw [isCrash_bind]
          refine Or.inl ((evaluatePF_decides (hE i) (hr i) hn hb sn m.key id htl).2 fun hc => hbad ⟨hik, hR, fun d h => ?_⟩)
          rw [← hd] at h
          cases h
          exact hc
      · rw [isCrash_bind]
        exact Or.inl ((keyId_decides hh hs db.keys[i]).2 hR))
  refine ⟨fun h => ?_, key.2⟩
  obtain ⟨s, h1, h2, -, h3⟩ := key.1 h
  exact ⟨s, h1, h2, h3⟩

theorem avgLoop_decides (now : Nat → Int) (sn : Byte) :
    (Answerable n db m → ∃ s u, avgLoop env now sn db m.key (keyId hash m.info) ⟨List.replicate n 0, List.replicate n 0, buf⟩
        (List.replicate n 0) = ok (s, u) ∧ s.out.length = n ∧ u.length = n ∧ BufferReady n s.buf) ∧
    (¬ Answerable n db m → (avgLoop env now sn db m.key (keyId hash m.info) ⟨List.replicate n 0, List.replicate n 0, buf⟩
        (List.replicate n 0)).isCrash) := by
  rw [answerable_iff hs, ← all_keys hdb]
  have key := forLoop_decides (n := db.numColumns)
    (s := ((⟨List.replicate n 0, List.replicate n 0, buf⟩, List.replicate n 0) : Acc × List U32))
    (body := fun i (s : Acc × List U32) => do
      let ki ← idx db.keys i
      let id ← keyId hash m.info ki
      match id with
      | none => ok s
      | some id => do
        let (tmp, buf) ← evaluatePF (env i) s.1.buf sn m.key id s.1.tmp
        let diffYears := now i - ki.creation.year
        if diffYears < 0 then ok (⟨s.1.out, tmp, buf⟩, s.2)
        else do
          let (out, sum) ← accumulateAvg s.1.out s.2 tmp diffYears
          ok (⟨out, tmp, buf⟩, sum))
    (fun _ s => s.1.out.length = n ∧ s.2.length = n ∧ s.1.tmp.length = n ∧ BufferReady n s.1.buf)
    (fun i => ∃ h : i < db.keys.length, Fine n m db.keys[i]) ⟨by simp, by simp, by simp, hbuf⟩
    (by
      rintro i ⟨⟨out, tmp, b⟩, u⟩ hi ⟨hl, hul, htl, hb⟩ ⟨hik, hR, hC⟩
      simp only at hl hul htl hb
      obtain ⟨o, ho, hd⟩ := (keyId_decides hh hs db.keys[i]).1 hR
      rw [idx_of_lt hik, ok_bind, ho, ok_bind]
      cases o with
      | none => exact ⟨_, rfl, hl, hul, htl, hb⟩
      | some id =>
        obtain ⟨r, b', he, hrl, hb'⟩ := (evaluatePF_decides (hE i) (hr i) hn hb sn m.key id htl).1 (hC _ hd.symm)
        simp only [he, ok_bind]
        split
        · exact ⟨_, rfl, hl, hul, hrl, hb'⟩
        · obtain ⟨⟨o', u'⟩, ho', hol, hul'⟩ := accumulateAvg_total (out := out) (sum := u) (tmp := r) (by omega) (by omega)
            (now i - db.keys[i].creation.year)
          simp only [ho', ok_bind]
          simp only at hol hul'
          exact ⟨_, rfl, by simp only; omega, by simp only; omega, hrl, hb'⟩)
    (by
      rintro i ⟨⟨out, tmp, b⟩, u⟩ hi ⟨hl, hul, htl, hb⟩ hbad
      simp only at hl hul htl hb
      have hik : i < db.keys.length := by rw [← hdb]; exact hi
      rw [idx_of_lt hik, ok_bind]
      by_cases hR : Readable m.info db.keys[i]
      · obtain ⟨o, ho, hd⟩ := (keyId_decides hh hs db.keys[i]).1 hR
        rw [ho, ok_bind]
        cases o with
        | none => exact absurd ⟨hik, hR, fun d h => by rw [← hd] at h; cases h⟩ hbad
        | some id =>
          simp only
          rw [isCrash_bind]
          refine Or.inl ((evaluatePF_decides (hE i) (hr i) hn hb sn m.key id htl).2 fun hc => hbad ⟨hik, hR, fun d h => ?_⟩)
          rw [← hd] at h
          cases h
          exact hc
      · rw [isCrash_bind]
        exact Or.inl ((keyId_decides hh hs db.keys[i]).2 hR))
  refine ⟨fun h => ?_, key.2⟩
  obtain ⟨⟨s, u⟩, h1, h2, h3, -, h4⟩ := key.1 h
  exact ⟨s, u, h1, h2, h3, h4⟩

end

/-! ### The keys of honest queries -/

theorem generate_shape {env : Env} (hE : BlockCipher env.E) {ocb r1 r2 : List Byte} {a : List Bool} {b : List U32}
    (h1 : r1.length = 17) (h2 : r2.length = 16) {k0 k1 : Key} {ocb' : List Byte}
    (h : generateTreePF env ocb r1 r2 a b = ok (k0, k1, ocb')) :
    ∀ k ∈ [k0, k1], k.cw.length = a.length ∧ (∀ c ∈ k.cw, c.length = 18) ∧ k.finalCW.length = b.length := by
  obtain ⟨c0, c1, cne⟩ := init_bits (r1.getD 16 0)
  have hl0 : (r1.take 16).length = 16 := by simp [h1]
  have hgl := genLoop_eq hE a hl0 h2 c0 c1 cne
  have hgc := genRec_cw hE a hl0 h2 c0 c1 cne
  unfold generateTreePF at h
  rw [slice_of_le (by omega) (by omega), ok_bind, idx_getD 0 (by omega), ok_bind] at h
  simp only [List.drop_zero, Nat.sub_zero] at h
  rw [copyAt_of_le (by simp [hl0]), ok_bind, copyAt_of_le (by simp [h2]), ok_bind] at h
  simp only [List.take_zero, List.nil_append, Nat.zero_add, List.drop_replicate, hl0, h2, Nat.sub_self, List.replicate_zero,
    List.append_nil] at h
  rw [hgl, ok_bind] at h
  simp only [bind_eq_ok] at h
  obtain ⟨⟨t0, o0⟩, -, ⟨t1, o1⟩, -, fcw, hf, h⟩ := h
  simp only [ok.injEq, Prod.mk.injEq] at h
  obtain ⟨rfl, rfl, -⟩ := h
  have hfl : fcw.length = b.length := by
    unfold finalCW at hf
    refine forLoop_inv_ok (P := fun _ (v : List U32) => v.length = b.length) (by simp) ?_ hf
    intro i v v' _ hv hb
    have hset : ∀ {a b : List U32} {j : Nat} {w : U32}, setAt a j w = ok b → b.length = a.length := by
      intro a b j w hs
      unfold setAt at hs
      split at hs
      · simp only [ok.injEq] at hs; subst hs; simp
      · cases hs
    simp only [bind_eq_ok] at hb
    obtain ⟨_, -, _, -, _, -, hb⟩ := hb
    split at hb
    · exact (hset hb).trans hv
    · exact (hset hb).trans hv
  intro k hk
  simp only [List.mem_cons, List.not_mem_nil, or_false] at hk
  rcases hk with rfl | rfl
  · exact ⟨hgc.1, hgc.2, hfl⟩
  · exact ⟨hgc.1, hgc.2, hfl⟩

/-- The shape of the messages of a query. -/
theorem query_shape {env : Env} (hE : BlockCipher env.E) {fuel ex : Nat} (hex : 0 < ex) {rnd rnd' : Rand.Prg}
    {buf r1 r2 buf' : List Byte} {q : ClientFSS} {ms : List Msg} {st : State} (h1 : r1.length = 17) (h2 : r2.length = 16)
    (hq : query env fuel ex rnd buf r1 r2 q 2 = ok (ms, st, rnd', buf')) :
    ∀ m ∈ ms, m.info = q.info ∧ m.key.cw.length = q.input.length ∧ (∀ c ∈ m.key.cw, c.length = 18) ∧
      m.key.finalCW.length = ex := by
  unfold query at hq
  rw [if_neg (by simp)] at hq
  simp only [bind_eq_ok] at hq
  obtain ⟨⟨st', rnd2⟩, hd, ⟨k0, k1, buf2⟩, hg, he⟩ := hq
  simp only [ok.injEq, Prod.mk.injEq] at he hg
  obtain ⟨rfl, rfl, rfl, rfl⟩ := he
  obtain ⟨αs, hl, -, ha, -⟩ := drawKeys_spec hex hd
  have hlen : st'.a.length = ex := by rw [ha]; simp; omega
  have := generate_shape hE h1 h2 hg
  rw [hlen] at this
  intro m hm
  simp only [List.mem_cons, List.not_mem_nil, or_false] at hm
  rcases hm with rfl | rfl
  · exact ⟨rfl, this k0 (by simp)⟩
  · exact ⟨rfl, this k1 (by simp)⟩

end Verif.Predicate
