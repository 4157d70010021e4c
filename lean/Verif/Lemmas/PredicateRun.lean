import Verif.Spec.Predicate
import Verif.Lemmas.PredicateCore

/-! # Whole predicate queries -/

namespace Verif.Predicate
open Res Verif.Field Verif.Field.Spec Verif.Fss Verif.Fss.Spec Verif.Query Verif.Rand Verif.Predicate.Spec
set_option linter.unusedSimpArgs false

theorem words_roundtrip (a : List U32) : ∃ b, Utils.uint32SliceToByteSlice a = ok b ∧
    Utils.byteSliceToUint32Slice b = ok a := by
  have hb := Utils.uint32SliceToByteSlice_eq a
  refine ⟨_, hb, ?_⟩
  rw [Utils.byteSliceToUint32Slice_eq]
  congr 1
  refine range_map_getElem a _ _ ?_ (fun i hi => Utils.word_flatMap a i hi)
  rw [Utils.flatMap_length_const a putBE32 4 (by simp)]
  omega

theorem reconstructBytes_words (ex : Nat) (st : State) (a0 a1 : List U32) (b0 b1 : List Byte)
    (h0 : Utils.byteSliceToUint32Slice b0 = ok a0) (h1 : Utils.byteSliceToUint32Slice b1 = ok a1) :
    reconstructBytes ex st [b0, b1] = reconstruct ex st [a0, a1] := by
  unfold reconstructBytes
  simp [h0, h1, List.mapM_cons, List.mapM_nil, pure_eq]

/-- The server's answer to a counting query. -/
theorem answer_count {hash : List Byte → List Byte} {env : Nat → Env} {now : Nat → Int} {sn : Byte} {db : KeyDB}
    {n : Nat} {buf : List Byte} {q : Msg} (ha : q.info.avg = false) (hs : q.info.sum = false)
    (ht : q.info.and = true ∨ q.info.target ≤ 2) :
    answer hash env now sn db n buf q = (do
      let s ← countLoop env sn db q.key (keyId hash q.info) ⟨List.replicate n 0, List.replicate n 0, buf⟩
      ok (s.out, s.buf)) := by
  obtain ⟨⟨target, fs, fe, and, avg, sum⟩, key⟩ := q
  simp only at ha hs ht
  subst ha hs
  unfold answer
  cases and with
  | true =>
    have : (keyId hash ⟨target, fs, fe, true, false, false⟩) = selAnd hash ⟨target, fs, fe, true, false, false⟩ := by
      funext ki; simp [keyId]
    simp [this]
  | false =>
    have ht' : target = 0 ∨ target = 1 ∨ target = 2 := by
      rcases ht with h | h
      · simp at h
      · omega
    rcases ht' with rfl | rfl | rfl
    · have : (keyId hash ⟨0, fs, fe, false, false, false⟩) = selEmail hash ⟨0, fs, fe, false, false, false⟩ := by
        funext ki; simp [keyId]
      simp [this]
    · have : (keyId hash ⟨1, fs, fe, false, false, false⟩) = selCreation := by
        funext ki; simp [keyId]
      simp [this]
    · have : (keyId hash ⟨2, fs, fe, false, false, false⟩) = selAlgo := by
        funext ki; simp [keyId]
      simp [this]

theorem answer_avg {hash : List Byte → List Byte} {env : Nat → Env} {now : Nat → Int} {sn : Byte} {db : KeyDB}
    {n : Nat} {buf : List Byte} {q : Msg} (ha : q.info.avg = true) (hs : q.info.sum = false)
    (ht : q.info.and = true) :
    answer hash env now sn db n buf q = (do
      let (s, sum) ← avgLoop env now sn db q.key (keyId hash q.info)
        ⟨List.replicate n 0, List.replicate n 0, buf⟩ (List.replicate n 0)
      ok (s.out ++ sum, s.buf)) := by
  obtain ⟨⟨target, fs, fe, and, avg, sum⟩, key⟩ := q
  simp only at ha hs ht
  subst ha hs ht
  unfold answer
  have : (keyId hash ⟨target, fs, fe, true, true, false⟩) = selEmail hash ⟨target, fs, fe, true, true, false⟩ := by
    funext ki; simp [keyId]
  simp [this]

/-- A counting query, in both connection orders, for inputs of any length. -/
theorem count_run_long {W : World} {ex : Nat} (hex : 0 < ex) (hex20 : ex < 20) (hR : Ready W ex) {db : KeyDB}
    (hdb : Loaded db) {q : ClientFSS} (ha : q.info.avg = false) (hs : q.info.sum = false)
    (ht : q.info.and = true ∨ q.info.target ≤ 2) (hno : NoHits W ex db q)
    {f : KeyInfo → Option (List Bool)} (hsel : ∀ ki ∈ db.keys, keyId W.hash q.info ki = ok (f ki))
    (hlen : ∀ ki ∈ db.keys, ∀ id, f ki = some id → id.length = q.input.length) :
    (∃ r, W.run ex db q true = ok r ∧
      r.toNat = db.keys.countP (fun ki => decide ((f ki).map clear256 = some q.input)) % p) ∧
    (∃ r, W.run ex db q false = ok r ∧
      (r.toNat + db.keys.countP (fun ki => decide ((f ki).map clear256 = some q.input))) % p = 0) := by
  obtain ⟨⟨st, rnd'⟩, hk⟩ := hR.keys
  obtain ⟨αs, hl, hc, haa, hal⟩ := drawKeys_spec hex hk
  have hlena : st.a.length = ex := by rw [haa]; simp; omega
  have hcan : ∀ v ∈ st.a, Canonical v := by
    rw [haa]
    intro v hv
    rw [List.mem_cons] at hv
    rcases hv with rfl | hv
    · simp [Canonical, p]
    · exact hc v hv
  obtain ⟨k0', k1', b', eg, -, -⟩ := keys_values hR.cipher (by rw [hlena]; exact hR.buf) hR.seed1 hR.seed2
    (by omega) hcan (by rw [hlena]; exact hno.1)
  have hq : query W.env W.fuel ex W.rnd W.buf W.r1 W.r2 q 2 =
      ok ([⟨q.info, k0'⟩, ⟨q.info, k1'⟩], st, rnd', b') := by
    unfold query
    rw [if_neg (by simp), hk]
    simp only [ok_bind]
    rw [eg]
    rfl
  obtain ⟨k0, k1, -, hms, -, -, -, ⟨acc0, acc1, r, e0, e1, -, -, er, hr, -, -⟩, acc0', acc1', r', e0', e1', er', hr', -, -⟩ :=
    count_core hR.cipher hex hex20 hR.buf hR.seed1 hR.seed2 hq hno.1 hdb hsel hlen
      (fun ki hki id hid m hm => hno.2 _ _ _ _ hq m hm ki hki id (by rw [hsel ki hki, hid]))
      hR.same0 hR.same1 hR.buf0 hR.buf1
  simp only [List.cons.injEq, Msg.mk.injEq, true_and, and_true] at hms
  obtain ⟨rfl, rfl⟩ := hms
  constructor
  · obtain ⟨b0, w0, u0⟩ := words_roundtrip acc0.out
    obtain ⟨b1, w1, u1⟩ := words_roundtrip acc1.out
    refine ⟨r, ?_, hr⟩
    unfold World.run World.serve
    rw [hq]
    simp only [ok_bind, if_true]
    rw [idx_of_lt (by simp), idx_of_lt (by simp)]
    simp only [ok_bind, List.getElem_cons_zero, List.getElem_cons_succ]
    rw [if_neg (by decide), answer_count ha hs ht, answer_count ha hs ht]
    simp only [e0, e1, ok_bind, w0, w1]
    rw [reconstructBytes_words ex st _ _ _ _ u0 u1, er]
  · obtain ⟨b0, w0, u0⟩ := words_roundtrip acc0'.out
    obtain ⟨b1, w1, u1⟩ := words_roundtrip acc1'.out
    refine ⟨r', ?_, hr'⟩
    unfold World.run World.serve
    rw [hq]
    simp only [ok_bind, if_true, Bool.false_eq_true, if_false]
    rw [idx_of_lt (by simp), idx_of_lt (by simp)]
    simp only [ok_bind, List.getElem_cons_zero, List.getElem_cons_succ]
    rw [if_neg (by decide), answer_count ha hs ht, answer_count ha hs ht]
    simp only [e0', e1', ok_bind, w0, w1]
    rw [reconstructBytes_words ex st _ _ _ _ u0 u1, er']

/-- A counting query, in both connection orders. -/
theorem count_run {W : World} {ex : Nat} (hex : 0 < ex) (hex20 : ex < 20) (hR : Ready W ex) {db : KeyDB}
    (hdb : Loaded db) {q : ClientFSS} (ha : q.info.avg = false) (hs : q.info.sum = false)
    (ht : q.info.and = true ∨ q.info.target ≤ 2) (hno : NoHits W ex db q)
    {f : KeyInfo → Option (List Bool)} (hsel : ∀ ki ∈ db.keys, keyId W.hash q.info ki = ok (f ki))
    (hlen : ∀ ki ∈ db.keys, ∀ id, f ki = some id → id.length = q.input.length)
    (h256 : q.input.length ≤ 256) :
    (∃ r, W.run ex db q true = ok r ∧
      r.toNat = db.keys.countP (fun ki => decide (f ki = some q.input)) % p) ∧
    (∃ r, W.run ex db q false = ok r ∧
      (r.toNat + db.keys.countP (fun ki => decide (f ki = some q.input))) % p = 0) := by
  have e : db.keys.countP (fun ki => decide ((f ki).map clear256 = some q.input)) =
      db.keys.countP (fun ki => decide (f ki = some q.input)) := by
    apply List.countP_congr
    intro ki hki
    cases hf : f ki with
    | none => simp
    | some id =>
      rw [Option.map_some, clear256_of_le (by rw [hlen ki hki id hf]; exact h256)]
  rw [← e]
  exact count_run_long hex hex20 hR hdb ha hs ht hno hsel hlen

/-- An average query. -/
theorem avg_run {W : World} {ex : Nat} (hex : 0 < ex) (hex20 : ex < 20) (hR : Ready W ex) {db : KeyDB}
    (hdb : Loaded db) {q : ClientFSS} (ha : q.info.avg = true) (hs : q.info.sum = false)
    (ht : q.info.and = true) (hno : NoHits W ex db q)
    {f : KeyInfo → Option (List Bool)} (hsel : ∀ ki ∈ db.keys, keyId W.hash q.info ki = ok (f ki))
    (hlen : ∀ ki ∈ db.keys, ∀ id, f ki = some id → id.length = q.input.length)
    (h256 : q.input.length ≤ 256) {now : Int} (hn0 : ∀ i, W.now0 i = now) (hn1 : ∀ i, W.now1 i = now)
    (hage : ∀ ki ∈ db.keys, now - ki.creation.year < 2 ^ 32) :
    W.run ex db q true =
        divU32 (BitVec.ofNat 32 ((((db.keys.filter (fun ki => decide (f ki = some q.input ∧ ki.creation.year ≤ now))).map
            (fun ki => (now - ki.creation.year).toNat)).sum) % p))
          (BitVec.ofNat 32 ((db.keys.filter (fun ki => decide (f ki = some q.input ∧ ki.creation.year ≤ now))).length % p)) := by
  obtain ⟨⟨st, rnd'⟩, hk⟩ := hR.keys
  obtain ⟨αs, hl, hc, haa, hal⟩ := drawKeys_spec hex hk
  have hlena : st.a.length = ex := by rw [haa]; simp; omega
  have hcan : ∀ v ∈ st.a, Canonical v := by
    rw [haa]
    intro v hv
    rw [List.mem_cons] at hv
    rcases hv with rfl | hv
    · simp [Canonical, p]
    · exact hc v hv
  obtain ⟨k0', k1', b', eg, -, -⟩ := keys_values hR.cipher (by rw [hlena]; exact hR.buf) hR.seed1 hR.seed2
    (by omega) hcan (by rw [hlena]; exact hno.1)
  have hq : query W.env W.fuel ex W.rnd W.buf W.r1 W.r2 q 2 =
      ok ([⟨q.info, k0'⟩, ⟨q.info, k1'⟩], st, rnd', b') := by
    unfold query
    rw [if_neg (by simp), hk]
    simp only [ok_bind]
    rw [eg]
    rfl
  obtain ⟨k0, k1, hms, acc0, acc1, s0, s1, e0, e1, er, -, -⟩ :=
    avg_core hR.cipher hex hex20 hR.buf hR.seed1 hR.seed2 hq hno.1 hdb hsel hlen h256
      (fun ki hki id hid m hm => hno.2 _ _ _ _ hq m hm ki hki id (by rw [hsel ki hki, hid]))
      hR.same0 hR.same1 hR.buf0 hR.buf1 hn0 hn1 hage
  simp only [List.cons.injEq, Msg.mk.injEq, true_and, and_true] at hms
  obtain ⟨rfl, rfl⟩ := hms
  rw [← er]
  obtain ⟨b0, w0, u0⟩ := words_roundtrip (acc0.out ++ s0)
  obtain ⟨b1, w1, u1⟩ := words_roundtrip (acc1.out ++ s1)
  unfold World.run World.serve
  rw [hq]
  simp only [ok_bind, if_true]
  rw [idx_of_lt (by simp), idx_of_lt (by simp)]
  simp only [ok_bind, List.getElem_cons_zero, List.getElem_cons_succ]
  rw [if_neg (by decide), answer_avg ha hs ht, answer_avg ha hs ht]
  simp only [e0, e1, ok_bind, w0, w1]
  rw [reconstructBytes_words ex st _ _ _ _ u0 u1]

/-! ### Selectors -/

/-- Selector of an e-mail as a pure function. -/
def emailSel (hash : List Byte → List Byte) (i : Info) (e : List Byte) : Option (List Bool) :=
  if i.fromStart ≠ 0 then
    if i.fromStart ≤ e.length then some ((e.take i.fromStart.toNat).flatMap Utils.bits8) else none
  else if i.fromEnd ≠ 0 then
    if i.fromEnd ≤ e.length then some ((e.drop (e.length - i.fromEnd.toNat)).flatMap Utils.bits8) else none
  else some ((digest16 hash e).flatMap Utils.bits8)

theorem idForEmail_sel {hash : List Byte → List Byte} (hh : ∀ e, (hash e).length = 32) {i : Info} {t : List Byte}
    (hv : EmailValid i t) (e : List Byte) : idForEmail hash i e = ok (emailSel hash i e) := by
  obtain ⟨h1, h2, h3, h4⟩ := hv
  unfold emailSel
  by_cases hs : i.fromStart = 0
  · rw [if_neg (by omega)]
    by_cases he : i.fromEnd = 0
    · rw [if_neg (by omega), idForEmail_exact hs he e (by rw [hh]; omega)]
      rfl
    · rw [if_pos (by omega), idForEmail_suffix (n := i.fromEnd.toNat) (by omega) hs (by omega)]
      congr 1
      by_cases h : i.fromEnd ≤ e.length
      · rw [if_pos h, if_pos (by omega)]
      · rw [if_neg h, if_neg (by omega)]
  · rw [if_pos (by omega), idForEmail_prefix (n := i.fromStart.toNat) (by omega) (by omega)]
    congr 1
    by_cases h : i.fromStart ≤ e.length
    · rw [if_pos h, if_pos (by omega)]
    · rw [if_neg h, if_neg (by omega)]

theorem emailSel_length {hash : List Byte → List Byte} (hh : ∀ e, (hash e).length = 32) {i : Info} {t : List Byte}
    (hv : EmailValid i t) {e : List Byte} {id : List Bool} (h : emailSel hash i e = some id) :
    id.length = emailBits i := by
  obtain ⟨h1, h2, h3, h4⟩ := hv
  unfold emailSel at h
  unfold emailBits
  by_cases hs : i.fromStart = 0
  · rw [if_neg (by omega)] at h ⊢
    by_cases he : i.fromEnd = 0
    · rw [if_neg (by omega)] at h ⊢
      simp only [Option.some.injEq] at h
      rw [← h, bits_length]; simp [digest16, hh]
    · rw [if_pos (by omega)] at h ⊢
      by_cases hl : i.fromEnd ≤ e.length
      · rw [if_pos hl] at h
        simp only [Option.some.injEq] at h
        rw [← h, bits_length]; simp; omega
      · simp [hl] at h
  · rw [if_pos (by omega)] at h ⊢
    by_cases hl : i.fromStart ≤ e.length
    · rw [if_pos hl] at h
      simp only [Option.some.injEq] at h
      rw [← h, bits_length]; simp; omega
    · simp [hl] at h

theorem emailSel_valid {hash : List Byte → List Byte} {i : Info} {t : List Byte} (hv : EmailValid i t) :
    ∃ id, emailSel hash i t = some id := by
  obtain ⟨h1, h2, h3, h4⟩ := hv
  unfold emailSel
  by_cases hs : i.fromStart = 0
  · by_cases he : i.fromEnd = 0 <;> simp [hs, he, h4]
  · simp [hs, h2]

theorem emailSel_eq {hash : List Byte → List Byte} {i : Info} {t : List Byte} (hv : EmailValid i t)
    (e : List Byte) : emailSel hash i e = emailSel hash i t ↔ EmailMatches hash i t e := by
  obtain ⟨h1, h2, h3, h4⟩ := hv
  unfold emailSel EmailMatches
  by_cases hs : i.fromStart = 0
  · simp only [ne_eq, hs, not_true_eq_false, if_false]
    by_cases he : i.fromEnd = 0
    · simp only [he, not_true_eq_false, if_false, Option.some.injEq]
      constructor
      · intro h
        exact (Utils.flatMap_bits8_inj h).symm
      · intro h; rw [h]
    · simp only [he, not_false_eq_true, if_true, h4]
      constructor
      · intro h
        by_cases hl : i.fromEnd ≤ e.length
        · rw [if_pos hl, Option.some.injEq] at h
          rw [← Utils.flatMap_bits8_inj h]
          exact List.drop_suffix _ _
        · simp [hl] at h
      · intro h
        have hle := h.length_le
        simp only [List.length_drop] at hle
        rw [if_pos (by omega)]
        have := List.suffix_iff_eq_drop.mp h
        rw [this]
        simp only [List.length_drop]
        congr 4
        omega
  · simp only [ne_eq, hs, not_false_eq_true, if_true, h2]
    constructor
    · intro h
      by_cases hl : i.fromStart ≤ e.length
      · rw [if_pos hl, Option.some.injEq] at h
        rw [← Utils.flatMap_bits8_inj h]
        exact List.take_prefix _ _
      · simp [hl] at h
    · intro h
      have hle := h.length_le
      simp only [List.length_take] at hle
      rw [if_pos (by omega)]
      have := List.prefix_iff_eq_take.mp h
      rw [this]
      simp only [List.length_take]
      congr 4
      omega

/-- With fewer than four components no derived value is used. -/
theorem noHits_small (W : World) (ex : Nat) (h : ex < 4) (db : KeyDB) (q : ClientFSS) : NoHits W ex db q := by
  have : ∀ s, NoHit W.env.E ex s := by
    intro s i hi
    omega
  exact ⟨fun g _ => ⟨this _, this _⟩, fun _ _ _ _ _ _ _ _ _ _ _ s t _ => this s⟩

end Verif.Predicate
