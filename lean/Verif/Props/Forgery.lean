import Verif.Lemmas.ForgeryMain
import Verif.Props.PredicateAvg

/-! # C84, C85: one of two servers forges its answer to a predicate query -/

namespace Verif.Forge
open Res Verif.Field Verif.Field.Spec Verif.Fss Verif.Fss.Spec Verif.Privacy Verif.Predicate Verif.Predicate.Spec Finset
set_option linter.constructorNameAsVariable false

/-- C84: one of the two servers, knowing its message and everything else except the client's randomness and the other message,
answers a counting query as it likes. The client returns a number other than what it gets from two honest servers with a
probability of at most 864 divided by the cube of the modulus, plus the advantage of explicit tests against the generator and
the derivation of values, whichever server forges and in whichever order the messages were handed out. -/
theorem C84_count_forged (W : World) (db : KeyDB) (q : Query.ClientFSS) (mal inOrder : Bool) (e : U32) (fr : Nat → U32)
    (F : Msg → Res (List Byte)) (hh : ∀ t, (W.hash t).length = 32) (hS : Setup W mal e fr) (hdb : Loaded db)
    (mk : Int → Query.Time) (P : KeyInfo → Prop) (hq : Asks W.hash mk db q P) :
    forgeProb W db q inOrder mal F (fun n => n ≠ due inOrder (numMatching db P))
      ≤ forgeGap (settingOf W db q inOrder mal e fr (fun _ _ => 1)) (wordsOf q F) + 864 / (p : ℚ) ^ 3 := by
  obtain ⟨h1, h2, h3, h4, f, hsel, hlen, hP⟩ := asks_selectors hh hq
  have hf : ∀ ki ∈ db.keys, selOf W.hash q.info ki = f ki := fun ki hki => selOf_ok (hsel ki hki)
  have hsel' : ∀ ki ∈ db.keys, keyId W.hash q.info ki = ok (selOf W.hash q.info ki) :=
    fun ki hki => by rw [hf ki hki]; exact hsel ki hki
  have hlen' : ∀ ki ∈ db.keys, ∀ id, selOf W.hash q.info ki = some id → id.length = q.input.length :=
    fun ki hki id hid => hlen ki hki id (by rw [← hf ki hki]; exact hid)
  have hb := count_bound hS hdb h1 h2 h3 hsel' hlen' inOrder F
  have ht : (settingOf W db q inOrder mal e fr (fun _ _ => 1)).total = numMatching db P := by
    rw [setting_total hdb inOrder mal e fr (g := fun _ => 1) (fun _ _ _ => rfl) h4 hlen',
      ← numMatching_eq (f := selOf W.hash q.info) (a := q.input) (fun ki hki => by rw [hf ki hki]; exact hP ki hki),
      List.countP_eq_length_filter]
    simp
  rw [ht] at hb
  exact hb

/-- C85, full statement: as C84 for average queries, with twice the bound. When the query is about no keys, there is no average,
and any number is wrong. -/
def C85_Statement : Prop :=
  ∀ (W : World) (db : KeyDB) (q : Query.ClientFSS) (mal inOrder : Bool) (e : U32) (fr : Nat → U32) (F : Msg → Res (List Byte)),
    (∀ t, (W.hash t).length = 32) → Setup W mal e fr → Loaded db →
    ∀ i text now, AsksAvg W i text now db q →
      forgeProb W db q inOrder mal F (fun n => ¬ MeanOf inOrder (totalAge now (averaged W.hash i text now db))
          (averaged W.hash i text now db).length n)
        ≤ avgGap (settingOf W db q inOrder mal e fr (isAged (honestNow W mal)))
            (settingOf W db q inOrder mal e fr (ageOf (honestNow W mal))) (wordsOf q F) + 1728 / (p : ℚ) ^ 3

/-- C85 (part): when the forging server is server 1, or sends ten words as the protocol wants it. Missing: a forging
server 0 that sends another number of words (see `C85_average_cut`; `C155_permitted` says what is left to it). -/
theorem C85_average_forged_partial (W : World) (db : KeyDB) (q : Query.ClientFSS) (mal inOrder : Bool) (e : U32)
    (fr : Nat → U32) (F : Msg → Res (List Byte)) (hh : ∀ t, (W.hash t).length = 32) (hS : Setup W mal e fr) (hdb : Loaded db)
    (i : Query.Info) (text : List Byte) (now : Int) (hq : AsksAvg W i text now db q)
    (hF : mal = true ∨ ∀ k, (wordsOf q F k).length = 10) :
    forgeProb W db q inOrder mal F (fun n => ¬ MeanOf inOrder (totalAge now (averaged W.hash i text now db))
        (averaged W.hash i text now db).length n)
      ≤ avgGap (settingOf W db q inOrder mal e fr (isAged (honestNow W mal)))
          (settingOf W db q inOrder mal e fr (ageOf (honestNow W mal))) (wordsOf q F) + 1728 / (p : ℚ) ^ 3 := by
  have hbuilt := hq.built
  unfold Query.toEmailClientFSS at hbuilt
  rw [idForEmail_sel hh hq.valid] at hbuilt
  obtain ⟨id, hid⟩ := emailSel_valid (hash := W.hash) hq.valid
  simp only [ok_bind, hid, ok.injEq, Query.orNil, Option.getD_some] at hbuilt
  subst hbuilt
  have hl := emailSel_length hh hq.valid hid
  have hsel : ∀ ki ∈ db.keys, keyId W.hash i ki = ok (emailSel W.hash i ki.email) := by
    intro ki _
    simp only [keyId, hq.and, hq.avg, Bool.not_true, Bool.and_false, Bool.false_eq_true, if_false, if_true]
    exact idForEmail_sel hh hq.valid ki.email
  have hf : ∀ ki ∈ db.keys, selOf W.hash i ki = emailSel W.hash i ki.email := fun ki hki => selOf_ok (hsel ki hki)
  have hsel' : ∀ ki ∈ db.keys, keyId W.hash i ki = ok (selOf W.hash i ki) :=
    fun ki hki => by rw [hf ki hki]; exact hsel ki hki
  have hlen' : ∀ ki ∈ db.keys, ∀ id', selOf W.hash i ki = some id' → id'.length = id.length := by
    intro ki hki id' hid'
    rw [hf ki hki] at hid'
    rw [emailSel_length hh hq.valid hid', hl]
  have hnow : ∀ j, honestNow W mal j = now := by
    intro j
    cases mal
    · exact hq.clock1 j
    · exact hq.clock0 j
  have hb := avg_bound hS hdb hq.avg hq.sum hq.and hsel' hlen' inOrder
    (fun j ki hki => by rw [hnow]; exact hq.ages ki hki) F hF
  have h256 : id.length ≤ 256 := by rw [hl]; exact hq.bits
  have hfil : db.keys.filter (fun ki => decide (selOf W.hash i ki = some id))
      = db.keys.filter (fun ki => decide (EmailMatches W.hash i text ki.email)) := by
    apply List.filter_congr
    intro ki hki
    rw [hf ki hki, ← hid]
    simp only [emailSel_eq hq.valid]
  have hav : averaged W.hash i text now db
      = (db.keys.filter (fun ki => decide (EmailMatches W.hash i text ki.email))).filter
          (fun ki => decide (ki.creation.year ≤ now)) := by
    unfold averaged
    rw [List.filter_filter]
    apply List.filter_congr
    intro ki _
    rw [Bool.decide_and, Bool.and_comm]
  have t1 : (settingOf W db ⟨i, id⟩ inOrder mal e fr (isAged (honestNow W mal))).total
      = (averaged W.hash i text now db).length := by
    rw [setting_total hdb inOrder mal e fr (g := fun ki => if now - ki.creation.year < 0 then 0 else 1)
      (fun j ki _ => by unfold isAged; rw [hnow]) h256 hlen', hav, hfil]
    generalize db.keys.filter (fun ki => decide (EmailMatches W.hash i text ki.email)) = l
    induction l with
    | nil => rfl
    | cons ki l ih =>
      rw [List.map_cons, List.sum_cons, ih]
      by_cases h : ki.creation.year ≤ now
      · rw [List.filter_cons_of_pos (by simpa using h), if_neg (by omega), List.length_cons]
        omega
      · rw [List.filter_cons_of_neg (by simpa using h), if_pos (by omega)]
        omega
  have t2 : (settingOf W db ⟨i, id⟩ inOrder mal e fr (ageOf (honestNow W mal))).total
      = totalAge now (averaged W.hash i text now db) := by
    rw [setting_total hdb inOrder mal e fr (g := fun ki => (now - ki.creation.year).toNat)
      (fun j ki _ => by unfold ageOf; rw [hnow]) h256 hlen', hav, hfil]
    unfold totalAge
    generalize db.keys.filter (fun ki => decide (EmailMatches W.hash i text ki.email)) = l
    induction l with
    | nil => rfl
    | cons ki l ih =>
      rw [List.map_cons, List.sum_cons, ih]
      by_cases h : ki.creation.year ≤ now
      · rw [List.filter_cons_of_pos (by simpa using h), List.map_cons, List.sum_cons]
      · rw [List.filter_cons_of_neg (by simpa using h)]
        omega
  rw [t1, t2] at hb
  exact hb

/-- The bounds in powers of two. -/
theorem C84_bound_small : 864 / (p : ℚ) ^ 3 < 1 / 2 ^ 83 := by
  norm_num [p]

theorem C85_bound_small : 1728 / (p : ℚ) ^ 3 < 1 / 2 ^ 82 := by
  norm_num [p]

/-! ### Half an answer -/

/-- A server that sends the first half of its honest answer to an average query. -/
def cutAnswer (W : World) (db : KeyDB) (m : Msg) : Res (List Byte) := do
  let b ← W.serve 0 5 db m
  ok (b.take 20)

/-- The first half of the bytes holds the first five words. -/
theorem cut_words {a s : List U32} {b : List Byte} (ha : a.length = 5) (h : Utils.uint32SliceToByteSlice (a ++ s) = ok b) :
    Utils.byteSliceToUint32Slice (b.take 20) = ok a := by
  rw [Utils.uint32SliceToByteSlice_eq] at h
  simp only [ok.injEq] at h
  obtain ⟨b', w, u⟩ := words_roundtrip a
  rw [Utils.uint32SliceToByteSlice_eq] at w
  simp only [ok.injEq] at w
  have hl : (a.flatMap putBE32).length = 20 := by
    rw [Utils.flatMap_length_const a putBE32 4 (by simp)]
    omega
  rw [← h, List.flatMap_append, List.take_append_of_le_length (by omega), List.take_of_length_le (by omega), w]
  exact u

/-- C85: server 0 sends only the first half of its honest answer to an average query. The client takes the answers for those to
a counting query and returns the number of keys in place of their average age; all its checks succeed. -/
theorem C85_average_cut (W : World) (i : Query.Info) (text : List Byte) (now : Int) (db : KeyDB) (q : Query.ClientFSS)
    (hh : ∀ t, (W.hash t).length = 32) (hR : Ready W 5) (hdb : Loaded db) (hq : AsksAvg W i text now db q)
    (hno : NoHits W 5 db q) :
    ∃ r, forgedRun W db q true false (cutAnswer W db) = ok r ∧ r.toNat = (averaged W.hash i text now db).length % p := by
  have hbuilt := hq.built
  unfold Query.toEmailClientFSS at hbuilt
  rw [idForEmail_sel hh hq.valid] at hbuilt
  obtain ⟨id, hid⟩ := emailSel_valid (hash := W.hash) hq.valid
  simp only [ok_bind, hid, ok.injEq, Query.orNil, Option.getD_some] at hbuilt
  subst hbuilt
  have hl := emailSel_length hh hq.valid hid
  have hsel : ∀ ki ∈ db.keys, keyId W.hash i ki = ok (emailSel W.hash i ki.email) := by
    intro ki _
    simp only [keyId, hq.and, hq.avg, Bool.not_true, Bool.and_false, Bool.false_eq_true, if_false, if_true]
    exact idForEmail_sel hh hq.valid ki.email
  have hlen : ∀ ki ∈ db.keys, ∀ id', emailSel W.hash i ki.email = some id' → id'.length = id.length :=
    fun ki _ id' h => by rw [emailSel_length hh hq.valid h, hl]
  have hrun : ∃ ms st rnd' b', query W.env W.fuel 5 W.rnd W.buf W.r1 W.r2 ⟨i, id⟩ 2 = ok (ms, st, rnd', b') := by
    obtain ⟨⟨st, rnd'⟩, hk⟩ := hR.keys
    obtain ⟨αs, hl', hc, haa, hal⟩ := drawKeys_spec (by omega) hk
    have hcan : ∀ v ∈ st.a, Canonical v := by
      rw [haa]
      intro v hv
      rw [List.mem_cons] at hv
      rcases hv with rfl | hv
      · simp [Canonical, p]
      · exact hc v hv
    have hlena : st.a.length = 5 := by rw [haa]; simp; omega
    obtain ⟨k0', k1', b', eg, -, -⟩ := keys_values hR.cipher (by rw [hlena]; exact hR.buf) hR.seed1 hR.seed2
      (by omega) hcan (by rw [hlena]; exact hno.1)
    refine ⟨[⟨i, k0'⟩, ⟨i, k1'⟩], st, rnd', b', ?_⟩
    unfold query
    rw [if_neg (by simp), hk]
    simp only [ok_bind]
    rw [eg]
    rfl
  obtain ⟨ms, st, rnd', b', hqq⟩ := hrun
  obtain ⟨k0, k1, rfl, acc0, acc1, s0, s1, e0, e1, -, l0, er⟩ :=
    avg_core hR.cipher (by omega) (by omega) hR.buf hR.seed1 hR.seed2 hqq hno.1 hdb hsel hlen (by rw [hl]; exact hq.bits)
      (fun ki hki id hid m hm => hno.2 _ _ _ _ hqq m hm ki hki id (by rw [hsel ki hki, hid]))
      hR.same0 hR.same1 hR.buf0 hR.buf1 hq.clock0 hq.clock1 hq.ages
  obtain ⟨b0, w0, u0⟩ := words_roundtrip (acc0.out ++ s0)
  obtain ⟨b1, w1, u1⟩ := words_roundtrip (acc1.out ++ s1)
  have hs0 : W.serve 0 5 db ⟨i, k0⟩ = ok b0 := by
    unfold World.serve
    rw [if_pos rfl, answer_avg hq.avg hq.sum hq.and]
    simp only
    rw [show keyId W.hash i = fun ki => keyId W.hash i ki from rfl] at e0
    rw [e0]
    exact w0
  have hs1 : W.serve 1 5 db ⟨i, k1⟩ = ok b1 := by
    unfold World.serve
    rw [if_neg (by decide), answer_avg hq.avg hq.sum hq.and]
    simp only
    rw [e1]
    exact w1
  have hf : db.keys.filter (fun ki => decide (emailSel W.hash i ki.email = some id ∧ ki.creation.year ≤ now)) =
      averaged W.hash i text now db := by
    unfold averaged
    apply List.filter_congr
    intro ki _
    rw [← hid]
    simp only [emailSel_eq hq.valid]
  refine ⟨BitVec.ofNat 32 ((averaged W.hash i text now db).length % p), ?_, ?_⟩
  · unfold forgedRun
    rw [hqq]
    simp only [ok_bind, if_true, Bool.false_eq_true, if_false]
    rw [idx_of_lt (by simp), idx_of_lt (by simp)]
    simp only [ok_bind, List.getElem_cons_zero, List.getElem_cons_succ, cutAnswer, hs0, hs1]
    rw [reconstructBytes_words 5 st _ _ _ _ (cut_words l0 w0) u1, er, hf]
  · rw [BitVec.toNat_ofNat]
    have := Nat.mod_lt (averaged W.hash i text now db).length p_pos
    have := p_lt
    omega

/-! ### Concrete cases -/

theorem world_setup (E : Cipher) (hE : BlockCipher E) (n0 n1 : Int) (mal : Bool) :
    Setup (world E 5 n0 n1) mal 0 (fun _ => if mal then 1 else 2) :=
  ⟨hE, fun _ => by cases mal <;> rfl, initFss_ok 5, initFss_ok 5, initFss_ok 5, by simp [world], rfl, by simp [Canonical, p],
    fun _ => by cases mal <;> rfl⟩

/-- A case that meets the hypotheses of the theorem on counts: server 1 replies with its message's number of correction words,
repeated. -/
example : forgeProb (world parityCipher 5 0 0) exDB exQuery true true
      (fun m => ok (List.replicate 20 (BitVec.ofNat 8 m.key.cw.length))) (fun n => n ≠ due true 2)
    ≤ forgeGap (settingOf (world parityCipher 5 0 0) exDB exQuery true true 0 (fun _ => 1) (fun _ _ => 1))
        (wordsOf exQuery (fun m => ok (List.replicate 20 (BitVec.ofNat 8 m.key.cw.length)))) + 864 / (p : ℚ) ^ 3 := by
  have h := C84_count_forged (world parityCipher 5 0 0) exDB exQuery true true 0 (fun _ => 1)
    (fun m => ok (List.replicate 20 (BitVec.ofNat 8 m.key.cw.length))) exHash_length
    (world_setup _ parityCipher_block 0 0 true) rfl Query.dayTime _ (exQuery_asks _ _)
  rwa [exDB_count] at h

theorem drawn_ready (β : Fin 3 → Fin p) (α : Fin p) (s0 s1 : Fin 16 → Byte) (tb : Byte) :
    Ready (drawn (world parityCipher 5 10 10) β α s0 s1 tb) 5 :=
  ⟨parityCipher_block, fun _ => rfl, fun _ => rfl, initFss_ok 5, initFss_ok 5, initFss_ok 5, by simp [drawn], by simp [drawn],
    by
      obtain ⟨r, h⟩ := drawKeys_mac (fuel := 2) (by omega) β α
      exact ⟨_, h⟩⟩

theorem drawn_noHits (β : Fin 3 → Fin p) (α : Fin p) (s0 s1 : Fin 16 → Byte) (tb : Byte) (db : KeyDB) (q : Query.ClientFSS) :
    NoHits (drawn (world parityCipher 5 10 10) β α s0 s1 tb) 5 db q :=
  ⟨fun _ _ => ⟨parityCipher_noHit _ _, parityCipher_noHit _ _⟩,
    fun _ _ _ _ _ _ _ _ _ _ _ _ _ _ => parityCipher_noHit _ _⟩

theorem avg_zero {Ω : Type} [Fintype Ω] : avg (fun _ : Ω => (0 : ℚ)) = 0 := by
  simp [avg]

theorem levelTest_zero (E : Cipher) : ∀ (a : List Bool) (k : Nat) (own : Own) (u : List Byte),
    levelTest E a k own (fun _ _ _ => 0) u = 0
  | [], _, _, _ => rfl
  | _ :: _, 0, _, _ => rfl
  | b :: as, k + 1, own, u => by
    unfold levelTest
    have h : ∀ v : Fin 48 → Byte, levelTest E as k (evalStepC E b (cwOf v) own.1 own.2) (fun _ _ _ => 0) u = 0 :=
      fun v => levelTest_zero E as k _ u
    rw [show (fun v : Fin 48 → Byte => levelTest E as k (evalStepC E b (cwOf v) own.1 own.2) (fun _ _ _ => (0 : ℚ)) u)
      = fun _ => 0 from funext h]
    exact avg_zero

theorem wordTest_zero (E : Cipher) : ∀ (a : List Bool) (own : Own) (z : Fin 4 → Fin (2 ^ 31)),
    wordTest E a own (fun _ _ _ => 0) z = 0
  | [], _, _ => rfl
  | b :: as, own, z => by
    unfold wordTest
    have h : ∀ v : Fin 48 → Byte, wordTest E as (evalStepC E b (cwOf v) own.1 own.2) (fun _ _ _ => 0) z = 0 :=
      fun v => wordTest_zero E as _ z
    rw [show (fun v : Fin 48 → Byte => wordTest E as (evalStepC E b (cwOf v) own.1 own.2) (fun _ _ _ => (0 : ℚ)) z)
      = fun _ => 0 from funext h]
    exact avg_zero

theorem testGap_zero (S : Setting) : testGap S (fun _ _ _ => 0) = 0 := by
  have h1 : ∀ k, macLevelTest S.E S.e S.second S.a (fun _ _ _ => 0) k = fun _ => 0 := by
    intro k
    funext u
    unfold macLevelTest macCont
    simp only [avg_zero, levelTest_zero]
  have h2 : macWordTest S.E S.e S.second S.a (fun _ _ _ => 0) = fun _ => 0 := by
    funext z
    unfold macWordTest macCont
    simp only [avg_zero]
    simp only [wordTest_zero, avg_zero]
  unfold testGap
  rw [h2]
  simp only [h1, prgGap, convGap, avg_zero, sub_zero, abs_zero, Finset.sum_const_zero, add_zero]

/-- The query for the average age of the keys whose e-mail addresses end in the bytes 2, 3. -/
def avgQuery : Query.ClientFSS := ⟨avgInfo, ([2, 3] : List Byte).flatMap Utils.bits8⟩

theorem C85_refuted : ¬ C85_Statement := by
  intro H
  have hq : AsksAvg (world parityCipher 5 10 10) avgInfo [2, 3] 10 avgDB avgQuery := avgAsks 5 [2, 3] (by simp)
  have hlen : (averaged exHash avgInfo [2, 3] 10 avgDB).length = 1 := by decide
  have htot : totalAge 10 (averaged exHash avgInfo [2, 3] 10 avgDB) = 10 := by decide
  have hgap : ∀ S1 S2, avgGap S1 S2 (wordsOf avgQuery (cutAnswer (world parityCipher 5 10 10) avgDB)) = 0 := by
    intro S1 S2
    unfold avgGap
    rw [show avgTest S1 S2 (wordsOf avgQuery (cutAnswer (world parityCipher 5 10 10) avgDB)) = fun _ _ _ => 0 from ?_]
    · exact testGap_zero S1
    · funext k β α
      cases k with
      | ok k =>
        have : (wordsOf avgQuery (cutAnswer (world parityCipher 5 10 10) avgDB) k).length ≤ 5 := by
          unfold wordsOf cutAnswer
          cases World.serve (world parityCipher 5 10 10) 0 5 avgDB ⟨avgQuery.info, k⟩ with
          | ok b =>
            simp only [ok_bind]
            rw [Utils.byteSliceToUint32Slice_eq]
            simp only [List.length_map, List.length_range, List.length_take]
            omega
          | err m => exact Nat.zero_le _
          | crash m => exact Nat.zero_le _
        simp only [avgTest]
        rw [if_neg (by omega)]
      | err m => rfl
      | crash m => rfl
  have h := (H (world parityCipher 5 10 10) avgDB avgQuery false true 0 (fun _ => 2)
    (cutAnswer (world parityCipher 5 10 10) avgDB) exHash_length (world_setup _ parityCipher_block 10 10 false) rfl)
    avgInfo [2, 3] 10 hq
  rw [hgap] at h
  have hone : forgeProb (world parityCipher 5 10 10) avgDB avgQuery true false
      (cutAnswer (world parityCipher 5 10 10) avgDB)
      (fun n => ¬ MeanOf true (totalAge 10 (averaged exHash avgInfo [2, 3] 10 avgDB))
        (averaged exHash avgInfo [2, 3] 10 avgDB).length n) = 1 := by
    unfold forgeProb runMean
    have : ∀ β α s0 s1 tb, ∃ r, forgedRun (drawn (world parityCipher 5 10 10) β α s0 s1 tb) avgDB avgQuery true false
        (cutAnswer (world parityCipher 5 10 10) avgDB) = ok r ∧
        ¬ MeanOf true (totalAge 10 (averaged exHash avgInfo [2, 3] 10 avgDB))
          (averaged exHash avgInfo [2, 3] 10 avgDB).length r.toNat := by
      intro β α s0 s1 tb
      have hq' : AsksAvg (drawn (world parityCipher 5 10 10) β α s0 s1 tb) avgInfo [2, 3] 10 avgDB avgQuery :=
        ⟨hq.and, hq.avg, hq.sum, hq.valid, hq.bits, hq.built, hq.clock0, hq.clock1, hq.ages⟩
      obtain ⟨r, hr, hv⟩ := C85_average_cut (drawn (world parityCipher 5 10 10) β α s0 s1 tb) avgInfo [2, 3] 10 avgDB avgQuery
        exHash_length (drawn_ready β α s0 s1 tb) rfl hq' (drawn_noHits β α s0 s1 tb avgDB avgQuery)
      refine ⟨r, hr, ?_⟩
      have hv' : r.toNat = (averaged exHash avgInfo [2, 3] 10 avgDB).length % p := hv
      rw [hv', hlen, htot]
      norm_num [MeanOf, due, p]
    simp only [this, if_true, avg_const]
  have h' : forgeProb (world parityCipher 5 10 10) avgDB avgQuery true false
      (cutAnswer (world parityCipher 5 10 10) avgDB)
      (fun n => ¬ MeanOf true (totalAge 10 (averaged exHash avgInfo [2, 3] 10 avgDB))
        (averaged exHash avgInfo [2, 3] 10 avgDB).length n) ≤ 0 + 1728 / (p : ℚ) ^ 3 := h
  rw [hone] at h'
  norm_num [p] at h'

/-- A case that meets the hypotheses of the theorem on averages. -/
example : AsksAvg (world parityCipher 5 10 10) avgInfo [2, 3] 10 avgDB avgQuery ∧
    Setup (world parityCipher 5 10 10) true 0 (fun _ => 1) ∧
    (averaged exHash avgInfo [2, 3] 10 avgDB).length = 1 ∧ totalAge 10 (averaged exHash avgInfo [2, 3] 10 avgDB) = 10 :=
  ⟨avgAsks 5 [2, 3] (by simp), world_setup _ parityCipher_block 10 10 true, by decide, by decide⟩

/-- What the client gets for three matching keys, with the messages in either order. -/
example : due true 3 = 3 ∧ due false 3 = p - 3 := by norm_num [due, p]

end Verif.Forge
