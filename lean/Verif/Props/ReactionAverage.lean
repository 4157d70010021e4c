import Verif.Lemmas.ReactionAverage
import Verif.Props.ReactionPredicate
import Verif.Props.Chance

/-! # C129: what a lying server of an average query learns from the client's reaction to well-formed answers -/

namespace Verif.Forge
open Res Verif.Field Verif.Field.Spec Verif.Fss Verif.Fss.Spec Verif.Privacy Verif.Predicate Verif.Predicate.Spec
  Verif.Reaction Verif.Forge.Spec Verif.Chance Finset
set_option linter.constructorNameAsVariable false

/-- What is known of the selectors of a query for an average, and the number of keys it counts. -/
theorem asksAvg_selectors {W : World} {i : Query.Info} {text : List Byte} {now : Int} {db : KeyDB} {q : Query.ClientFSS}
    (hh : ∀ t, (W.hash t).length = 32) (hdb : Loaded db) (hq : AsksAvg W i text now db q) :
    q.info = i ∧ q.input.length = emailBits i ∧ (∀ ki ∈ db.keys, keyId W.hash i ki = ok (selOf W.hash i ki)) ∧
    (∀ ki ∈ db.keys, ∀ id, selOf W.hash i ki = some id → id.length = q.input.length) ∧
    ∀ (inOrder mal : Bool) (e : U32) (fr : Nat → U32), (settingOf W db q inOrder mal e fr (isAged (honestNow W mal))).total
      = (averaged W.hash i text now db).length := by
  have hbuilt := hq.built
  unfold Query.toEmailClientFSS at hbuilt
  rw [idForEmail_sel hh hq.valid] at hbuilt
  obtain ⟨id, hid⟩ := emailSel_valid (hash := W.hash) hq.valid
  simp only [ok_bind, hid, ok.injEq, Query.orNil, Option.getD_some] at hbuilt
  subst hbuilt
  have hl := emailSel_length hh hq.valid hid
  have hsel : ∀ ki ∈ db.keys, keyId W.hash i ki = ok (emailSel W.hash i ki.email) := by
    intro ki _
    simp only [keyId, hq.and, hq.avg, Bool.not_true, Bool.and_false, Bool.false_eq_true, if_false, if_true]
    exact idForEmail_sel hh hq.valid ki.email
  have hf : ∀ ki ∈ db.keys, selOf W.hash i ki = emailSel W.hash i ki.email := fun ki hki => selOf_ok (hsel ki hki)
  have hlen' : ∀ ki ∈ db.keys, ∀ id', selOf W.hash i ki = some id' → id'.length = id.length := by
    intro ki hki id' hid'
    rw [hf ki hki] at hid'
    rw [emailSel_length hh hq.valid hid', hl]
  refine ⟨rfl, hl, fun ki hki => by rw [hf ki hki]; exact hsel ki hki, hlen', ?_⟩
  intro inOrder mal e fr
  have hnow : ∀ j, honestNow W mal j = now := by
    intro j
    cases mal
    · exact hq.clock1 j
    · exact hq.clock0 j
  have hfil : db.keys.filter (fun ki => decide (selOf W.hash i ki = some id))
      = db.keys.filter (fun ki => decide (EmailMatches W.hash i text ki.email)) := by
    apply List.filter_congr
    intro ki hki
    rw [hf ki hki, ← hid]
    simp only [emailSel_eq hq.valid]
  have hav : averaged W.hash i text now db
      = (db.keys.filter (fun ki => decide (EmailMatches W.hash i text ki.email))).filter
          (fun ki => decide (ki.creation.year ≤ now)) := by
    unfold averaged
    rw [List.filter_filter]
    apply List.filter_congr
    intro ki _
    rw [Bool.decide_and, Bool.and_comm]
  rw [setting_total hdb inOrder mal e fr (g := fun ki => if now - ki.creation.year < 0 then 0 else 1)
    (fun j ki _ => by unfold isAged; rw [hnow]) (by rw [hl]; exact hq.bits) hlen', hav, hfil]
  generalize db.keys.filter (fun ki => decide (EmailMatches W.hash i text ki.email)) = l
  induction l with
  | nil => rfl
  | cons ki l ih =>
    rw [List.map_cons, List.sum_cons, ih]
    by_cases h : ki.creation.year ≤ now
    · rw [List.filter_cons_of_pos (by simpa using h), if_neg (by omega), List.length_cons]
      omega
    · rw [List.filter_cons_of_neg (by simpa using h), if_pos (by omega)]
      omega

/-- C129, simulation: a server that answers an average query with ten words, none above 2^32 minus the modulus, right or wrong,
can tell how the client ends from the message and one bit of the database: with an error if the server sends other elements than
it was asked for; otherwise with a panic if the number of counted keys is a multiple of the modulus, and with a result if it is
not. -/
theorem C129_simulated (W : World) (db : KeyDB) (q : Query.ClientFSS) (mal inOrder : Bool) (e e' : U32) (fr fr' : Nat → U32)
    (F : Msg → Res (List Byte)) (D : Res Msg × Res Unit → ℚ) (hh : ∀ t, (W.hash t).length = 32) (hS : Setup W mal e fr)
    (hS' : Setup W (!mal) e' fr') (hdb : Loaded db) (i : Query.Info) (text : List Byte) (now : Int)
    (hq : AsksAvg W i text now db q) (hF : ∀ m b, F m = ok b → WellFormedAvg b) (hD : IsTest D) :
    |viewAvgProb W db q inOrder mal F D - avg (fun β : Fin 3 → Fin p => viewMean W.env (mal == inOrder) q.input (shared β)
        (seeAvg W db i mal F ((averaged W.hash i text now db).length % p = 0) D))|
      ≤ avgGap (settingOf W db q inOrder mal e fr (isAged (honestNow W mal)))
          (settingOf W db q inOrder mal e fr (ageOf (honestNow W mal))) (wordsOf q F) + 1728 / (p : ℚ) ^ 3
        + hitProb W db q := by
  obtain ⟨rfl, -, hsel, hlen, htot⟩ := asksAvg_selectors hh hdb hq
  have hnow : ∀ m j, honestNow W m j = now := by
    intro m j
    cases m
    · exact hq.clock1 j
    · exact hq.clock0 j
  have m := testMean_le hS db q inOrder (isAged (honestNow W mal))
    (avgTest (settingOf W db q inOrder mal e fr (isAged (honestNow W mal)))
      (settingOf W db q inOrder mal e fr (ageOf (honestNow W mal))) (wordsOf q F)) (avgTest_nonneg _ _ _) (avgTest_avg _ _ _)
  rw [show (16 : ℚ) * (108 / (p : ℚ) ^ 3) = 1728 / (p : ℚ) ^ 3 by ring] at m
  refine le_trans ?_ (add_le_add m (le_refl _))
  unfold hitProb
  rw [← runMean_add]
  apply runMean_switch
  intro β α s0 s1 tb
  have n0 := avgTest_nonneg (settingOf W db q inOrder mal e fr (isAged (honestNow W mal)))
    (settingOf W db q inOrder mal e fr (ageOf (honestNow W mal))) (wordsOf q F)
    (received W.env (mal == inOrder) q.input (shared β) s0 s1 tb α) β α
  by_cases hno : NoHits (drawn W β α s0 s1 tb) 5 db q
  · rw [if_pos hno, add_zero]
    have h := viewAvg_expected hS hS' hdb hq.avg hq.sum hq.and hnow hq.ages hsel hlen inOrder F hF hD β α s0 s1 tb hno
    rwa [htot] at h
  · rw [if_neg hno]
    exact abs_unit (hD _) (seeAvg_unit W db q.info mal F _ hD _) (le_add_of_nonneg_left n0)

theorem drawn_hits {W : World} {db : KeyDB} {q : Query.ClientFSS} {B : ℚ}
    (key : ∀ β α, chance (fun s0 s1 tb => ¬ NoHits (drawn W β α s0 s1 tb) 5 db q) ≤ B) : hitProb W db q ≤ B := by
  have hne : Nonempty (Fin 3 → Fin p) := ⟨fun _ => ⟨0, p_pos⟩⟩
  have hne' : Nonempty (Fin p) := ⟨⟨0, p_pos⟩⟩
  have e : hitProb W db q = avg (fun β : Fin 3 → Fin p => avg (fun α : Fin p =>
      chance (fun s0 s1 tb => ¬ NoHits (drawn W β α s0 s1 tb) 5 db q))) := by
    unfold hitProb runMean chance
    apply avg_congr
    intro β
    refine Eq.trans ?_ (avg_comm _)
    apply avg_congr
    intro s0
    refine Eq.trans ?_ (avg_comm _)
    apply avg_congr
    intro s1
    refine Eq.trans ?_ (avg_comm _)
    apply avg_congr
    intro tb
    apply avg_congr
    intro α
    by_cases h : NoHits (drawn W β α s0 s1 tb) 5 db q <;> simp [h]
  rw [e]
  calc _ ≤ avg (fun _ : Fin 3 → Fin p => avg (fun _ : Fin p => B)) := avg_mono fun β => avg_mono fun α => key β α
    _ = _ := by rw [avg_const, avg_const]

/-- How often a value equal to the modulus turns up: bounded as in C102. -/
theorem C129_hits_rare {W : World} {i : Query.Info} {text : List Byte} {now : Int} {db : KeyDB} {q : Query.ClientFSS}
    (hh : ∀ t, (W.hash t).length = 32) (hE : BlockCipher W.env.E) (hq : AsksAvg W i text now db q) :
    hitProb W db q ≤ runBound W.env.E W.hash db q :=
  drawn_hits fun β α => C102_disturbed_average (W := { W with rnd := macSource β α }) hh hE
    ⟨hq.and, hq.avg, hq.sum, hq.valid, hq.bits, hq.built, hq.clock0, hq.clock1, hq.ages⟩

/-- C92: honest runs of a count go wrong for a small part of the client's randomness only, bounded as in C102. -/
theorem C92_failures_rare {W : World} {mal : Bool} {e e' : U32} {fr fr' : Nat → U32} (hS : Setup W mal e fr)
    (hS' : Setup W (!mal) e' fr') {db : KeyDB} {q : Query.ClientFSS} (inOrder : Bool) (hh : ∀ t, (W.hash t).length = 32)
    (hdb : Loaded db) {mk : Int → Query.Time} {P : KeyInfo → Prop} (hq : Asks W.hash mk db q P) :
    failProb W db q inOrder (due inOrder (numMatching db P)) ≤ runBound W.env.E W.hash db q := by
  have hR : ∀ β α s0 s1 tb, Ready (drawn W β α s0 s1 tb) 5 := by
    intro β α s0 s1 tb
    obtain ⟨r, hr⟩ := drawKeys_mac hS.fuel β α
    refine ⟨hS.cipher, ?_, ?_, hS.buf, hS.buf0, hS.buf1, by simp [drawn], by simp [drawn], _, hr⟩
    · cases mal
      · exact hS'.same
      · exact hS.same
    · cases mal
      · exact hS.same
      · exact hS'.same
  refine le_trans ?_ (drawn_hits (W := W) (db := db) (q := q) fun β α =>
    C102_disturbed (W := { W with rnd := macSource β α }) hh hS.cipher hq)
  unfold failProb hitProb
  apply runMean_mono
  intro β α s0 s1 tb
  by_cases h : NoHits (drawn W β α s0 s1 tb) 5 db q
  · rw [if_pos h, if_pos (run_due (W := drawn W β α s0 s1 tb) inOrder hh hdb hq (hR β α s0 s1 tb) h)]
  · rw [if_neg h]
    split <;> norm_num

/-- C129, full statement: one of the two servers answers an average query with ten words, none above 2^32 minus the modulus, in
whatever way these depend on its message, and notices how the client ends. Message and end look alike for two queries with the
same public part, up to: the advantages of explicit tests against the generator and the derivation of values, the probabilities
that a derived value equals the modulus, 10/2^31 and 3456 divided by the cube of the modulus. -/
def C129_Statement : Prop :=
  ∀ (W : World) (db : KeyDB) (q q' : Query.ClientFSS) (mal inOrder : Bool) (e e' : U32) (fr fr' : Nat → U32)
    (F : Msg → Res (List Byte)) (D : Res Msg × Res Unit → ℚ), (∀ t, (W.hash t).length = 32) → Setup W mal e fr →
    Setup W (!mal) e' fr' → Loaded db → ∀ (i : Query.Info) (text text' : List Byte) (now : Int),
    AsksAvg W i text now db q → AsksAvg W i text' now db q' → (∀ m b, F m = ok b → WellFormedAvg b) → IsTest D →
    |viewAvgProb W db q inOrder mal F D - viewAvgProb W db q' inOrder mal F D|
      ≤ keyGap W.env.E e (mal == inOrder) q.input
          (seeAvg W db i mal F ((averaged W.hash i text now db).length % p = 0) D)
        + keyGap W.env.E e (mal == inOrder) q'.input
          (seeAvg W db i mal F ((averaged W.hash i text now db).length % p = 0) D)
        + avgGap (settingOf W db q inOrder mal e fr (isAged (honestNow W mal)))
          (settingOf W db q inOrder mal e fr (ageOf (honestNow W mal))) (wordsOf q F)
        + avgGap (settingOf W db q' inOrder mal e fr (isAged (honestNow W mal)))
          (settingOf W db q' inOrder mal e fr (ageOf (honestNow W mal))) (wordsOf q' F)
        + hitProb W db q + hitProb W db q' + 10 / 2 ^ 31 + 3456 / (p : ℚ) ^ 3

/-- C129 (part): when the numbers of keys counted by the two queries are both multiples of the modulus (zero, that is, for any
database of realistic size) or both not. Missing: a query that counts keys and one that counts none (see `C129_refuted`). -/
theorem C129_reaction_partial (W : World) (db : KeyDB) (q q' : Query.ClientFSS) (mal inOrder : Bool) (e e' : U32)
    (fr fr' : Nat → U32) (F : Msg → Res (List Byte)) (D : Res Msg × Res Unit → ℚ) (hh : ∀ t, (W.hash t).length = 32)
    (hS : Setup W mal e fr) (hS' : Setup W (!mal) e' fr') (hdb : Loaded db) (i : Query.Info) (text text' : List Byte) (now : Int)
    (hq : AsksAvg W i text now db q) (hq' : AsksAvg W i text' now db q') (hF : ∀ m b, F m = ok b → WellFormedAvg b)
    (hD : IsTest D)
    (hz : (averaged W.hash i text now db).length % p = 0 ↔ (averaged W.hash i text' now db).length % p = 0) :
    |viewAvgProb W db q inOrder mal F D - viewAvgProb W db q' inOrder mal F D|
      ≤ keyGap W.env.E e (mal == inOrder) q.input
          (seeAvg W db i mal F ((averaged W.hash i text now db).length % p = 0) D)
        + keyGap W.env.E e (mal == inOrder) q'.input
          (seeAvg W db i mal F ((averaged W.hash i text now db).length % p = 0) D)
        + avgGap (settingOf W db q inOrder mal e fr (isAged (honestNow W mal)))
          (settingOf W db q inOrder mal e fr (ageOf (honestNow W mal))) (wordsOf q F)
        + avgGap (settingOf W db q' inOrder mal e fr (isAged (honestNow W mal)))
          (settingOf W db q' inOrder mal e fr (ageOf (honestNow W mal))) (wordsOf q' F)
        + hitProb W db q + hitProb W db q' + 10 / 2 ^ 31 + 3456 / (p : ℚ) ^ 3 := by
  have a1 := C129_simulated W db q mal inOrder e e' fr fr' F D hh hS hS' hdb i text now hq hF hD
  have a2 := C129_simulated W db q' mal inOrder e e' fr fr' F D hh hS hS' hdb i text' now hq' hF hD
  rw [← propext hz] at a2
  have hl : q.input.length = q'.input.length := by
    rw [(asksAvg_selectors hh hdb hq).2.1, (asksAvg_selectors hh hdb hq').2.1]
  have mid := keys_alike hS (mal == inOrder) hl
    (seeAvg_unit W db i mal F ((averaged W.hash i text now db).length % p = 0) hD)
  rw [abs_sub_comm] at a2
  refine le_trans (close_trans (close_trans a1 mid) a2) (le_of_eq ?_)
  ring

/-! ### Whether anybody matches -/

/-- A world in which everybody replaces a value equal to the modulus by 0. -/
def quietWorld : World :=
  { world parityCipher 5 10 10 with env0 := fun _ => ⟨parityCipher, fun _ => 0, 1⟩, env1 := fun _ => ⟨parityCipher, fun _ => 0, 1⟩ }

theorem quiet_setup (mal : Bool) : Setup quietWorld mal 0 (fun _ => 0) :=
  ⟨parityCipher_block, fun _ => by cases mal <;> rfl, initFss_ok 5, initFss_ok 5, initFss_ok 5, by simp [quietWorld, world], rfl,
    by simp [Canonical, p], fun _ => by cases mal <;> rfl⟩

theorem quiet_noHits (β : Fin 3 → Fin p) (α : Fin p) (s0 s1 : Fin 16 → Byte) (tb : Byte) (db : KeyDB) (q : Query.ClientFSS) :
    NoHits (drawn quietWorld β α s0 s1 tb) 5 db q :=
  ⟨fun _ _ => ⟨parityCipher_noHit _ _, parityCipher_noHit _ _⟩,
    fun _ _ _ _ _ _ _ _ _ _ _ _ _ _ => parityCipher_noHit _ _⟩

theorem quiet_asks (text : List Byte) (h : 2 ≤ text.length) :
    AsksAvg quietWorld avgInfo text 10 avgDB ⟨avgInfo, (text.drop (text.length - 2)).flatMap Utils.bits8⟩ :=
  have hq := avgAsks 5 text h
  ⟨hq.and, hq.avg, hq.sum, hq.valid, hq.bits, hq.built, hq.clock0, hq.clock1, hq.ages⟩

theorem quiet_hitProb (q : Query.ClientFSS) : hitProb quietWorld avgDB q = 0 := by
  unfold hitProb runMean
  simp only [quiet_noHits, if_true, avg_zero]

open Classical in
/-- Server 1 sends what it was asked for. -/
noncomputable def ownAnswer (m : Msg) : Res (List Byte) :=
  if m.info = avgInfo ∧ KeyOk m.key 16 then quietWorld.serve 1 5 avgDB m else err ""

/-- The test that looks for a panic of the client. -/
def panics : Res Msg × Res Unit → ℚ
  | (_, crash _) => 1
  | _ => 0

theorem panics_test : IsTest panics := by
  rintro ⟨m, r⟩
  cases r <;> simp [panics]

/-- The honest answer to any message of the right shape. -/
theorem quiet_serve {text : List Byte} (ht : 2 ≤ text.length) {k : Key} (hk : KeyOk k 16) :
    ∃ b H, quietWorld.serve 1 5 avgDB ⟨avgInfo, k⟩ = ok b ∧ Utils.byteSliceToUint32Slice b = ok H ∧ H.length = 10 ∧
      ∀ j, j < 5 → (H.getD j 0).toNat = realSum parityCipher 1 k
          (recsTo avgDB.keys (selOf quietWorld.hash avgInfo) (fun _ => 0) (isAged (fun _ => 10)) avgDB.numColumns) j ∧
        (H.getD (5 + j) 0).toNat = realSum parityCipher 1 k
          (recsTo avgDB.keys (selOf quietWorld.hash avgInfo) (fun _ => 0) (ageOf (fun _ => 10)) avgDB.numColumns) j := by
  have hq := quiet_asks text ht
  obtain ⟨-, hl, hsel, hlen, -⟩ := asksAvg_selectors exHash_length (show Loaded avgDB from rfl) hq
  have h := honest_avg (quiet_setup false) (db := avgDB) rfl (q := ⟨avgInfo, (text.drop (text.length - 2)).flatMap Utils.bits8⟩)
    hq.avg hq.sum hq.and hsel (n := 16) (fun j ki hki => hq.ages ki hki) (fun ki hki id hid => by rw [hlen ki hki id hid, hl]; rfl) hk
  exact h

theorem ownAnswer_words (m : Msg) (b : List Byte) (h : ownAnswer m = ok b) : WellFormedAvg b := by
  unfold ownAnswer at h
  split at h
  · rename_i hm
    obtain ⟨i, k⟩ := m
    obtain ⟨rfl, hk⟩ := hm
    obtain ⟨b', H, h1, h2, h3, h4⟩ := quiet_serve (text := [2, 3]) (by simp) hk
    rw [h1] at h
    cases h
    refine ⟨H, h2, h3, ?_⟩
    intro w hw
    obtain ⟨j, hj, rfl⟩ := List.mem_iff_getElem.1 hw
    have : (H.getD j 0).toNat < p := by
      by_cases h5 : j < 5
      · rw [(h4 j h5).1]; exact Nat.mod_lt _ p_pos
      · rw [show j = 5 + (j - 5) by omega, (h4 (j - 5) (by omega)).2]; exact Nat.mod_lt _ p_pos
    rw [getD_of_lt _ hj] at this
    rw [p_val] at *
    omega
  · cases h

theorem quiet_clear (s : List Byte) (i : Fin 4) : (words parityCipher s i).1 ≠ p := parityCipher_noHit 5 s i.1 (by omega)

theorem recsTo_fresh {keys : List KeyInfo} {f : KeyInfo → Option (List Bool)} {c : U32} {wt : Nat → KeyInfo → Nat} {n : Nat} :
    ∀ r ∈ recsTo keys f (fun _ => c) wt n, r.fresh = c := by
  intro r hr
  unfold recsTo at hr
  rw [List.mem_filterMap] at hr
  obtain ⟨i, -, h⟩ := hr
  simp only [Option.bind_eq_some_iff, Option.map_eq_some_iff] at h
  obtain ⟨ki, -, id, -, rfl⟩ := h
  rfl

theorem own_gap (text : List Byte) (ht : 2 ≤ text.length) :
    avgGap (settingOf quietWorld avgDB ⟨avgInfo, (text.drop (text.length - 2)).flatMap Utils.bits8⟩ true true 0 (fun _ => 0)
        (isAged (honestNow quietWorld true)))
      (settingOf quietWorld avgDB ⟨avgInfo, (text.drop (text.length - 2)).flatMap Utils.bits8⟩ true true 0 (fun _ => 0)
        (ageOf (honestNow quietWorld true)))
      (wordsOf ⟨avgInfo, (text.drop (text.length - 2)).flatMap Utils.bits8⟩ ownAnswer) = 0 := by
  unfold avgGap
  rw [show avgTest _ _ _ = fun _ _ _ => 0 from ?_]
  · exact testGap_zero _
  · funext k β α
    cases k with
    | err m => rfl
    | crash m => rfl
    | ok k =>
      by_cases hk : KeyOk k 16
      · obtain ⟨b, H, h1, h2, h3, h4⟩ := quiet_serve ht hk
        have hw : wordsOf ⟨avgInfo, (text.drop (text.length - 2)).flatMap Utils.bits8⟩ ownAnswer k = H := by
          unfold wordsOf ownAnswer
          rw [if_pos ⟨rfl, hk⟩, h1]
          simp only [h2]
        have hn : honestNow quietWorld true = fun _ => 10 := rfl
        have r1 : (settingOf quietWorld avgDB ⟨avgInfo, (text.drop (text.length - 2)).flatMap Utils.bits8⟩ true true 0 (fun _ => 0)
            (isAged (honestNow quietWorld true))).recs = recsTo avgDB.keys (selOf quietWorld.hash avgInfo) (fun _ => 0)
              (isAged (fun _ => 10)) avgDB.numColumns := by rw [hn, settingOf]
        have r2 : (settingOf quietWorld avgDB ⟨avgInfo, (text.drop (text.length - 2)).flatMap Utils.bits8⟩ true true 0 (fun _ => 0)
            (ageOf (honestNow quietWorld true))).recs = recsTo avgDB.keys (selOf quietWorld.hash avgInfo) (fun _ => 0)
              (ageOf (fun _ => 10)) avgDB.numColumns := by rw [hn, settingOf]
        have n1 := own_not_forgeable (S := settingOf quietWorld avgDB ⟨avgInfo, (text.drop (text.length - 2)).flatMap Utils.bits8⟩
          true true 0 (fun _ => 0) (isAged (honestNow quietWorld true))) parityCipher_block quiet_clear (by simp [settingOf, Canonical, p])
          recsTo_fresh hk (sn := 1) (by simp [sgn, settingOf]) (A := H)
          (fun j hj => by rw [(h4 j hj).1, r1, show (settingOf quietWorld avgDB _ true true 0 _ _).E = parityCipher from rfl]) β α
        have n2 := own_not_forgeable (S := settingOf quietWorld avgDB ⟨avgInfo, (text.drop (text.length - 2)).flatMap Utils.bits8⟩
          true true 0 (fun _ => 0) (ageOf (honestNow quietWorld true))) parityCipher_block quiet_clear (by simp [settingOf, Canonical, p])
          recsTo_fresh hk (sn := 1) (by simp [sgn, settingOf]) (A := H.drop 5)
          (fun j hj => by
            rw [getD_drop5, (h4 j hj).2, r2, show (settingOf quietWorld avgDB _ true true 0 _ _).E = parityCipher from rfl]) β α
        rw [← hw] at n1 n2
        simp only [avgTest, forgeTest]
        rw [if_neg n1, if_neg n2, add_zero, ite_self]
      · have hw : wordsOf ⟨avgInfo, (text.drop (text.length - 2)).flatMap Utils.bits8⟩ ownAnswer k = [] := by
          unfold wordsOf ownAnswer
          rw [if_neg (fun h => hk h.2)]
        simp only [avgTest, hw, List.length_nil]
        rw [if_neg (by omega)]

/-- What the test sees of a server that sends what it was asked for. -/
theorem own_seen {nobody : Prop} (k : Key) :
    seeAvg quietWorld avgDB avgInfo true ownAnswer nobody panics (ok k) = (open Classical in if KeyOk k 16 ∧ nobody then 1 else 0) := by
  classical
  show panics (ok ⟨avgInfo, k⟩, outcome (expectedAvg quietWorld avgDB true ownAnswer nobody ⟨avgInfo, k⟩)) = _
  unfold expectedAvg
  by_cases hk : KeyOk k 16
  · obtain ⟨b, H, h1, h2, h3, h4⟩ := quiet_serve (text := [2, 3]) (by simp) hk
    have ho : ownAnswer ⟨avgInfo, k⟩ = ok b := by
      unfold ownAnswer
      rw [if_pos ⟨rfl, hk⟩]
      exact h1
    have hl : quietWorld.serve (liar true) 5 avgDB ⟨avgInfo, k⟩ = ok b := h1
    rw [ho, hl]
    simp only [ok_bind]
    rw [if_pos ⟨H, H, h2, h2, rfl, fun _ => rfl⟩]
    by_cases hn : nobody
    · rw [if_pos hn, if_pos ⟨hk, hn⟩]
      rfl
    · rw [if_neg hn, if_neg (fun h => hn h.2)]
      rfl
  · have ho : ownAnswer ⟨avgInfo, k⟩ = err "" := by
      unfold ownAnswer
      rw [if_neg (fun h => hk h.2)]
    rw [ho, if_neg (show ¬ (KeyOk k 16 ∧ nobody) from fun h => hk h.1)]
    rfl

theorem keyGap_zero (E : Cipher) (e : U32) (second : Bool) (a : List Bool) : keyGap E e second a (fun _ => 0) = 0 := by
  have h1 : ∀ β k, keyLevelTest E e second a β (fun _ => 0) k = fun _ => 0 := by
    intro β k
    funext u
    unfold keyLevelTest keyCont
    simp only [avg_zero, levelTest_zero]
  have h2 : ∀ β, keyWordTest E e second a β (fun _ => 0) = fun _ => 0 := by
    intro β
    funext z
    unfold keyWordTest keyCont
    simp only [avg_zero]
    simp only [wordTest_zero, avg_zero]
  unfold keyGap
  simp only [h1, h2, prgGap, convGap, avg_zero, sub_zero, abs_zero, Finset.sum_const_zero, add_zero]

/-- C129 fails: server 1 need not even lie. It sends what it was asked for, and the client panics if nobody matches and returns
a result if somebody does. -/
theorem C129_refuted : ¬ C129_Statement := by
  classical
  intro St
  have hne : Nonempty (Fin 3 → Fin p) := ⟨fun _ => ⟨0, p_pos⟩⟩
  have hne' : Nonempty (Fin p) := ⟨⟨0, p_pos⟩⟩
  have hq := quiet_asks [2, 3] (by simp)
  have hq' := quiet_asks [7, 7] (by simp)
  have c1 : (averaged quietWorld.hash avgInfo [2, 3] 10 avgDB).length % p = 0 ↔ False := by
    rw [show (averaged quietWorld.hash avgInfo [2, 3] 10 avgDB).length = 1 by decide]
    norm_num [p]
  have c2 : (averaged quietWorld.hash avgInfo [7, 7] 10 avgDB).length % p = 0 ↔ True := by
    rw [show (averaged quietWorld.hash avgInfo [7, 7] 10 avgDB).length = 0 by decide]
    simp
  have z : seeAvg quietWorld avgDB avgInfo true ownAnswer False panics = fun _ => 0 := by
    funext k
    cases k with
    | ok k => rw [own_seen, if_neg (fun h => h.2)]
    | err m => rfl
    | crash m => rfl
  have a1 := C129_simulated quietWorld avgDB _ true true 0 0 (fun _ => 0) (fun _ => 0) ownAnswer panics exHash_length
    (quiet_setup true) (quiet_setup false) rfl avgInfo [2, 3] 10 hq ownAnswer_words panics_test
  have a2 := C129_simulated quietWorld avgDB _ true true 0 0 (fun _ => 0) (fun _ => 0) ownAnswer panics exHash_length
    (quiet_setup true) (quiet_setup false) rfl avgInfo [7, 7] 10 hq' ownAnswer_words panics_test
  have h := St quietWorld avgDB _ _ true true 0 0 (fun _ => 0) (fun _ => 0) ownAnswer panics exHash_length
    (quiet_setup true) (quiet_setup false) rfl avgInfo [2, 3] [7, 7] 10 hq hq' ownAnswer_words panics_test
  rw [own_gap [2, 3] (by simp), quiet_hitProb, propext c1, z] at a1
  rw [own_gap [7, 7] (by simp), quiet_hitProb, propext c2] at a2
  rw [own_gap [2, 3] (by simp), own_gap [7, 7] (by simp), quiet_hitProb, quiet_hitProb, propext c1, z, keyGap_zero, keyGap_zero] at h
  have v1 : avg (fun β : Fin 3 → Fin p => viewMean quietWorld.env (true == true)
      (([2, 3] : List Byte).drop (([2, 3] : List Byte).length - 2) |>.flatMap Utils.bits8) (shared β) (fun _ => 0)) = 0 := by
    unfold viewMean
    simp only [avg_zero]
  have v2 : avg (fun β : Fin 3 → Fin p => viewMean quietWorld.env (true == true)
      (([7, 7] : List Byte).drop (([7, 7] : List Byte).length - 2) |>.flatMap Utils.bits8) (shared β)
      (seeAvg quietWorld avgDB avgInfo true ownAnswer True panics)) = 1 := by
    have : ∀ (β : Fin 3 → Fin p) (s0 s1 : Fin 16 → Byte) (tb : Byte) (α : Fin p),
        seeAvg quietWorld avgDB avgInfo true ownAnswer True panics (received quietWorld.env (true == true)
          (([7, 7] : List Byte).drop (([7, 7] : List Byte).length - 2) |>.flatMap Utils.bits8) (shared β) s0 s1 tb α) = 1 := by
      intro β s0 s1 tb α
      obtain ⟨km, kh, hkm, hT, -⟩ := forgedRun_form (quiet_setup true) avgDB
        ⟨avgInfo, ([7, 7] : List Byte).drop (([7, 7] : List Byte).length - 2) |>.flatMap Utils.bits8⟩ true β α s0 s1 tb
      rw [hkm, own_seen, if_pos ⟨hT.okm, trivial⟩]
    unfold viewMean
    simp only [this, avg_const]
  rw [v1] at a1
  rw [v2] at a2
  have b1 := abs_le.1 a1
  have b2 := abs_le.1 a2
  have b3 := abs_le.1 h
  have small : 3456 / (p : ℚ) ^ 3 < 1 / 4 := by norm_num [p]
  have e2 : 3456 / (p : ℚ) ^ 3 = 1728 / (p : ℚ) ^ 3 + 1728 / (p : ℚ) ^ 3 := by ring
  have small' : (10 : ℚ) / 2 ^ 31 < 1 / 4 := by norm_num
  linarith [b1.1, b1.2, b2.1, b2.2, b3.1, b3.2]

/-! ### Concrete cases -/

/-- A server that replies with ten words made of the first byte of its seed. -/
def firstByteTen (m : Msg) : Res (List Byte) :=
  ok ((List.replicate 10 (0 : Byte)).flatMap (fun _ => [0, 0, 0, m.key.sInit.getD 0 0]))

theorem firstByteTen_wellFormed (m : Msg) (b : List Byte) (h : firstByteTen m = ok b) : WellFormedAvg b := by
  unfold firstByteTen at h
  simp only [ok.injEq] at h
  subst h
  refine ⟨_, Utils.byteSliceToUint32Slice_eq _, by simp, ?_⟩
  intro w hw
  rw [List.mem_map] at hw
  obtain ⟨i, hi, rfl⟩ := hw
  have hi5 : i < 10 := by simpa using hi
  have key : ∀ (x : Byte) (i : Nat), i < 10 →
      (Utils.word ((List.replicate 10 (0 : Byte)).flatMap (fun _ => [0, 0, 0, x])) i).toNat ≤ 255 := by
    intro x i hi
    have : i = 0 ∨ i = 1 ∨ i = 2 ∨ i = 3 ∨ i = 4 ∨ i = 5 ∨ i = 6 ∨ i = 7 ∨ i = 8 ∨ i = 9 := by omega
    rcases this with rfl | rfl | rfl | rfl | rfl | rfl | rfl | rfl | rfl | rfl <;> revert x <;> decide
  have := key (m.key.sInit.getD 0 0) i hi5
  rw [p_val]
  omega

/-- The query for the average age of the keys whose e-mail addresses end in the bytes 2, 4. -/
def avgQuery' : Query.ClientFSS := ⟨avgInfo, ([2, 4] : List Byte).flatMap Utils.bits8⟩

/-- Two queries that meet the hypotheses: each of them counts one key, not the same one. -/
example (D : Res Msg × Res Unit → ℚ) (hD : IsTest D) :
    |viewAvgProb (world parityCipher 5 10 10) avgDB avgQuery true true firstByteTen D
      - viewAvgProb (world parityCipher 5 10 10) avgDB avgQuery' true true firstByteTen D|
      ≤ keyGap parityCipher 0 true avgQuery.input
          (seeAvg (world parityCipher 5 10 10) avgDB avgInfo true firstByteTen False D)
        + keyGap parityCipher 0 true avgQuery'.input
          (seeAvg (world parityCipher 5 10 10) avgDB avgInfo true firstByteTen False D)
        + avgGap (settingOf (world parityCipher 5 10 10) avgDB avgQuery true true 0 (fun _ => 1)
            (isAged (honestNow (world parityCipher 5 10 10) true)))
          (settingOf (world parityCipher 5 10 10) avgDB avgQuery true true 0 (fun _ => 1)
            (ageOf (honestNow (world parityCipher 5 10 10) true))) (wordsOf avgQuery firstByteTen)
        + avgGap (settingOf (world parityCipher 5 10 10) avgDB avgQuery' true true 0 (fun _ => 1)
            (isAged (honestNow (world parityCipher 5 10 10) true)))
          (settingOf (world parityCipher 5 10 10) avgDB avgQuery' true true 0 (fun _ => 1)
            (ageOf (honestNow (world parityCipher 5 10 10) true))) (wordsOf avgQuery' firstByteTen)
        + 0 + 0 + 10 / 2 ^ 31 + 3456 / (p : ℚ) ^ 3 := by
  have hh : ∀ q, hitProb (world parityCipher 5 10 10) avgDB q = 0 := by
    intro q
    unfold hitProb runMean
    simp only [drawn_noHits, if_true, avg_zero]
  have l1 : (averaged (world parityCipher 5 10 10).hash avgInfo [2, 3] 10 avgDB).length = 1 := by decide
  have l2 : (averaged (world parityCipher 5 10 10).hash avgInfo [2, 4] 10 avgDB).length = 1 := by decide
  have h := C129_reaction_partial (world parityCipher 5 10 10) avgDB avgQuery avgQuery' true true 0 0 (fun _ => 1) (fun _ => 2)
    firstByteTen D exHash_length (world_setup _ parityCipher_block 10 10 true) (world_setup _ parityCipher_block 10 10 false) rfl
    avgInfo [2, 3] [2, 4] 10 (avgAsks 5 [2, 3] (by simp)) (avgAsks 5 [2, 4] (by simp)) firstByteTen_wellFormed hD
    (by rw [l1, l2])
  rw [hh, hh, l1, propext (show 1 % p = 0 ↔ False by norm_num [p])] at h
  exact h

example : (averaged exHash avgInfo [2, 3] 10 avgDB).map KeyInfo.email = [[1, 2, 3]] ∧
    (averaged exHash avgInfo [2, 4] 10 avgDB).map KeyInfo.email = [[9, 2, 4]] ∧
    averaged exHash avgInfo [7, 7] 10 avgDB = [] := ⟨by decide, by decide, List.eq_nil_of_length_eq_zero (by decide)⟩

/-- What the client makes of ten words that agree with the honest answer, and of ten that do not. -/
example : outcome (reconstruct 5 (clientState (fun _ => ⟨3, by norm_num [p]⟩) ⟨5, by norm_num [p]⟩)
      [[1, 1, 1, 1, 1, 10, 10, 10, 10, 10], [0, 2, 2, 2, 4, 0, 20, 20, 20, 40]]) = ok () ∧
    outcome (reconstruct 5 (clientState (fun _ => ⟨3, by norm_num [p]⟩) ⟨5, by norm_num [p]⟩)
      [[1, 1, 1, 1, 1, 10, 10, 10, 10, 10], [0, 2, 2, 2, 4, 1, 20, 20, 20, 40]]) = err "" ∧
    outcome (reconstruct 5 (clientState (fun _ => ⟨3, by norm_num [p]⟩) ⟨5, by norm_num [p]⟩)
      [[0, 0, 0, 0, 0, 0, 0, 0, 0, 0], [0, 0, 0, 0, 0, 0, 0, 0, 0, 0]]) = crash "" := by
  decide +kernel

end Verif.Forge
