import Verif.Lemmas.AnswerOrder
import Verif.Props.AverageLength
import Verif.Props.ReactionAverageLength
import Verif.Props.ClientStats

/-! # C158: one lying predicate server, with the answers arriving in either order -/

namespace Verif.Forge
open Res Verif.Field Verif.Field.Spec Verif.Fss Verif.Fss.Spec Verif.Privacy Verif.Predicate Verif.Predicate.Spec
  Verif.Reaction Verif.Forge.Spec Verif.Chance Finset
set_option linter.constructorNameAsVariable false

/-- C158: with the answer of server 0 first, what is bounded is what the other properties bound. -/
theorem C158_usual (W : World) (db : KeyDB) (q : Query.ClientFSS) (mal inOrder : Bool) (F : Msg → Res (List Byte))
    (Bad : Bool → Nat → Prop) (D : Res Msg × Res Unit → ℚ) :
    forgeProb W db q inOrder mal F (Bad (!mal)) ≤ arriveProb W db q inOrder mal F Bad ∧
    arriveViewProb W db q inOrder mal (fun _ => !mal) F D = viewProb W db q inOrder mal F D ∧
    arriveAvgProb W db q inOrder mal (fun _ => !mal) F D = viewAvgProb W db q inOrder mal F D := by
  refine ⟨?_, ?_, ?_⟩
  · refine runMean_mono ?_
    intro β α s0 s1 tb
    split
    · rename_i h
      obtain ⟨r, hr, hb⟩ := h
      rw [if_pos ⟨!mal, r, by rw [arrivedRun_usual]; exact hr, hb⟩]
    · split
      · exact zero_le_one
      · exact le_refl _
  · unfold arriveViewProb viewProb
    congr 1
    funext β α s0 s1 tb
    unfold arriveView view
    rw [arrivedRun_usual]
  · unfold arriveAvgProb viewAvgProb
    congr 1
    funext β α s0 s1 tb
    unfold arriveAvg viewAvg arriveView view
    rw [arrivedRun_usual]

/-- C158, counts: one of the two servers answers a count query as it likes and its answer arrives before or after the other,
whatever this depends on. The client returns a wrong number with the probability of C84 at most. -/
theorem C158_count (W : World) (db : KeyDB) (q : Query.ClientFSS) (mal inOrder : Bool) (e : U32) (fr : Nat → U32)
    (F : Msg → Res (List Byte)) (hh : ∀ t, (W.hash t).length = 32) (hS : Setup W mal e fr) (hdb : Loaded db)
    (mk : Int → Query.Time) (P : KeyInfo → Prop) (hq : Asks W.hash mk db q P) :
    arriveProb W db q inOrder mal F (fun _ n => n ≠ due inOrder (numMatching db P))
      ≤ forgeGap (settingOf W db q inOrder mal e fr (fun _ _ => 1)) (wordsOf q F) + 864 / (p : ℚ) ^ 3 := by
  obtain ⟨h1, h2, h3, h4, f, hsel, hlen, hP⟩ := asks_selectors hh hq
  have hf : ∀ ki ∈ db.keys, selOf W.hash q.info ki = f ki := fun ki hki => selOf_ok (hsel ki hki)
  have hsel' : ∀ ki ∈ db.keys, keyId W.hash q.info ki = ok (selOf W.hash q.info ki) :=
    fun ki hki => by rw [hf ki hki]; exact hsel ki hki
  have hlen' : ∀ ki ∈ db.keys, ∀ id, selOf W.hash q.info ki = some id → id.length = q.input.length :=
    fun ki hki id hid => hlen ki hki id (by rw [← hf ki hki]; exact hid)
  have hb := order_count_bound hS hdb h1 h2 h3 hsel' hlen' inOrder F
  have ht : (settingOf W db q inOrder mal e fr (fun _ _ => 1)).total = numMatching db P := by
    rw [setting_total hdb inOrder mal e fr (g := fun _ => 1) (fun _ _ _ => rfl) h4 hlen',
      ← numMatching_eq (f := selOf W.hash q.info) (a := q.input) (fun ki hki => by rw [hf ki hki]; exact hP ki hki),
      List.countP_eq_length_filter]
    simp
  rw [ht] at hb
  exact hb

/-- C158, averages: one of the two servers answers an average query as it likes, with any number of words. If its answer arrives
after the other, the client returns a number other than the average, and if it arrives first, a number other than the average and
the number of keys, with the probability of C155 at most. It is the order of arrival that matters, and not which server forges. -/
theorem C158_average (W : World) (db : KeyDB) (q : Query.ClientFSS) (mal inOrder : Bool) (e : U32)
    (fr : Nat → U32) (F : Msg → Res (List Byte)) (hh : ∀ t, (W.hash t).length = 32) (hS : Setup W mal e fr) (hdb : Loaded db)
    (i : Query.Info) (text : List Byte) (now : Int) (hq : AsksAvg W i text now db q) :
    arriveProb W db q inOrder mal F (fun early n => ¬ Acceptable early inOrder (totalAge now (averaged W.hash i text now db))
        (averaged W.hash i text now db).length n)
      ≤ eitherGap (settingOf W db q inOrder mal e fr (isAged (honestNow W mal)))
          (settingOf W db q inOrder mal e fr (ageOf (honestNow W mal))) (wordsOf q F) + 1728 / (p : ℚ) ^ 3 := by
  obtain ⟨rfl, -, hsel, hlen, hcount⟩ := asksAvg_selectors hh hdb hq
  have hb := order_either_bound hS hdb hq.avg hq.sum hq.and hsel hlen inOrder (fun j ki hki => by
    rw [show honestNow W mal j = now by
      cases mal
      · exact hq.clock1 j
      · exact hq.clock0 j]
    exact hq.ages ki hki) F
  rw [hcount, asksAvg_total hh hdb hq] at hb
  exact hb

theorem foreseeIn_unit (W : World) (db : KeyDB) (i : Query.Info) (mal : Bool) (early : Msg → Bool) (F : Msg → Res (List Byte))
    {D : Res Msg × Res Unit → ℚ} (hD : IsTest D) (k : Res Key) :
    0 ≤ foreseeIn W db i mal early F D k ∧ foreseeIn W db i mal early F D k ≤ 1 := by
  cases k with
  | ok k => exact hD _
  | err m => exact ⟨le_refl _, zero_le_one⟩
  | crash m => exact ⟨le_refl _, zero_le_one⟩

open Classical in
/-- C158, simulation of counts: as C154, with answers that arrive in either order. A server that answers a count query with any
number of words, none of the first five above 2^32 minus the modulus, can tell the client's reaction in advance: it compares the
words that the client reads with those it was asked for, and takes the number of words into account. The prediction fails at most
with the probability that the first tag fits a wrong number or that an honest run goes wrong. -/
theorem C158_count_simulated (W : World) (db : KeyDB) (q : Query.ClientFSS) (mal inOrder : Bool) (early : Msg → Bool) (e e' : U32) (fr fr' : Nat → U32)
    (F : Msg → Res (List Byte)) (D : Res Msg × Res Unit → ℚ) (hh : ∀ t, (W.hash t).length = 32) (hS : Setup W mal e fr)
    (hS' : Setup W (!mal) e' fr') (hdb : Loaded db) (mk : Int → Query.Time) (P : KeyInfo → Prop) (hq : Asks W.hash mk db q P)
    (hF : ∀ m b, F m = ok b → SmallStart b) (hD : IsTest D) :
    |arriveViewProb W db q inOrder mal early F D - avg (fun β : Fin 3 → Fin p =>
        viewMean W.env (mal == inOrder) q.input (shared β) (foreseeIn W db q.info mal early F D))|
      ≤ firstGap (settingOf W db q inOrder mal e fr (fun _ _ => 1)) (wordsOf q F) + 96 / (p : ℚ)
        + failProb W db q inOrder (due inOrder (numMatching db P)) := by
  obtain ⟨h1, h2, h3, h4, f, hsel, hlen, hP⟩ := asks_selectors hh hq
  have hf : ∀ ki ∈ db.keys, selOf W.hash q.info ki = f ki := fun ki hki => selOf_ok (hsel ki hki)
  have hsel' : ∀ ki ∈ db.keys, keyId W.hash q.info ki = ok (selOf W.hash q.info ki) :=
    fun ki hki => by rw [hf ki hki]; exact hsel ki hki
  have hlen' : ∀ ki ∈ db.keys, ∀ id, selOf W.hash q.info ki = some id → id.length = q.input.length :=
    fun ki hki id hid => hlen ki hki id (by rw [← hf ki hki]; exact hid)
  have ht : (settingOf W db q inOrder mal e fr (fun _ _ => 1)).total = numMatching db P := by
    rw [setting_total hdb inOrder mal e fr (g := fun _ => 1) (fun _ _ _ => rfl) h4 hlen',
      ← numMatching_eq (f := selOf W.hash q.info) (a := q.input) (fun ki hki => by rw [hf ki hki]; exact hP ki hki),
      List.countP_eq_length_filter]
    simp
  have m := testMean_le hS db q inOrder (fun _ _ => 1) (firstTest (settingOf W db q inOrder mal e fr (fun _ _ => 1)) (wordsOf q F))
    (firstTest_nonneg _ _) (firstTest_avg _ _)
  rw [show (16 : ℚ) * (6 / (p : ℚ)) = 96 / (p : ℚ) by ring] at m
  refine le_trans ?_ (add_le_add m (le_refl _))
  unfold failProb
  rw [← runMean_add]
  apply runMean_switch
  intro β α s0 s1 tb
  have u1 := hD (arriveView (drawn W β α s0 s1 tb) db q inOrder mal early F)
  have u2 := foreseeIn_unit W db q.info mal early F hD (received W.env (mal == inOrder) q.input (shared β) s0 s1 tb α)
  have u3 := firstTest_nonneg (settingOf W db q inOrder mal e fr (fun _ _ => 1)) (wordsOf q F)
    (received W.env (mal == inOrder) q.input (shared β) s0 s1 tb α) β α
  by_cases hg : (drawn W β α s0 s1 tb).run 5 db q inOrder = ok (BitVec.ofNat 32 (due inOrder (numMatching db P)))
  · rw [if_pos hg, add_zero]
    by_cases hb : firstTest (settingOf W db q inOrder mal e fr (fun _ _ => 1)) (wordsOf q F)
      (received W.env (mal == inOrder) q.input (shared β) s0 s1 tb α) β α = 0
    · rw [arriveView_foreseen hS hS' hdb h1 h2 h3 hsel' hlen' inOrder early F hF D β α s0 s1 tb (by rw [ht]; exact hg) hb, sub_self, abs_zero]
      exact u3
    · refine abs_unit u1 u2 ?_
      unfold firstTest at hb ⊢
      split at hb
      · split at hb
        · rename_i hc
          simp only [if_pos hc, le_refl]
        · exact absurd rfl hb
      · exact absurd rfl hb
  · rw [if_neg hg]
    exact abs_unit u1 u2 (le_add_of_nonneg_left u3)

/-- C158, privacy of counts: as C154, in either order of arrival. One of the two servers answers a count query with any number of
words, none of the first five above 2^32 minus the modulus, in whatever way these depend on its message, and notices how the
client ends: with a result, by rejecting or by a panic, and with which text. Message and ending look alike for two queries with
the same public part and predicates of the same length, up to: the advantages of explicit tests against the generator and the
derivation of values, the probabilities that honest runs of the two queries go wrong, 10/2^31 and 192 divided by the modulus. -/
theorem C158_count_reaction (W : World) (db : KeyDB) (q q' : Query.ClientFSS) (mal inOrder : Bool) (early : Msg → Bool) (e e' : U32) (fr fr' : Nat → U32)
    (F : Msg → Res (List Byte)) (D : Res Msg × Res Unit → ℚ) (hh : ∀ t, (W.hash t).length = 32) (hS : Setup W mal e fr)
    (hS' : Setup W (!mal) e' fr') (hdb : Loaded db) (mk : Int → Query.Time) (P P' : KeyInfo → Prop)
    (hq : Asks W.hash mk db q P) (hq' : Asks W.hash mk db q' P') (hinfo : q.info = q'.info)
    (hl : q.input.length = q'.input.length) (hF : ∀ m b, F m = ok b → SmallStart b) (hD : IsTest D) :
    |arriveViewProb W db q inOrder mal early F D - arriveViewProb W db q' inOrder mal early F D|
      ≤ keyGap W.env.E e (mal == inOrder) q.input (foreseeIn W db q.info mal early F D)
        + keyGap W.env.E e (mal == inOrder) q'.input (foreseeIn W db q.info mal early F D)
        + firstGap (settingOf W db q inOrder mal e fr (fun _ _ => 1)) (wordsOf q F)
        + firstGap (settingOf W db q' inOrder mal e fr (fun _ _ => 1)) (wordsOf q' F)
        + failProb W db q inOrder (due inOrder (numMatching db P))
        + failProb W db q' inOrder (due inOrder (numMatching db P'))
        + 10 / 2 ^ 31 + 192 / (p : ℚ) := by
  have a1 := C158_count_simulated W db q mal inOrder early e e' fr fr' F D hh hS hS' hdb mk P hq hF hD
  have a2 := C158_count_simulated W db q' mal inOrder early e e' fr fr' F D hh hS hS' hdb mk P' hq' hF hD
  rw [← hinfo] at a2
  have mid := keys_alike hS (mal == inOrder) hl (foreseeIn_unit W db q.info mal early F hD)
  have a2' := a2
  rw [abs_sub_comm] at a2'
  refine le_trans (close_trans (close_trans a1 mid) a2') (le_of_eq ?_)
  ring

theorem foreseeAvgIn_unit (W : World) (db : KeyDB) (i : Query.Info) (mal : Bool) (early : Msg → Bool) (F : Msg → Res (List Byte)) (nobody : Prop)
    {D : Res Msg × Res Unit → ℚ} (hD : IsTest D) (k : Res Key) :
    0 ≤ foreseeAvgIn W db i mal early F nobody D k ∧ foreseeAvgIn W db i mal early F nobody D k ≤ 1 := by
  cases k with
  | ok k => exact hD _
  | err m => exact ⟨le_refl _, zero_le_one⟩
  | crash m => exact ⟨le_refl _, zero_le_one⟩

/-- C158, simulation of averages: as C156, in either order of arrival. A server that answers an average query with any number of
words, none of the first ten above 2^32 minus the modulus, can tell whether the client ends with a result, an error or a panic
from its message and one bit of the database: whether the number of keys is a multiple of the modulus. It compares the words that
the client reads with those it was asked for, and takes the number of words into account. The prediction fails at most with the
probability that a first tag fits a wrong value or that a derived value equals the modulus. -/
theorem C158_average_simulated (W : World) (db : KeyDB) (q : Query.ClientFSS) (mal inOrder : Bool) (early : Msg → Bool) (e e' : U32) (fr fr' : Nat → U32)
    (F : Msg → Res (List Byte)) (D : Res Msg × Res Unit → ℚ) (hh : ∀ t, (W.hash t).length = 32) (hS : Setup W mal e fr)
    (hS' : Setup W (!mal) e' fr') (hdb : Loaded db) (i : Query.Info) (text : List Byte) (now : Int)
    (hq : AsksAvg W i text now db q) (hF : ∀ m b, F m = ok b → SmallTen b) (hD : IsTest D) :
    |arriveAvgProb W db q inOrder mal early F D - avg (fun β : Fin 3 → Fin p => viewMean W.env (mal == inOrder) q.input (shared β)
        (foreseeAvgIn W db i mal early F ((averaged W.hash i text now db).length % p = 0) D))|
      ≤ firstEitherGap (settingOf W db q inOrder mal e fr (isAged (honestNow W mal)))
          (settingOf W db q inOrder mal e fr (ageOf (honestNow W mal))) (wordsOf q F) + 192 / (p : ℚ)
        + hitProb W db q := by
  obtain ⟨rfl, -, hsel, hlen, htot⟩ := asksAvg_selectors hh hdb hq
  have hnow : ∀ m j, honestNow W m j = now := by
    intro m j
    cases m
    · exact hq.clock1 j
    · exact hq.clock0 j
  have m := testMean_le hS db q inOrder (isAged (honestNow W mal))
    (firstEither (settingOf W db q inOrder mal e fr (isAged (honestNow W mal)))
      (settingOf W db q inOrder mal e fr (ageOf (honestNow W mal))) (wordsOf q F)) (firstEither_nonneg _ _ _)
      (firstEither_avg _ _ _)
  rw [show (16 : ℚ) * (12 / (p : ℚ)) = 192 / (p : ℚ) by ring] at m
  refine le_trans ?_ (add_le_add m (le_refl _))
  unfold hitProb
  rw [← runMean_add]
  apply runMean_switch
  intro β α s0 s1 tb
  have n0 := firstEither_nonneg (settingOf W db q inOrder mal e fr (isAged (honestNow W mal)))
    (settingOf W db q inOrder mal e fr (ageOf (honestNow W mal))) (wordsOf q F)
    (received W.env (mal == inOrder) q.input (shared β) s0 s1 tb α) β α
  by_cases hno : NoHits (drawn W β α s0 s1 tb) 5 db q
  · rw [if_pos hno, add_zero]
    have h := arriveAvg_foreseen hS hS' hdb hq.avg hq.sum hq.and hnow hq.ages hsel hlen inOrder early F hF hD β α s0 s1 tb hno
    rwa [htot] at h
  · rw [if_neg hno]
    exact abs_unit (hD _) (foreseeAvgIn_unit W db q.info mal early F _ hD _) (le_add_of_nonneg_left n0)

/-- C158, privacy of averages: as C156, in either order of arrival. One of the two servers answers an average query with any
number of words, none of the first ten above 2^32 minus the modulus, in whatever way these depend on its message, and notices how
the client ends. Message and end look alike for two queries with the same public part that are both about no keys or both about
some (modulo the modulus), up to: the advantages of explicit tests against the generator and the derivation of values, the
probabilities that a derived value equals the modulus, 10/2^31 and 384 divided by the modulus. -/
theorem C158_average_reaction (W : World) (db : KeyDB) (q q' : Query.ClientFSS) (mal inOrder : Bool) (early : Msg → Bool) (e e' : U32)
    (fr fr' : Nat → U32) (F : Msg → Res (List Byte)) (D : Res Msg × Res Unit → ℚ) (hh : ∀ t, (W.hash t).length = 32)
    (hS : Setup W mal e fr) (hS' : Setup W (!mal) e' fr') (hdb : Loaded db) (i : Query.Info) (text text' : List Byte) (now : Int)
    (hq : AsksAvg W i text now db q) (hq' : AsksAvg W i text' now db q') (hF : ∀ m b, F m = ok b → SmallTen b)
    (hD : IsTest D)
    (hz : (averaged W.hash i text now db).length % p = 0 ↔ (averaged W.hash i text' now db).length % p = 0) :
    |arriveAvgProb W db q inOrder mal early F D - arriveAvgProb W db q' inOrder mal early F D|
      ≤ keyGap W.env.E e (mal == inOrder) q.input
          (foreseeAvgIn W db i mal early F ((averaged W.hash i text now db).length % p = 0) D)
        + keyGap W.env.E e (mal == inOrder) q'.input
          (foreseeAvgIn W db i mal early F ((averaged W.hash i text now db).length % p = 0) D)
        + firstEitherGap (settingOf W db q inOrder mal e fr (isAged (honestNow W mal)))
          (settingOf W db q inOrder mal e fr (ageOf (honestNow W mal))) (wordsOf q F)
        + firstEitherGap (settingOf W db q' inOrder mal e fr (isAged (honestNow W mal)))
          (settingOf W db q' inOrder mal e fr (ageOf (honestNow W mal))) (wordsOf q' F)
        + hitProb W db q + hitProb W db q' + 10 / 2 ^ 31 + 384 / (p : ℚ) := by
  have a1 := C158_average_simulated W db q mal inOrder early e e' fr fr' F D hh hS hS' hdb i text now hq hF hD
  have a2 := C158_average_simulated W db q' mal inOrder early e e' fr fr' F D hh hS hS' hdb i text' now hq' hF hD
  rw [← propext hz] at a2
  have hl : q.input.length = q'.input.length := by
    rw [(asksAvg_selectors hh hdb hq).2.1, (asksAvg_selectors hh hdb hq').2.1]
  have mid := keys_alike hS (mal == inOrder) hl
    (foreseeAvgIn_unit W db i mal early F ((averaged W.hash i text now db).length % p = 0) hD)
  rw [abs_sub_comm] at a2
  refine le_trans (close_trans (close_trans a1 mid) a2) (le_of_eq ?_)
  ring

/-- A server 1 that sends the first half of its honest answer. -/
def secondHalved (W : World) (db : KeyDB) (m : Msg) : Res (List Byte) := do
  let b ← W.serve 1 5 db m
  ok (b.take 20)

/-- C158: the order of arrival of the same answers decides. The only key asked for is ten years old; server 1 sends half an answer. If
it arrives first, the client returns 1, the number of keys, as their average age; otherwise it panics. -/
theorem C158_order_decides :
    arrivedRun (world parityCipher 5 10 10) avgDB avgQuery true true (fun _ => true)
      (secondHalved (world parityCipher 5 10 10) avgDB) = ok 1 ∧
    arrivedRun (world parityCipher 5 10 10) avgDB avgQuery true true (fun _ => false)
      (secondHalved (world parityCipher 5 10 10) avgDB) = crash "index out of range" ∧
    (world parityCipher 5 10 10).run 5 avgDB avgQuery true = ok 10 := by
  refine ⟨?_, ?_, ?_⟩ <;> decide +kernel

/-! ### Concrete cases -/

/-- A case that meets the hypotheses of `C158_average`: server 1 halves its answers. -/
example : arriveProb (world parityCipher 5 10 10) avgDB avgQuery true true (secondHalved (world parityCipher 5 10 10) avgDB)
      (fun early n => ¬ (n = 10 ∨ (early = true ∧ n = 1)))
    ≤ eitherGap (settingOf (world parityCipher 5 10 10) avgDB avgQuery true true 0 (fun _ => 1) (isAged fun _ => 10))
        (settingOf (world parityCipher 5 10 10) avgDB avgQuery true true 0 (fun _ => 1) (ageOf fun _ => 10))
        (wordsOf avgQuery (secondHalved (world parityCipher 5 10 10) avgDB)) + 1728 / (p : ℚ) ^ 3 := by
  have h := C158_average (world parityCipher 5 10 10) avgDB avgQuery true true 0 (fun _ => 1)
    (secondHalved (world parityCipher 5 10 10) avgDB) exHash_length (world_setup _ parityCipher_block 10 10 true) rfl
    avgInfo [2, 3] 10 (avgAsks 5 [2, 3] (by simp))
  rwa [show (fun early n => ¬ Acceptable early true
    (totalAge 10 (averaged (world parityCipher 5 10 10).hash avgInfo [2, 3] 10 avgDB))
    (averaged (world parityCipher 5 10 10).hash avgInfo [2, 3] 10 avgDB).length n)
      = fun early n => ¬ (n = 10 ∨ (early = true ∧ n = 1)) from ?_] at h
  have hlen : (averaged (world parityCipher 5 10 10).hash avgInfo [2, 3] 10 avgDB).length = 1 := by
    show (averaged exHash avgInfo [2, 3] 10 avgDB).length = 1
    decide
  have htot : totalAge 10 (averaged (world parityCipher 5 10 10).hash avgInfo [2, 3] 10 avgDB) = 10 := by
    show totalAge 10 (averaged exHash avgInfo [2, 3] 10 avgDB) = 10
    decide
  funext early n
  rw [hlen, htot]
  norm_num [Acceptable, MeanOf, due, p]

/-- A case that meets the hypotheses of `C158_count`: server 1 replies with a byte of its message. -/
example : arriveProb (world parityCipher 5 10 10) exDB exQuery true true (fun m => ok (List.replicate 20 (m.key.tInit)))
      (fun _ n => n ≠ 2)
    ≤ forgeGap (settingOf (world parityCipher 5 10 10) exDB exQuery true true 0 (fun _ => 1) (fun _ _ => 1))
        (wordsOf exQuery (fun m => ok (List.replicate 20 (m.key.tInit)))) + 864 / (p : ℚ) ^ 3 := by
  have h := C158_count (world parityCipher 5 10 10) exDB exQuery true true 0 (fun _ => 1)
    (fun m => ok (List.replicate 20 (m.key.tInit))) exHash_length
    (world_setup _ parityCipher_block 10 10 true) rfl Query.dayTime _ (exQuery_asks _ _)
  have hn : due true (numMatching exDB (fun ki => ki.algo.toNat = 1)) = 2 := by
    rw [exDB_count]
    decide
  rwa [hn] at h

/-- Two counts that meet the hypotheses of `C158_count_reaction`; server 1 hurries if its seed begins with an even byte. -/
example (D : Res Msg × Res Unit → ℚ) (hD : IsTest D) :
    |arriveViewProb (world parityCipher 5 10 10) exDB exQuery true true (fun m => (m.key.sInit.getD 0 0).toNat % 2 == 0) manyWords D
      - arriveViewProb (world parityCipher 5 10 10) exDB dsaQuery true true (fun m => (m.key.sInit.getD 0 0).toNat % 2 == 0)
        manyWords D|
      ≤ keyGap parityCipher 0 true exQuery.input (foreseeIn (world parityCipher 5 10 10) exDB exQuery.info true
          (fun m => (m.key.sInit.getD 0 0).toNat % 2 == 0) manyWords D)
        + keyGap parityCipher 0 true dsaQuery.input (foreseeIn (world parityCipher 5 10 10) exDB exQuery.info true
          (fun m => (m.key.sInit.getD 0 0).toNat % 2 == 0) manyWords D)
        + firstGap (settingOf (world parityCipher 5 10 10) exDB exQuery true true 0 (fun _ => 1) (fun _ _ => 1))
            (wordsOf exQuery manyWords)
        + firstGap (settingOf (world parityCipher 5 10 10) exDB dsaQuery true true 0 (fun _ => 1) (fun _ _ => 1))
            (wordsOf dsaQuery manyWords)
        + 0 + 0 + 10 / 2 ^ 31 + 192 / (p : ℚ) := by
  have h := C158_count_reaction (world parityCipher 5 10 10) exDB exQuery dsaQuery true true
    (fun m => (m.key.sInit.getD 0 0).toNat % 2 == 0) 0 0 (fun _ => 1) (fun _ => 2) manyWords D
    exHash_length (world_setup _ parityCipher_block 10 10 true) (world_setup _ parityCipher_block 10 10 false) rfl
    Query.dayTime _ _ (exQuery_asks _ _) (dsaQuery_asks _ _) rfl rfl manyWords_small hD
  rw [C92_honest_runs _ exDB exQuery true exHash_length rfl Query.dayTime _ (exQuery_asks _ _) drawn_ready
      (fun β α s0 s1 tb => drawn_noHits β α s0 s1 tb _ _),
    C92_honest_runs _ exDB dsaQuery true exHash_length rfl Query.dayTime _ (dsaQuery_asks _ _) drawn_ready
      (fun β α s0 s1 tb => drawn_noHits β α s0 s1 tb _ _)] at h
  exact h

/-- Two averages that meet the hypotheses of `C158_average_reaction`, with the answer of server 1 first. -/
example (D : Res Msg × Res Unit → ℚ) (hD : IsTest D) :
    |arriveAvgProb quietWorld avgDB avgQuery true true (fun _ => true) manyWords D
      - arriveAvgProb quietWorld avgDB avgQuery' true true (fun _ => true) manyWords D|
      ≤ keyGap parityCipher 0 true avgQuery.input (foreseeAvgIn quietWorld avgDB avgInfo true (fun _ => true) manyWords
          ((averaged exHash avgInfo [2, 3] 10 avgDB).length % p = 0) D)
        + keyGap parityCipher 0 true avgQuery'.input (foreseeAvgIn quietWorld avgDB avgInfo true (fun _ => true) manyWords
          ((averaged exHash avgInfo [2, 3] 10 avgDB).length % p = 0) D)
        + firstEitherGap (settingOf quietWorld avgDB avgQuery true true 0 (fun _ => 0) (isAged (honestNow quietWorld true)))
          (settingOf quietWorld avgDB avgQuery true true 0 (fun _ => 0) (ageOf (honestNow quietWorld true)))
          (wordsOf avgQuery manyWords)
        + firstEitherGap (settingOf quietWorld avgDB avgQuery' true true 0 (fun _ => 0) (isAged (honestNow quietWorld true)))
          (settingOf quietWorld avgDB avgQuery' true true 0 (fun _ => 0) (ageOf (honestNow quietWorld true)))
          (wordsOf avgQuery' manyWords)
        + 0 + 0 + 10 / 2 ^ 31 + 384 / (p : ℚ) := by
  have l1 : (averaged quietWorld.hash avgInfo [2, 3] 10 avgDB).length = 1 := by decide
  have l2 : (averaged quietWorld.hash avgInfo [2, 4] 10 avgDB).length = 1 := by decide
  have h := C158_average_reaction quietWorld avgDB avgQuery avgQuery' true true (fun _ => true) 0 0 (fun _ => 0) (fun _ => 0)
    manyWords D exHash_length (quiet_setup true) (quiet_setup false) rfl avgInfo [2, 3] [2, 4] 10 (quiet_asks _ (by simp))
    (quiet_asks _ (by simp)) (fun m b h j _ => manyWords_at m b h j) hD (by rw [l1, l2])
  rw [quiet_hitProb, quiet_hitProb] at h
  exact h

end Verif.Forge

namespace Verif.Client.Spec
open Res Verif.Cmd Verif.Predicate

/-- The two addresses are those of predicate servers number 0 and 1, of which one is honest and the other (server 1 if `mal` holds)
answers by `F`. They say the same about the database. -/
structure LiarAmong (net : Net) (W : World) (gob : Msg → List Byte) (db : KeyDB) (info : DbInfo) (a0 a1 : String) (mal : Bool)
    (F : Msg → Res (List Byte)) : Prop where
  info0 : net.info a0 = ok info
  info1 : net.info a1 = ok info
  answer0 : ∀ m, net.answer a0 (gob m) = if mal then W.serve 0 5 db m else F m
  answer1 : ∀ m, net.answer a1 (gob m) = if mal then F m else W.serve 1 5 db m

end Verif.Client.Spec

namespace Verif.Client
open Res Verif.Cmd Verif.Field Verif.Field.Spec Verif.Query Verif.Client.Spec Verif.Predicate Verif.Predicate.Spec Verif.Forge
  Verif.Forge.Spec

theorem orFatal_some {α : Type _} {r : Res α} {a : α} (h : orFatal r = ok a) : r = ok a := by
  cases r <;> simp_all [orFatal]

/-- C158: what the interactive client and the web front end make of one lying server is a run in one of the orders of arrival. -/
theorem C158_program {net : Net} {S : Schedule} (hS : Fair S) {W : World} {gob : Msg → List Byte} {db : KeyDB} {info : DbInfo}
    {a0 a1 : String} {mal : Bool} {F : Msg → Res (List Byte)} (hnet : LiarAmong net W gob db info a0 a1 mal F) {q : ClientFSS}
    {r : U32} (h : executeStatsQuery W gob net S [a0, a1] q = ok r) :
    ∃ early, arrivedRun W db q true mal (fun _ => early) F = ok r := by
  unfold executeStatsQuery at h
  have hg : gatherInfos net S [a0, a1] = ok (List.replicate 2 info) :=
    gather_eq hS (i := info) (servers := [a0, a1]) (by
      intro a ha
      simp only [List.mem_cons, List.not_mem_nil, or_false] at ha
      rcases ha with rfl | rfl
      · exact hnet.info0
      · exact hnet.info1)
  rw [hg, ok_bind, getDBInfos_replicate (by decide), ok_bind,
    show idx (List.replicate 2 info) 0 = ok info from rfl, ok_bind, List.length_replicate] at h
  unfold complexResult at h
  simp only [bind_eq_ok] at h
  obtain ⟨⟨ms, st, rnd, buf⟩, hq, as, has, hrec⟩ := h
  have hms : ∃ x y : Msg, ms = [x, y] := by
    have hq' := hq
    unfold Predicate.query at hq'
    rw [if_neg (by decide)] at hq'
    simp only [bind_eq_ok] at hq'
    obtain ⟨⟨st', rnd'⟩, -, ⟨k0, k1, buf'⟩, -, hq'⟩ := hq'
    simp only [ok.injEq, Prod.mk.injEq] at hq'
    exact ⟨_, _, hq'.1.symm⟩
  obtain ⟨x, y, rfl⟩ := hms
  unfold runQueriesActor at has
  rw [sends_eq _ _ (by simp), ok_bind] at has
  simp only [List.map_cons, List.map_nil, List.zip_cons_cons, List.zip_nil_right, List.mapM_cons, List.mapM_nil, bind_eq_ok,
    pure_eq] at has
  obtain ⟨l, ⟨u, hu, t, ⟨v, hv, t', ht', ht⟩, hl⟩, has⟩ := has
  cases ht'
  cases ht
  cases hl
  cases has
  have hu := orFatal_some hu
  have hv := orFatal_some hv
  rw [hnet.answer0] at hu
  rw [hnet.answer1] at hv
  have hq2 : Predicate.query W.env W.fuel 5 W.rnd W.buf W.r1 W.r2 q 2 = ok ([x, y], st, rnd, buf) := hq
  have hrun : ∀ early, arrivedRun W db q true mal (fun _ => early) F
      = reconstructBytes 5 st (if mal = early then [v, u] else [u, v]) := by
    intro early
    unfold arrivedRun
    rw [hq2]
    simp only [ok_bind, if_true]
    rw [show idx [x, y] 0 = ok x from rfl, show idx [x, y] 1 = ok y from rfl]
    simp only [ok_bind]
    cases mal
    · simp only [Bool.false_eq_true, if_false] at hu hv ⊢
      rw [hu, ok_bind, hv, ok_bind]
    · simp only [if_true] at hu hv ⊢
      rw [hu, ok_bind, hv, ok_bind]
  rcases perm_pair (hS.answers [u, v]) with e | e
  · refine ⟨!mal, ?_⟩
    rw [hrun, if_neg (by cases mal <;> simp)]
    rw [e] at hrec
    exact hrec
  · refine ⟨mal, ?_⟩
    rw [hrun, if_pos rfl]
    rw [e] at hrec
    exact hrec

open Classical in
/-- C158, the programs: the interactive client or the web front end asks for a count, one of the two servers answers as it likes, and
the answers arrive in any order. The number shown is wrong with the probability of C84 at most. -/
theorem C158_shown_count (W : World) (db : KeyDB) (q : ClientFSS) (mal : Bool) (e : U32) (fr : Nat → U32)
    (F : Msg → Res (List Byte)) (hh : ∀ t, (W.hash t).length = 32) (hS : Setup W mal e fr) (hdb : Loaded db)
    (mk : Int → Query.Time) (P : KeyInfo → Prop) (hq : Asks W.hash mk db q P) (net : Net) (S : Schedule) (hF : Fair S)
    (gob : Msg → List Byte) (info : DbInfo) (a0 a1 : String) (hnet : LiarAmong net W gob db info a0 a1 mal F) :
    runMean (fun β α s0 s1 tb =>
        if ∃ r, executeStatsQuery (drawn W β α s0 s1 tb) gob net S [a0, a1] q = ok r ∧ r.toNat ≠ numMatching db P % p then 1 else 0)
      ≤ forgeGap (settingOf W db q true mal e fr (fun _ _ => 1)) (wordsOf q F) + 864 / (p : ℚ) ^ 3 := by
  refine le_trans (runMean_mono ?_) (C158_count W db q mal true e fr F hh hS hdb mk P hq)
  intro β α s0 s1 tb
  split
  · rename_i h
    obtain ⟨r, hr, hb⟩ := h
    obtain ⟨early, he⟩ := C158_program (W := drawn W β α s0 s1 tb) hF
      (mal := mal) (F := F) ⟨hnet.info0, hnet.info1, hnet.answer0, hnet.answer1⟩ hr
    rw [if_pos ⟨early, r, he, hb⟩]
  · split
    · exact zero_le_one
    · exact le_refl _

open Classical in
/-- C158, the programs: as above for averages. The number shown is the average, or the number of keys, up to the probability of
C155. -/
theorem C158_shown_average (W : World) (db : KeyDB) (q : ClientFSS) (mal : Bool) (e : U32) (fr : Nat → U32)
    (F : Msg → Res (List Byte)) (hh : ∀ t, (W.hash t).length = 32) (hS : Setup W mal e fr) (hdb : Loaded db)
    (i : Query.Info) (text : List Byte) (now : Int) (hq : AsksAvg W i text now db q) (net : Net) (S : Schedule) (hF : Fair S)
    (gob : Msg → List Byte) (info : DbInfo) (a0 a1 : String) (hnet : LiarAmong net W gob db info a0 a1 mal F) :
    runMean (fun β α s0 s1 tb =>
        if ∃ r, executeStatsQuery (drawn W β α s0 s1 tb) gob net S [a0, a1] q = ok r ∧
          ¬ (MeanOf true (totalAge now (averaged W.hash i text now db)) (averaged W.hash i text now db).length r.toNat ∨
            r.toNat = (averaged W.hash i text now db).length % p) then 1 else 0)
      ≤ eitherGap (settingOf W db q true mal e fr (isAged (honestNow W mal)))
          (settingOf W db q true mal e fr (ageOf (honestNow W mal))) (wordsOf q F) + 1728 / (p : ℚ) ^ 3 := by
  refine le_trans (runMean_mono ?_) (C158_average W db q mal true e fr F hh hS hdb i text now hq)
  intro β α s0 s1 tb
  split
  · rename_i h
    obtain ⟨r, hr, hb⟩ := h
    obtain ⟨early, he⟩ := C158_program (W := drawn W β α s0 s1 tb) hF
      (mal := mal) (F := F) ⟨hnet.info0, hnet.info1, hnet.answer0, hnet.answer1⟩ hr
    rw [if_pos ⟨early, r, he, fun ha => hb (ha.imp id (fun h => h.2))⟩]
  · split
    · exact zero_le_one
    · exact le_refl _

/-! ### A concrete case -/

/-- The reply from an address. -/
def replyAt (W : World) (db : KeyDB) (F : Msg → Res (List Byte)) (a : String) (m : Msg) : Res (List Byte) :=
  if a = "a" then W.serve 0 5 db m else F m

/-- Two predicate servers at the addresses "a" and "b", of which the second answers by `F`. -/
noncomputable def secondLies (W : World) (db : KeyDB) (F : Msg → Res (List Byte)) : Net where
  dial := fun _ => ok ()
  info := fun _ => ok ⟨1, db.numColumns, 0, "", [], 0⟩
  answer := fun a bs =>
    haveI := Classical.propDecidable
    if h : ∃ m, exGob m = bs then replyAt W db F a h.choose else err "gob"

theorem secondLies_among (W : World) (db : KeyDB) (F : Msg → Res (List Byte)) :
    LiarAmong (secondLies W db F) W exGob db ⟨1, db.numColumns, 0, "", [], 0⟩ "a" "b" true F := by
  have key : ∀ (a : String) (m : Msg), (secondLies W db F).answer a (exGob m) = replyAt W db F a m := by
    intro a m
    have h : ∃ m', exGob m' = exGob m := ⟨m, rfl⟩
    unfold secondLies
    dsimp only
    rw [dif_pos h, exGob_injective h.choose_spec]
  refine ⟨rfl, rfl, fun m => ?_, fun m => ?_⟩
  · rw [key]; rfl
  · rw [key]; rfl

/-- The answers arrive in the other order. -/
def overtaking : Schedule := ⟨id, id, List.reverse⟩

theorem overtaking_fair : Fair overtaking :=
  ⟨fun _ => List.Perm.refl _, fun _ => List.Perm.refl _, fun l => List.reverse_perm l⟩

open Classical in
/-- A case that meets the hypotheses: server 1 halves its answers, and these overtake those of server 0. -/
example : runMean (fun β α s0 s1 tb =>
      if ∃ r, executeStatsQuery (drawn (world Fss.parityCipher 5 10 10) β α s0 s1 tb) exGob
          (secondLies (world Fss.parityCipher 5 10 10) avgDB (secondHalved (world Fss.parityCipher 5 10 10) avgDB))
          overtaking ["a", "b"] avgQuery = ok r ∧
        ¬ (MeanOf true (totalAge 10 (averaged exHash avgInfo [2, 3] 10 avgDB)) (averaged exHash avgInfo [2, 3] 10 avgDB).length
          r.toNat ∨ r.toNat = (averaged exHash avgInfo [2, 3] 10 avgDB).length % p) then 1 else 0)
    ≤ eitherGap (settingOf (world Fss.parityCipher 5 10 10) avgDB avgQuery true true 0 (fun _ => 1) (isAged fun _ => 10))
        (settingOf (world Fss.parityCipher 5 10 10) avgDB avgQuery true true 0 (fun _ => 1) (ageOf fun _ => 10))
        (wordsOf avgQuery (secondHalved (world Fss.parityCipher 5 10 10) avgDB)) + 1728 / (p : ℚ) ^ 3 :=
  C158_shown_average (world Fss.parityCipher 5 10 10) avgDB avgQuery true 0 (fun _ => 1)
    (secondHalved (world Fss.parityCipher 5 10 10) avgDB) exHash_length (world_setup _ Fss.parityCipher_block 10 10 true) rfl
    avgInfo [2, 3] 10 (avgAsks 5 [2, 3] (by simp)) _ overtaking overtaking_fair exGob _ "a" "b" (secondLies_among _ _ _)

end Verif.Client
