import Verif.Lemmas.AverageLength
import Verif.Props.CountStream

/-! # C155: what a forging server of an average query can have accepted, whatever it sends -/

namespace Verif.Forge
open Res Verif.Field Verif.Field.Spec Verif.Fss Verif.Fss.Spec Verif.Privacy Verif.Predicate Verif.Predicate.Spec
  Verif.Forge.Spec Finset
set_option linter.constructorNameAsVariable false

/-- The sum of the ages that a query for an average is about. -/
theorem asksAvg_total {W : World} {i : Query.Info} {text : List Byte} {now : Int} {db : KeyDB} {q : Query.ClientFSS}
    (hh : ∀ t, (W.hash t).length = 32) (hdb : Loaded db) (hq : AsksAvg W i text now db q) (inOrder mal : Bool) (e : U32)
    (fr : Nat → U32) : (settingOf W db q inOrder mal e fr (ageOf (honestNow W mal))).total
      = totalAge now (averaged W.hash i text now db) := by
  have hbuilt := hq.built
  unfold Query.toEmailClientFSS at hbuilt
  rw [idForEmail_sel hh hq.valid] at hbuilt
  obtain ⟨id, hid⟩ := emailSel_valid (hash := W.hash) hq.valid
  simp only [ok_bind, hid, ok.injEq, Query.orNil, Option.getD_some] at hbuilt
  subst hbuilt
  obtain ⟨-, hl, hsel, hlen', -⟩ := asksAvg_selectors hh hdb hq
  have hf : ∀ ki ∈ db.keys, selOf W.hash i ki = emailSel W.hash i ki.email := by
    intro ki _
    apply selOf_ok
    simp only [keyId, hq.and, hq.avg, Bool.not_true, Bool.and_false, Bool.false_eq_true, if_false, if_true]
    exact idForEmail_sel hh hq.valid ki.email
  have hnow : ∀ j, honestNow W mal j = now := by
    intro j
    cases mal
    · exact hq.clock1 j
    · exact hq.clock0 j
  have hfil : db.keys.filter (fun ki => decide (selOf W.hash i ki = some id))
      = db.keys.filter (fun ki => decide (EmailMatches W.hash i text ki.email)) := by
    apply List.filter_congr
    intro ki hki
    rw [hf ki hki, ← hid]
    simp only [emailSel_eq hq.valid]
  have hav : averaged W.hash i text now db
      = (db.keys.filter (fun ki => decide (EmailMatches W.hash i text ki.email))).filter
          (fun ki => decide (ki.creation.year ≤ now)) := by
    unfold averaged
    rw [List.filter_filter]
    apply List.filter_congr
    intro ki _
    rw [Bool.decide_and, Bool.and_comm]
  rw [setting_total hdb inOrder mal e fr (g := fun ki => (now - ki.creation.year).toNat)
    (fun j ki _ => by unfold ageOf; rw [hnow]) (by rw [hl]; exact hq.bits) hlen', hav, hfil]
  unfold totalAge
  generalize db.keys.filter (fun ki => decide (EmailMatches W.hash i text ki.email)) = l
  induction l with
  | nil => rfl
  | cons ki l ih =>
    rw [List.map_cons, List.sum_cons, ih]
    by_cases h : ki.creation.year ≤ now
    · rw [List.filter_cons_of_pos (by simpa using h), List.map_cons, List.sum_cons]
    · rw [List.filter_cons_of_neg (by simpa using h)]
      omega

/-- C155: one of the two servers answers an average query as it likes, with any number of words. The client returns a number
other than the average, or the number of keys if it is server 0 that forges, with a probability of at most 1728 divided by the
cube of the modulus, plus the advantage of explicit tests against the generator and the derivation of values. -/
theorem C155_permitted (W : World) (db : KeyDB) (q : Query.ClientFSS) (mal inOrder : Bool) (e : U32)
    (fr : Nat → U32) (F : Msg → Res (List Byte)) (hh : ∀ t, (W.hash t).length = 32) (hS : Setup W mal e fr) (hdb : Loaded db)
    (i : Query.Info) (text : List Byte) (now : Int) (hq : AsksAvg W i text now db q) :
    forgeProb W db q inOrder mal F (fun n => ¬ Permitted mal inOrder (totalAge now (averaged W.hash i text now db))
        (averaged W.hash i text now db).length n)
      ≤ eitherGap (settingOf W db q inOrder mal e fr (isAged (honestNow W mal)))
          (settingOf W db q inOrder mal e fr (ageOf (honestNow W mal))) (wordsOf q F) + 1728 / (p : ℚ) ^ 3 := by
  obtain ⟨rfl, -, hsel, hlen, hcount⟩ := asksAvg_selectors hh hdb hq
  have hb := either_bound hS hdb hq.avg hq.sum hq.and hsel hlen inOrder (fun j ki hki => by
    rw [show honestNow W mal j = now by
      cases mal
      · exact hq.clock1 j
      · exact hq.clock0 j]
    exact hq.ages ki hki) F
  rw [hcount, asksAvg_total hh hdb hq] at hb
  exact hb

/-- C155: when the query is about no keys, server 1 cannot have any number accepted for their average. -/
theorem C155_nobody (W : World) (db : KeyDB) (q : Query.ClientFSS) (inOrder : Bool) (e : U32)
    (fr : Nat → U32) (F : Msg → Res (List Byte)) (hh : ∀ t, (W.hash t).length = 32) (hS : Setup W true e fr) (hdb : Loaded db)
    (i : Query.Info) (text : List Byte) (now : Int) (hq : AsksAvg W i text now db q) (hn : averaged W.hash i text now db = []) :
    forgeProb W db q inOrder true F (fun _ => True)
      ≤ eitherGap (settingOf W db q inOrder true e fr (isAged (honestNow W true)))
          (settingOf W db q inOrder true e fr (ageOf (honestNow W true))) (wordsOf q F) + 1728 / (p : ℚ) ^ 3 := by
  have h := C155_permitted W db q true inOrder e fr F hh hS hdb i text now hq
  rw [hn] at h
  rwa [show (fun n => ¬ Permitted true inOrder (totalAge now []) ([] : List KeyInfo).length n) = fun _ => True from ?_] at h
  funext n
  simp only [eq_iff_iff, iff_true]
  rintro (⟨h, -⟩ | ⟨h, -⟩)
  · exact h ((due_zero inOrder _).2 rfl)
  · cases h

/-- C155: when the query is about no keys, server 0 can have no other number than zero accepted. -/
theorem C155_nobody_first (W : World) (db : KeyDB) (q : Query.ClientFSS) (inOrder : Bool) (e : U32)
    (fr : Nat → U32) (F : Msg → Res (List Byte)) (hh : ∀ t, (W.hash t).length = 32) (hS : Setup W false e fr) (hdb : Loaded db)
    (i : Query.Info) (text : List Byte) (now : Int) (hq : AsksAvg W i text now db q) (hn : averaged W.hash i text now db = []) :
    forgeProb W db q inOrder false F (fun n => n ≠ 0)
      ≤ eitherGap (settingOf W db q inOrder false e fr (isAged (honestNow W false)))
          (settingOf W db q inOrder false e fr (ageOf (honestNow W false))) (wordsOf q F) + 1728 / (p : ℚ) ^ 3 := by
  have h := C155_permitted W db q false inOrder e fr F hh hS hdb i text now hq
  rw [hn] at h
  have hz : due inOrder ([] : List KeyInfo).length = 0 := (due_zero inOrder _).2 rfl
  rwa [show (fun n => ¬ Permitted false inOrder (totalAge now []) ([] : List KeyInfo).length n) = fun n => n ≠ 0 from ?_] at h
  funext n
  simp only [Permitted, MeanOf, hz, ne_eq, not_true_eq_false, false_and, false_or, true_and]

/-- The bound in powers of two. -/
theorem C155_small : 1728 / (p : ℚ) ^ 3 < 1 / 2 ^ 82 := by
  norm_num [p]

/-- A case that meets the hypotheses: server 0 replies with as many words as its message has correction words. One key is ten
years old, so 10 and 1 are permitted; server 1 may only have 10 accepted. -/
example : forgeProb (world parityCipher 5 10 10) avgDB avgQuery true false
      (fun m => ok (List.replicate (4 * m.key.cw.length) 1)) (fun n => ¬ (n = 10 ∨ n = 1))
    ≤ eitherGap (settingOf (world parityCipher 5 10 10) avgDB avgQuery true false 0 (fun _ => 2) (isAged fun _ => 10))
        (settingOf (world parityCipher 5 10 10) avgDB avgQuery true false 0 (fun _ => 2) (ageOf fun _ => 10))
        (wordsOf avgQuery (fun m => ok (List.replicate (4 * m.key.cw.length) 1))) + 1728 / (p : ℚ) ^ 3 := by
  have h := C155_permitted (world parityCipher 5 10 10) avgDB avgQuery false true 0 (fun _ => 2)
    (fun m => ok (List.replicate (4 * m.key.cw.length) 1)) exHash_length (world_setup _ parityCipher_block 10 10 false) rfl
    avgInfo [2, 3] 10 (avgAsks 5 [2, 3] (by simp))
  rwa [show (fun n => ¬ Permitted false true (totalAge 10 (averaged (world parityCipher 5 10 10).hash avgInfo [2, 3] 10 avgDB))
    (averaged (world parityCipher 5 10 10).hash avgInfo [2, 3] 10 avgDB).length n) = fun n => ¬ (n = 10 ∨ n = 1) from ?_] at h
  have hlen : (averaged (world parityCipher 5 10 10).hash avgInfo [2, 3] 10 avgDB).length = 1 := by
    show (averaged exHash avgInfo [2, 3] 10 avgDB).length = 1
    decide
  have htot : totalAge 10 (averaged (world parityCipher 5 10 10).hash avgInfo [2, 3] 10 avgDB) = 10 := by
    show totalAge 10 (averaged exHash avgInfo [2, 3] 10 avgDB) = 10
    decide
  funext n
  rw [hlen, htot]
  norm_num [Permitted, MeanOf, due, p]

end Verif.Forge

namespace Verif.CountStream.Spec
open Res Verif.Field Verif.Field.Spec Verif.Predicate Verif.Predicate.Spec Verif.History Verif.Uniform Verif.Forge Verif.Forge.Spec Verif.Reaction

/-- The client ends with a number that no server may have accepted: other than the count; other than the average and, if server 0
forges, the number of keys it is about. -/
def Forged (db : KeyDB) (mal : Bool) (now : Int) (w : World) (i : Ask) (a : Manner) : Prop :=
  ∃ r, forgedRun w db i.query a.1 mal a.2 = ok r ∧ match i with
    | .count _ P => r.toNat ≠ due a.1 (numMatching db P)
    | .average i text _ => ¬ Permitted mal a.1 (totalAge now (averaged w.hash i text now db))
        (averaged w.hash i text now db).length r.toNat

/-- The chance of forging one number with any number of words (C84, C155). -/
noncomputable def forgeAny (W : World) (db : KeyDB) (mal : Bool) (e : U32) (fr : Nat → U32) (c : Choice Ask Manner) : ℚ :=
  match c.left with
  | .count q _ =>
    forgeGap (settingOf W db q c.answer.1 mal e fr (fun _ _ => 1)) (wordsOf q c.answer.2) + 864 / (p : ℚ) ^ 3
  | .average _ _ q =>
    eitherGap (settingOf W db q c.answer.1 mal e fr (isAged (honestNow W mal)))
      (settingOf W db q c.answer.1 mal e fr (ageOf (honestNow W mal))) (wordsOf q c.answer.2) + 1728 / (p : ℚ) ^ 3

end Verif.CountStream.Spec

namespace Verif.CountStream
open Res Verif.Rand Verif.Field Verif.Field.Spec Verif.Fss Verif.Fss.Spec Verif.Privacy Verif.Predicate Verif.Predicate.Spec
  Verif.History Verif.CountStream.Spec Verif.Uniform Verif.Forge Verif.Forge.Spec Verif.Reaction

theorem forged_alike (db : KeyDB) (mal : Bool) (now : Int) (w w' : World) (i : Ask) (a : Manner) (h : Alike w w' i.query) :
    Forged db mal now w i a ↔ Forged db mal now w' i a := by
  unfold Forged
  rw [forgedRun_alike h, show w'.hash = w.hash by rw [h.1]]

/-- C155, over a session: one client object makes `n` counts and averages with MAC keys from its own generator, and one of the two
servers answers as it likes, with any number of words, depending on all it saw. The chance that the client ends one of the queries
with a number that is not permitted is at most the sum of the chances for the single queries. -/
theorem C155_session (W : World) (db : KeyDB) (mal : Bool) (e : U32) (fr : Nat → U32) (mk : Int → Query.Time) (now : Int)
    (S : Server Ask Manner (Res Msg × Res Unit)) (n N pos : Nat) (rest : Nat → Byte)
    (hh : ∀ t, (W.hash t).length = 32) (hS : Setup W mal e fr) (hdb : Loaded db)
    (hq : ∀ past, Proper W mk db now (S.choose past).left) (hN : 4 * W.fuel * n ≤ N) :
    wrongPart rest pos N W Ask.query (watch db mal) (Forged db mal now) S n
      ≤ History.total (fun i a x => watch db mal (drawnBy W x) i a) S (fun c _ => forgeAny W db mal e fr c) n [] := by
  have h : everWrong (seesDraw W (watch db mal)) (fun i a x => Forged db mal now (drawnBy W x) i a) S n []
      ≤ History.total (seesDraw W (watch db mal)) S (fun c _ => forgeAny W db mal e fr c) n [] := by
    refine everWrong_bound (fun c => Proper W mk db now c.left) hq ?_ n
    rintro ⟨l, r, a⟩ hc
    cases l with
    | count q P =>
      have h := C84_count_forged W db q mal a.1 e fr a.2 hh hS hdb mk P hc
      rw [forgeProb_eq] at h
      exact h
    | average i text q =>
      have h := C155_permitted W db q mal a.1 e fr a.2 hh hS hdb i text now hc
      rw [forgeProb_eq] at h
      exact h
  exact wrong_le hS (watch_alike db mal) (forged_alike db mal now) h rest pos (by linarith)

/-- The hypotheses are met by the server of C140 in the place of server 0, which sends five words to counts and ten to averages. -/
example (D : List (Res Msg × Res Unit) → ℚ) (rest : Nat → Byte) :
    wrongPart rest 7 24 (world parityCipher 5 10 10) Ask.query (watch avgDB false) (Forged avgDB false 10) (alternating D) 3
      ≤ History.total (fun i a x => watch avgDB false (drawnBy (world parityCipher 5 10 10) x) i a) (alternating D)
          (fun c _ => forgeAny (world parityCipher 5 10 10) avgDB false 0 (fun _ => 2) c) 3 [] :=
  C155_session (world parityCipher 5 10 10) avgDB false 0 (fun _ => 2) Query.dayTime 10 (alternating D) 3 24 7 rest
    exHash_length (world_setup _ parityCipher_block 10 10 false) rfl (fun past => (alternating_fair D past).1) (by norm_num [world])

end Verif.CountStream
