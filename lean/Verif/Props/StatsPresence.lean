import Verif.Props.AnswerOrder
import Verif.Props.Presence

/-! # C159: what a predicate server learns from whether the interactive program is still there after a statistics question -/

namespace Verif.Presence.Spec
open Res Verif.Cmd Verif.Client Verif.Client.Spec Verif.Web Verif.Interactive Verif.Predicate Verif.Forge Verif.Forge.Spec

/-- The interactive program is still there after a statistics question. -/
def Stays (d : Desk) (w : Weather) (c : Choice) : Prop := (Interactive.session d [(.stats (some c), w)]).2 = .asking

/-- The message that the lying server gets: the second one if it is server 1 (`mal`), else the first. -/
def sentTo (W : World) (q : Query.ClientFSS) (mal : Bool) : Res Msg := do
  let (ms, _, _, _) ← query W.env W.fuel 5 W.rnd W.buf W.r1 W.r2 q 2
  idx ms (if mal then 1 else 0)

open Classical in
/-- What the lying server sees when the user asks for `c`, which means the query `q`: its message, and whether the program is still
there afterwards. It may influence the order of arrival `S`, depending on its message. -/
noncomputable def statsSees (d : Desk) (net : Net) (S : Msg → Schedule) (mal : Bool) (W : World) (c : Choice) (q : Query.ClientFSS) :
    Res Msg × Bool :=
  match sentTo W q mal with
  | ok m => (ok m, decide (Stays d ⟨net, S m, W⟩ c))
  | err m => (err m, false)
  | crash m => (crash m, false)

/-- The mean of a test on this, over the client's randomness. -/
noncomputable def statsProb (d : Desk) (net : Net) (S : Msg → Schedule) (mal : Bool) (W : World) (c : Choice) (q : Query.ClientFSS)
    (D : Res Msg × Bool → ℚ) : ℚ :=
  runMean (fun β α s0 s1 tb => D (statsSees d net S mal (drawn W β α s0 s1 tb) c q))

/-- A test on messages and presence, as a test on messages and endings. -/
def onEnding (D : Res Msg × Bool → ℚ) (v : Res Msg × Res Unit) : ℚ :=
  D (v.1, match v.2 with | ok _ => true | _ => false)

/-- The orders of arrival that the server brings about: fair, and with the answers exchanged if `swap` holds. -/
structure Orders (S : Msg → Schedule) (swap : Msg → Bool) : Prop where
  fair : ∀ m, Fair (S m)
  swaps : ∀ m u v, (S m).answers [u, v] = if swap m then [v, u] else [u, v]

end Verif.Presence.Spec

namespace Verif.Presence
open Res Verif.Cmd Verif.Client Verif.Client.Spec Verif.Web Verif.Interactive Verif.Field Verif.Field.Spec Verif.Predicate
  Verif.Predicate.Spec Verif.Privacy Verif.Reaction Verif.Forge Verif.Forge.Spec Verif.Chance Verif.Presence.Spec
set_option linter.constructorNameAsVariable false

/-- The program is there if and only if it has shown a number. -/
theorem stays_iff (d : Desk) (w : Weather) (c : Choice) (hc : rejected c = false) :
    Stays d w c ↔ ∃ r, Client.getStats w.W d.gob d.date w.net w.S d.complex c = ok r := by
  obtain ⟨h1, h2⟩ := C83_stats d w c hc
  unfold Stays
  constructor
  · intro h
    by_contra hn
    push Not at hn
    obtain ⟨-, hne⟩ := h2 (by
      intro line hl
      unfold showStats at hl
      rw [bind_eq_ok] at hl
      obtain ⟨r, hr, -⟩ := hl
      exact hn r hr)
    rw [Interactive.session] at h
    generalize statistics d w (some c) = r at *
    obtain ⟨out, f⟩ := r
    cases f with
    | done u => exact hne rfl
    | failed m => cases h
    | dropped m => cases h
    | exits m => cases h
  · rintro ⟨r, hr⟩
    have := h1 _ (by unfold showStats; rw [hr, ok_bind])
    rw [Interactive.session, this]
    rfl

/-- The run of a program with one lying server, as an equation. -/
theorem stats_arrived {net : Net} {S : Schedule} (hS : Fair S) {swap : Bool}
    (hsw : ∀ u v, S.answers [u, v] = if swap then [v, u] else [u, v]) {W : World} {gob : Msg → List Byte} {db : KeyDB}
    {info : DbInfo} {a0 a1 : String} {mal : Bool} {F : Msg → Res (List Byte)} (hnet : LiarAmong net W gob db info a0 a1 mal F)
    {q : Query.ClientFSS} {r : U32} :
    Client.executeStatsQuery W gob net S [a0, a1] q = ok r ↔ arrivedRun W db q true mal (fun _ => mal == swap) F = ok r := by
  unfold Client.executeStatsQuery arrivedRun
  have hg : gatherInfos net S [a0, a1] = ok (List.replicate 2 info) :=
    gather_eq hS (i := info) (servers := [a0, a1]) (by
      intro a ha
      simp only [List.mem_cons, List.not_mem_nil, or_false] at ha
      rcases ha with rfl | rfl
      · exact hnet.info0
      · exact hnet.info1)
  rw [hg, ok_bind, getDBInfos_replicate (by decide), ok_bind,
    show idx (List.replicate 2 info) 0 = ok info from rfl, ok_bind, List.length_replicate]
  unfold complexResult
  rw [show Field.concurrentExecutions + 1 = 5 from rfl, show ((2 : Nat) : Int) = 2 from rfl]
  cases hq : Predicate.query W.env W.fuel 5 W.rnd W.buf W.r1 W.r2 q 2 with
  | err m => exact ⟨fun h => (by cases h), fun h => (by cases h)⟩
  | crash m => exact ⟨fun h => (by cases h), fun h => (by cases h)⟩
  | ok x =>
    obtain ⟨ms, st, rnd, buf⟩ := x
    have hms : ∃ x y : Msg, ms = [x, y] := by
      have hq' := hq
      unfold Predicate.query at hq'
      rw [if_neg (by decide)] at hq'
      simp only [bind_eq_ok] at hq'
      obtain ⟨⟨st', rnd'⟩, -, ⟨k0, k1, buf'⟩, -, hq'⟩ := hq'
      simp only [ok.injEq, Prod.mk.injEq] at hq'
      exact ⟨_, _, hq'.1.symm⟩
    obtain ⟨x, y, rfl⟩ := hms
    simp only [ok_bind, if_true]
    rw [show idx [x, y] 0 = ok x from rfl, show idx [x, y] 1 = ok y from rfl]
    simp only [ok_bind]
    unfold runQueriesActor
    rw [sends_eq _ _ (by simp), ok_bind]
    simp only [List.map_cons, List.map_nil, List.zip_cons_cons, List.zip_nil_right, List.mapM_cons, List.mapM_nil,
      pure_eq, hnet.answer0, hnet.answer1]
    cases mal
    · simp only [Bool.false_eq_true, if_false]
      cases F x with
      | err m => exact ⟨fun h => (by cases h), fun h => (by cases h)⟩
      | crash m => exact ⟨fun h => (by cases h), fun h => (by cases h)⟩
      | ok u =>
        cases W.serve 1 5 db y with
        | err m => exact ⟨fun h => (by cases h), fun h => (by cases h)⟩
        | crash m => exact ⟨fun h => (by cases h), fun h => (by cases h)⟩
        | ok v =>
          simp only [orFatal, ok_bind]
          rw [hsw]
          cases swap <;> exact Iff.rfl
    · simp only [if_true]
      cases W.serve 0 5 db x with
      | err m => exact ⟨fun h => (by cases h), fun h => (by cases h)⟩
      | crash m => exact ⟨fun h => (by cases h), fun h => (by cases h)⟩
      | ok u =>
        cases F y with
        | err m => exact ⟨fun h => (by cases h), fun h => (by cases h)⟩
        | crash m => exact ⟨fun h => (by cases h), fun h => (by cases h)⟩
        | ok v =>
          simp only [orFatal, ok_bind]
          rw [hsw]
          cases swap <;> exact Iff.rfl

/-- The order of arrival matters only for the message sent. -/
theorem arrivedRun_at {W : World} {q : Query.ClientFSS} {mal : Bool} {m : Msg} (h : sentTo W q mal = ok m) (db : KeyDB)
    (early : Msg → Bool) (F : Msg → Res (List Byte)) :
    arrivedRun W db q true mal early F = arrivedRun W db q true mal (fun _ => early m) F := by
  unfold sentTo at h
  unfold arrivedRun
  cases hq : Predicate.query W.env W.fuel 5 W.rnd W.buf W.r1 W.r2 q 2 with
  | err m => rfl
  | crash m => rfl
  | ok x =>
    obtain ⟨ms, st, rnd, buf⟩ := x
    rw [hq] at h
    simp only [ok_bind, if_true] at h ⊢
    cases h0 : idx ms 0 with
    | err m => rfl
    | crash m => rfl
    | ok m0 =>
      cases h1 : idx ms 1 with
      | err m => rfl
      | crash m => rfl
      | ok m1 =>
        simp only [ok_bind]
        cases mal
        · simp only [Bool.false_eq_true, if_false] at h
          rw [h0] at h
          cases h
          rfl
        · simp only [if_true] at h
          rw [h1] at h
          cases h
          rfl

theorem arrived_sent {W : World} {db : KeyDB} {q : Query.ClientFSS} {mal : Bool} {early : Msg → Bool} {F : Msg → Res (List Byte)}
    {r : U32} (h : arrivedRun W db q true mal early F = ok r) : ∃ m, sentTo W q mal = ok m := by
  unfold arrivedRun at h
  rw [bind_eq_ok] at h
  obtain ⟨⟨ms, st, rnd, buf⟩, hq, h⟩ := h
  simp only [if_true, bind_eq_ok] at h
  obtain ⟨m0, h0, m1, h1, -⟩ := h
  unfold sentTo
  rw [hq, ok_bind]
  cases mal
  · exact ⟨m0, h0⟩
  · exact ⟨m1, h1⟩

/-- C159: the lying server sees what it sees of a run of the query, reduced to whether there was a result. -/
theorem C159_sees {d : Desk} {net : Net} {S : Msg → Schedule} {swap : Msg → Bool} (hS : Orders S swap) {W : World} {db : KeyDB}
    {info : DbInfo} {a0 a1 : String} (hd : d.complex = [a0, a1]) {mal : Bool} {F : Msg → Res (List Byte)}
    (hnet : LiarAmong net W d.gob db info a0 a1 mal F) {c : Choice} (hc : rejected c = false) {q : Query.ClientFSS}
    (hq : interactiveQuery W.hash d.date c = ok q) (D : Res Msg × Bool → ℚ) :
    D (statsSees d net S mal W c q) = onEnding D (arriveView W db q true mal (fun m => mal == swap m) F) ∧
    D (statsSees d net S mal W c q) = onEnding D (arriveAvg W db q true mal (fun m => mal == swap m) F) := by
  have hmsg : (arriveView W db q true mal (fun m => mal == swap m) F).1 = sentTo W q mal := rfl
  have hmsg' : (arriveAvg W db q true mal (fun m => mal == swap m) F).1 = sentTo W q mal := rfl
  unfold statsSees onEnding
  rw [hmsg, hmsg']
  have hend : (arriveView W db q true mal (fun m => mal == swap m) F).2
      = ending (arrivedRun W db q true mal (fun m => mal == swap m) F) := rfl
  have hout : (arriveAvg W db q true mal (fun m => mal == swap m) F).2
      = outcome (arrivedRun W db q true mal (fun m => mal == swap m) F) := rfl
  rw [hend, hout]
  cases hm : sentTo W q mal with
  | ok m =>
    have hst : Stays d ⟨net, S m, W⟩ c ↔ ∃ r, arrivedRun W db q true mal (fun m => mal == swap m) F = ok r := by
      rw [stays_iff _ _ _ hc, arrivedRun_at hm]
      apply exists_congr
      intro r
      unfold Client.getStats
      rw [hq, ok_bind, hd]
      exact stats_arrived (hS.fair m) (hS.swaps m) hnet
    cases hr : arrivedRun W db q true mal (fun m => mal == swap m) F with
    | ok r =>
      have : Stays d ⟨net, S m, W⟩ c := hst.2 ⟨r, hr⟩
      simp [this, ending, outcome]
    | err e =>
      have : ¬ Stays d ⟨net, S m, W⟩ c := fun h => by
        obtain ⟨r, h⟩ := hst.1 h
        rw [hr] at h
        cases h
      simp [this, ending, outcome]
    | crash e =>
      have : ¬ Stays d ⟨net, S m, W⟩ c := fun h => by
        obtain ⟨r, h⟩ := hst.1 h
        rw [hr] at h
        cases h
      simp [this, ending, outcome]
  | err e =>
    have : ∀ r, arrivedRun W db q true mal (fun m => mal == swap m) F ≠ ok r := fun r h => by
      obtain ⟨m, h⟩ := arrived_sent h
      rw [hm] at h
      cases h
    cases hr : arrivedRun W db q true mal (fun m => mal == swap m) F with
    | ok r => exact absurd hr (this r)
    | err e => simp [ending, outcome]
    | crash e => simp [ending, outcome]
  | crash e =>
    have : ∀ r, arrivedRun W db q true mal (fun m => mal == swap m) F ≠ ok r := fun r h => by
      obtain ⟨m, h⟩ := arrived_sent h
      rw [hm] at h
      cases h
    cases hr : arrivedRun W db q true mal (fun m => mal == swap m) F with
    | ok r => exact absurd hr (this r)
    | err e => simp [ending, outcome]
    | crash e => simp [ending, outcome]

theorem onEnding_test {D : Res Msg × Bool → ℚ} (hD : IsTest D) : IsTest (onEnding D) := fun _ => hD _

/-- C159, counts: that the program is still there after a question for a number of keys tells a lying server no more than its
message does, up to the bound of C158. -/
theorem C159_counts (d : Desk) (net : Net) (S : Msg → Schedule) (swap : Msg → Bool) (hO : Orders S swap) (W : World) (db : KeyDB)
    (info : DbInfo) (a0 a1 : String) (hd : d.complex = [a0, a1]) (mal : Bool) (F : Msg → Res (List Byte))
    (hnet : LiarAmong net W d.gob db info a0 a1 mal F) (c c' : Choice) (hc : rejected c = false) (hc' : rejected c' = false)
    (q q' : Query.ClientFSS) (hq : interactiveQuery W.hash d.date c = ok q) (hq' : interactiveQuery W.hash d.date c' = ok q')
    (e e' : U32) (fr fr' : Nat → U32) (D : Res Msg × Bool → ℚ) (hh : ∀ t, (W.hash t).length = 32) (hS : Setup W mal e fr)
    (hS' : Setup W (!mal) e' fr') (hdb : Loaded db) (P P' : KeyInfo → Prop) (ha : Asks W.hash d.date db q P)
    (ha' : Asks W.hash d.date db q' P') (hinfo : q.info = q'.info) (hl : q.input.length = q'.input.length)
    (hF : ∀ m b, F m = ok b → SmallStart b) (hD : IsTest D) :
    |statsProb d net S mal W c q D - statsProb d net S mal W c' q' D|
      ≤ keyGap W.env.E e mal q.input (foreseeIn W db q.info mal (fun m => mal == swap m) F (onEnding D))
        + keyGap W.env.E e mal q'.input (foreseeIn W db q.info mal (fun m => mal == swap m) F (onEnding D))
        + firstGap (settingOf W db q true mal e fr (fun _ _ => 1)) (wordsOf q F)
        + firstGap (settingOf W db q' true mal e fr (fun _ _ => 1)) (wordsOf q' F)
        + failProb W db q true (numMatching db P % p)
        + failProb W db q' true (numMatching db P' % p)
        + 10 / 2 ^ 31 + 192 / (p : ℚ) := by
  have h := C158_count_reaction W db q q' mal true (fun m => mal == swap m) e e' fr fr' F (onEnding D) hh hS hS' hdb d.date P P' ha ha'
    hinfo hl hF (onEnding_test hD)
  have e1 : statsProb d net S mal W c q D = arriveViewProb W db q true mal (fun m => mal == swap m) F (onEnding D) := by
    unfold statsProb arriveViewProb
    congr 1
    funext β α s0 s1 tb
    exact (C159_sees (W := drawn W β α s0 s1 tb) hO hd ⟨hnet.info0, hnet.info1, hnet.answer0, hnet.answer1⟩ hc hq D).1
  have e2 : statsProb d net S mal W c' q' D = arriveViewProb W db q' true mal (fun m => mal == swap m) F (onEnding D) := by
    unfold statsProb arriveViewProb
    congr 1
    funext β α s0 s1 tb
    exact (C159_sees (W := drawn W β α s0 s1 tb) hO hd ⟨hnet.info0, hnet.info1, hnet.answer0, hnet.answer1⟩ hc' hq' D).1
  rw [e1, e2]
  have hm : (mal == true) = mal := by cases mal <;> rfl
  rw [hm] at h
  exact h

/-- C159, averages: the same after a question for an average, if both questions are about some keys or both about none. -/
theorem C159_averages (d : Desk) (net : Net) (S : Msg → Schedule) (swap : Msg → Bool) (hO : Orders S swap) (W : World) (db : KeyDB)
    (info : DbInfo) (a0 a1 : String) (hd : d.complex = [a0, a1]) (mal : Bool) (F : Msg → Res (List Byte))
    (hnet : LiarAmong net W d.gob db info a0 a1 mal F) (c c' : Choice) (hc : rejected c = false) (hc' : rejected c' = false)
    (q q' : Query.ClientFSS) (hq : interactiveQuery W.hash d.date c = ok q) (hq' : interactiveQuery W.hash d.date c' = ok q')
    (e e' : U32) (fr fr' : Nat → U32) (D : Res Msg × Bool → ℚ) (hh : ∀ t, (W.hash t).length = 32) (hS : Setup W mal e fr)
    (hS' : Setup W (!mal) e' fr') (hdb : Loaded db) (i : Query.Info) (text text' : List Byte) (now : Int)
    (ha : AsksAvg W i text now db q) (ha' : AsksAvg W i text' now db q') (hF : ∀ m b, F m = ok b → SmallTen b) (hD : IsTest D)
    (hz : (averaged W.hash i text now db).length % p = 0 ↔ (averaged W.hash i text' now db).length % p = 0) :
    |statsProb d net S mal W c q D - statsProb d net S mal W c' q' D|
      ≤ keyGap W.env.E e mal q.input (foreseeAvgIn W db i mal (fun m => mal == swap m) F
          ((averaged W.hash i text now db).length % p = 0) (onEnding D))
        + keyGap W.env.E e mal q'.input (foreseeAvgIn W db i mal (fun m => mal == swap m) F
          ((averaged W.hash i text now db).length % p = 0) (onEnding D))
        + firstEitherGap (settingOf W db q true mal e fr (isAged (honestNow W mal)))
          (settingOf W db q true mal e fr (ageOf (honestNow W mal))) (wordsOf q F)
        + firstEitherGap (settingOf W db q' true mal e fr (isAged (honestNow W mal)))
          (settingOf W db q' true mal e fr (ageOf (honestNow W mal))) (wordsOf q' F)
        + hitProb W db q + hitProb W db q' + 10 / 2 ^ 31 + 384 / (p : ℚ) := by
  have h := C158_average_reaction W db q q' mal true (fun m => mal == swap m) e e' fr fr' F (onEnding D) hh hS hS' hdb i text text'
    now ha ha' hF (onEnding_test hD) hz
  have e1 : statsProb d net S mal W c q D = arriveAvgProb W db q true mal (fun m => mal == swap m) F (onEnding D) := by
    unfold statsProb arriveAvgProb
    congr 1
    funext β α s0 s1 tb
    exact (C159_sees (W := drawn W β α s0 s1 tb) hO hd ⟨hnet.info0, hnet.info1, hnet.answer0, hnet.answer1⟩ hc hq D).2
  have e2 : statsProb d net S mal W c' q' D = arriveAvgProb W db q' true mal (fun m => mal == swap m) F (onEnding D) := by
    unfold statsProb arriveAvgProb
    congr 1
    funext β α s0 s1 tb
    exact (C159_sees (W := drawn W β α s0 s1 tb) hO hd ⟨hnet.info0, hnet.info1, hnet.answer0, hnet.answer1⟩ hc' hq' D).2
  rw [e1, e2]
  have hm : (mal == true) = mal := by cases mal <;> rfl
  rw [hm] at h
  exact h

/-- C159, the exception: with honest servers the program is still there after a question for an average exactly if there is a key to
average over. So a server that sees it disappear learns that there is none. -/
theorem C159_nobody {net : Net} {S : Schedule} (hS : Fair S) {W : World} {d : Desk} {db : KeyDB} {info : DbInfo} {a0 a1 : String}
    (hd : d.complex = [a0, a1]) (hnet : PredicateServers net W d.gob 5 db info a0 a1) (hW : StatsReady W 5 db)
    (begins : Bool) (text : String) (ht : text ≠ "") (hl : (bytes text).length ≤ 32) (now : Int)
    (hc0 : ∀ j, W.now0 j = now) (hc1 : ∀ j, W.now1 j = now) (hage : ∀ ki ∈ db.keys, now - ki.creation.year < 2 ^ 32)
    (hsum : totalAge now (averagedText begins (bytes text) now db) < p)
    (hno : Undisturbed W 5 db (interactiveQuery W.hash d.date (.avgEmail begins text))) :
    Stays d ⟨net, S, W⟩ (.avgEmail begins text) ↔ averagedText begins (bytes text) now db ≠ [] := by
  rw [stays_iff _ _ _ rfl, hd]
  constructor
  · rintro ⟨r, hr⟩ hnil
    have hz : ∀ ki ∈ db.keys, AtEnd begins (bytes text) ki.email → now < ki.creation.year := by
      intro ki hki hat
      unfold averagedText at hnil
      rw [List.filter_eq_nil_iff] at hnil
      have := hnil ki hki
      simp only [decide_eq_true_eq, not_and, not_le] at this
      exact this hat
    have h := C63_no_average hS hnet hW d.date begins text ht hl now hc0 hc1 hage hz hno
    unfold showStats at h
    dsimp only at hr
    rw [hr] at h
    cases h
  · intro hne
    have h := C63_average_partial hS hnet hW d.date begins text ht hl now hc0 hc1 hage hne hsum hno
    unfold showStats at h
    rw [bind_eq_ok] at h
    obtain ⟨r, hr, -⟩ := h
    exact ⟨r, hr⟩

/-! ### Concrete cases -/

/-- A desk with two predicate servers. -/
noncomputable def twoDesk (date : Int → Query.Time) : Desk := ⟨exLib Point.plainDpf, exGob, date, [], ["a", "b"]⟩

/-- A lying server that hurries if its seed begins with an even byte. -/
def hurries (m : Msg) : Bool := (m.key.sInit.getD 0 0).toNat % 2 == 0

theorem hurries_orders : Orders (fun m => if hurries m then overtaking else Client.order false) hurries where
  fair := fun m => by
    split
    · exact overtaking_fair
    · exact order_fair false
  swaps := fun m u v => by
    cases hurries m <;> rfl

/-- Two questions for numbers of keys that meet the hypotheses: server 1 lies, and its answers overtake the others in some runs. -/
example (D : Res Msg × Bool → ℚ) (hD : IsTest D) :
    |statsProb (twoDesk Query.dayTime) (secondLies (world Fss.parityCipher 5 10 10) exDB manyWords)
        (fun m => if hurries m then overtaking else Client.order false) true (world Fss.parityCipher 5 10 10) (.countAlgo "RSA") exQuery D
      - statsProb (twoDesk Query.dayTime) (secondLies (world Fss.parityCipher 5 10 10) exDB manyWords)
        (fun m => if hurries m then overtaking else Client.order false) true (world Fss.parityCipher 5 10 10) (.countAlgo "DSA") dsaQuery D|
      ≤ keyGap Fss.parityCipher 0 true exQuery.input (foreseeIn (world Fss.parityCipher 5 10 10) exDB exQuery.info true
          (fun m => true == hurries m) manyWords (onEnding D))
        + keyGap Fss.parityCipher 0 true dsaQuery.input (foreseeIn (world Fss.parityCipher 5 10 10) exDB exQuery.info true
          (fun m => true == hurries m) manyWords (onEnding D))
        + firstGap (settingOf (world Fss.parityCipher 5 10 10) exDB exQuery true true 0 (fun _ => 1) (fun _ _ => 1))
            (wordsOf exQuery manyWords)
        + firstGap (settingOf (world Fss.parityCipher 5 10 10) exDB dsaQuery true true 0 (fun _ => 1) (fun _ _ => 1))
            (wordsOf dsaQuery manyWords)
        + failProb (world Fss.parityCipher 5 10 10) exDB exQuery true (numMatching exDB (fun ki => ki.algo.toNat = 1) % p)
        + failProb (world Fss.parityCipher 5 10 10) exDB dsaQuery true (numMatching exDB (fun ki => ki.algo.toNat = 17) % p)
        + 10 / 2 ^ 31 + 192 / (p : ℚ) :=
  C159_counts (twoDesk Query.dayTime) _ _ hurries hurries_orders (world Fss.parityCipher 5 10 10) exDB _ "a" "b" rfl true manyWords
    (secondLies_among _ _ _) (.countAlgo "RSA") (.countAlgo "DSA") rfl rfl exQuery dsaQuery rfl rfl 0 0 (fun _ => 1)
    (fun _ => 2) D exHash_length (world_setup _ Fss.parityCipher_block 10 10 true) (world_setup _ Fss.parityCipher_block 10 10 false) rfl
    _ _ (exQuery_asks _ _) (dsaQuery_asks _ _) rfl rfl manyWords_small hD

/-- Two questions for averages that meet the hypotheses, both about one key. -/
example (D : Res Msg × Bool → ℚ) (hD : IsTest D) :
    |statsProb (twoDesk Query.dayTime) (secondLies quietWorld avgDB manyWords)
        (fun m => if hurries m then overtaking else Client.order false) true quietWorld (.avgEmail false "\x02\x03") avgQuery D
      - statsProb (twoDesk Query.dayTime) (secondLies quietWorld avgDB manyWords)
        (fun m => if hurries m then overtaking else Client.order false) true quietWorld (.avgEmail false "\x02\x04") avgQuery' D|
      ≤ keyGap Fss.parityCipher 0 true avgQuery.input (foreseeAvgIn quietWorld avgDB avgInfo true (fun m => true == hurries m) manyWords
          ((averaged exHash avgInfo [2, 3] 10 avgDB).length % p = 0) (onEnding D))
        + keyGap Fss.parityCipher 0 true avgQuery'.input (foreseeAvgIn quietWorld avgDB avgInfo true (fun m => true == hurries m) manyWords
          ((averaged exHash avgInfo [2, 3] 10 avgDB).length % p = 0) (onEnding D))
        + firstEitherGap (settingOf quietWorld avgDB avgQuery true true 0 (fun _ => 0) (isAged (honestNow quietWorld true)))
          (settingOf quietWorld avgDB avgQuery true true 0 (fun _ => 0) (ageOf (honestNow quietWorld true)))
          (wordsOf avgQuery manyWords)
        + firstEitherGap (settingOf quietWorld avgDB avgQuery' true true 0 (fun _ => 0) (isAged (honestNow quietWorld true)))
          (settingOf quietWorld avgDB avgQuery' true true 0 (fun _ => 0) (ageOf (honestNow quietWorld true)))
          (wordsOf avgQuery' manyWords)
        + hitProb quietWorld avgDB avgQuery + hitProb quietWorld avgDB avgQuery' + 10 / 2 ^ 31 + 384 / (p : ℚ) := by
  have l1 : (averaged quietWorld.hash avgInfo [2, 3] 10 avgDB).length = 1 := by decide
  have l2 : (averaged quietWorld.hash avgInfo [2, 4] 10 avgDB).length = 1 := by decide
  exact C159_averages (twoDesk Query.dayTime) _ _ hurries hurries_orders quietWorld avgDB _ "a" "b" rfl true manyWords
    (secondLies_among _ _ _) (.avgEmail false "\x02\x03") (.avgEmail false "\x02\x04") rfl rfl avgQuery avgQuery'
    rfl rfl 0 0 (fun _ => 0) (fun _ => 0) D exHash_length (quiet_setup true) (quiet_setup false) rfl
    avgInfo [2, 3] [2, 4] 10 (quiet_asks _ (by simp)) (quiet_asks _ (by simp)) (fun m b h j _ => manyWords_at m b h j) hD
    (by rw [l1, l2])

/-- After the question for the average over addresses that begin with "q", of which there are none, the program is gone. -/
example : ¬ Stays (twoDesk wordTime) ⟨statsNet (world Fss.parityCipher 5 10 10) 5 mailDB, Client.order false, world Fss.parityCipher 5 10 10⟩
    (.avgEmail true "q") := by
  have hl : averagedText true (bytes "q") 10 mailDB = [] := by
    unfold averagedText
    rw [List.filter_eq_nil_iff]
    intro ki hki
    simp only [decide_eq_true_eq, not_and, not_le]
    simp only [mailDB, List.mem_cons, List.not_mem_nil, or_false] at hki
    rcases hki with rfl | rfl | rfl <;> decide
  rw [C159_nobody (d := twoDesk wordTime) (order_fair false) rfl (statsNet_spec (world Fss.parityCipher 5 10 10) 5 mailDB) (mailStats 10)
    true "q" (by decide) (by decide) 10 (fun _ => rfl) (fun _ => rfl) mail_ages (by rw [hl, p_val]; decide) (undisturbed10 _ _)]
  exact fun h => h hl

end Verif.Presence
