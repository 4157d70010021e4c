import Verif.Props.CountStreamLength
import Verif.Props.StatsPresence

/-! # C160: sessions of counts and averages against a server that answers at a time of its choice -/

namespace Verif.CountStream.Spec
open Res Verif.Rand Verif.Field Verif.Field.Spec Verif.Fss Verif.Fss.Spec Verif.Privacy Verif.Predicate Verif.Predicate.Spec
  Verif.History Verif.Uniform Verif.Forge Verif.Forge.Spec Verif.Reaction

/-- A way of answering: whether the messages are handed out in order, for which messages the answer arrives before that of the other
server, and the answer. -/
structure Timed where
  inOrder : Bool
  early : Msg → Bool
  reply : Msg → Res (List Byte)

/-- What the lying server sees: its message and how the client ends. -/
def watchTimed (db : KeyDB) (mal : Bool) (w : World) (i : Ask) (a : Timed) : Res Msg × Res Unit :=
  match i with
  | .count q _ => arriveView w db q a.inOrder mal a.early a.reply
  | .average _ _ q => arriveAvg w db q a.inOrder mal a.early a.reply

/-- In one order of arrival or the other the client ends with a number that no server may have accepted: other than the count; other
than the average and, if the answer of the lying server arrives first, the number of keys. -/
def ForgedTimed (db : KeyDB) (mal : Bool) (now : Int) (w : World) (i : Ask) (a : Timed) : Prop :=
  ∃ early r, arrivedRun w db i.query a.inOrder mal (fun _ => early) a.reply = ok r ∧ match i with
    | .count _ P => r.toNat ≠ due a.inOrder (numMatching db P)
    | .average i text _ => ¬ Acceptable early a.inOrder (totalAge now (averaged w.hash i text now db))
        (averaged w.hash i text now db).length r.toNat

/-- The chance of that for one query (C158). -/
noncomputable def forgeTimed (W : World) (db : KeyDB) (mal : Bool) (e : U32) (fr : Nat → U32) (c : Choice Ask Timed) : ℚ :=
  match c.left with
  | .count q _ =>
    forgeGap (settingOf W db q c.answer.inOrder mal e fr (fun _ _ => 1)) (wordsOf q c.answer.reply) + 864 / (p : ℚ) ^ 3
  | .average _ _ q =>
    eitherGap (settingOf W db q c.answer.inOrder mal e fr (isAged (honestNow W mal)))
      (settingOf W db q c.answer.inOrder mal e fr (ageOf (honestNow W mal))) (wordsOf q c.answer.reply) + 1728 / (p : ℚ) ^ 3

/-- Two questions between which a server should not be able to tell, and a way of answering them; as in C157. -/
def FairTimed (W : World) (mk : Int → Query.Time) (db : KeyDB) (now : Int) (c : Choice Ask Timed) : Prop :=
  Proper W mk db now c.left ∧ Proper W mk db now c.right ∧
  match c.left, c.right with
  | .count q _, .count q' _ => q.info = q'.info ∧ q.input.length = q'.input.length ∧ ∀ m b, c.answer.reply m = ok b → SmallStart b
  | .average i text _, .average i' text' _ => i = i' ∧
    ((averaged W.hash i text now db).length % p = 0 ↔ (averaged W.hash i text' now db).length % p = 0) ∧
    ∀ m b, c.answer.reply m = ok b → SmallTen b
  | _, _ => False

/-- What one query can reveal (C158). -/
noncomputable def leakTimed (W : World) (db : KeyDB) (mal : Bool) (e : U32) (fr : Nat → U32) (now : Int) (c : Choice Ask Timed)
    (D : Res Msg × Res Unit → ℚ) : ℚ :=
  match c.left, c.right with
  | .count q P, .count q' P' =>
    let a := c.answer
    let T := foreseeIn W db q.info mal a.early a.reply D
    keyGap W.env.E e (mal == a.inOrder) q.input T + keyGap W.env.E e (mal == a.inOrder) q'.input T
      + firstGap (settingOf W db q a.inOrder mal e fr (fun _ _ => 1)) (wordsOf q a.reply)
      + firstGap (settingOf W db q' a.inOrder mal e fr (fun _ _ => 1)) (wordsOf q' a.reply)
      + failProb W db q a.inOrder (due a.inOrder (numMatching db P)) + failProb W db q' a.inOrder (due a.inOrder (numMatching db P'))
      + 10 / 2 ^ 31 + 192 / (p : ℚ)
  | .average i text q, .average _ _ q' =>
    let a := c.answer
    let T := foreseeAvgIn W db i mal a.early a.reply ((averaged W.hash i text now db).length % p = 0) D
    let aged := fun q => settingOf W db q a.inOrder mal e fr (isAged (honestNow W mal))
    let ages := fun q => settingOf W db q a.inOrder mal e fr (ageOf (honestNow W mal))
    keyGap W.env.E e (mal == a.inOrder) q.input T + keyGap W.env.E e (mal == a.inOrder) q'.input T
      + firstEitherGap (aged q) (ages q) (wordsOf q a.reply) + firstEitherGap (aged q') (ages q') (wordsOf q' a.reply)
      + hitProb W db q + hitProb W db q' + 10 / 2 ^ 31 + 384 / (p : ℚ)
  | _, _ => 1

end Verif.CountStream.Spec

namespace Verif.CountStream
open Res Verif.Rand Verif.Field Verif.Field.Spec Verif.Fss Verif.Fss.Spec Verif.Privacy Verif.Predicate Verif.Predicate.Spec
  Verif.History Verif.CountStream.Spec Verif.Uniform Verif.Forge Verif.Forge.Spec Verif.Reaction

theorem arrivedRun_alike {w w' : World} {q : Query.ClientFSS} (h : Alike w w' q) (db : KeyDB) (inOrder mal : Bool)
    (early : Msg → Bool) (F : Msg → Res (List Byte)) :
    arrivedRun w db q inOrder mal early F = arrivedRun w' db q inOrder mal early F := by
  obtain ⟨e, ms, st, g, o, g', o', h1, h2⟩ := h
  have hs : ∀ sn m, w'.serve sn 5 db m = w.serve sn 5 db m := by
    intro sn m
    rw [e]
    rfl
  unfold arrivedRun
  rw [h1, h2]
  simp only [ok_bind, hs]

theorem arriveView_alike {w w' : World} {q : Query.ClientFSS} (h : Alike w w' q) (db : KeyDB) (inOrder mal : Bool)
    (early : Msg → Bool) (F : Msg → Res (List Byte)) :
    arriveView w db q inOrder mal early F = arriveView w' db q inOrder mal early F := by
  unfold arriveView
  rw [arrivedRun_alike h]
  obtain ⟨e, ms, st, g, o, g', o', h1, h2⟩ := h
  rw [h1, h2]
  rfl

theorem watchTimed_alike (db : KeyDB) (mal : Bool) (w w' : World) (i : Ask) (a : Timed) (h : Alike w w' i.query) :
    watchTimed db mal w i a = watchTimed db mal w' i a := by
  cases i with
  | count q P => exact arriveView_alike h db a.inOrder mal a.early a.reply
  | average i text q =>
    have h' : Alike w w' q := h
    show arriveAvg w db q a.inOrder mal a.early a.reply = arriveAvg w' db q a.inOrder mal a.early a.reply
    unfold arriveAvg
    rw [arriveView_alike h', arrivedRun_alike h']

theorem forgedTimed_alike (db : KeyDB) (mal : Bool) (now : Int) (w w' : World) (i : Ask) (a : Timed) (h : Alike w w' i.query) :
    ForgedTimed db mal now w i a ↔ ForgedTimed db mal now w' i a := by
  unfold ForgedTimed
  simp only [arrivedRun_alike h]
  rw [show w'.hash = w.hash by rw [h.1]]

theorem leak_timed {W : World} {db : KeyDB} {mal : Bool} {e e' : U32} {fr fr' : Nat → U32} (hh : ∀ t, (W.hash t).length = 32)
    (hS : Setup W mal e fr) (hS' : Setup W (!mal) e' fr') (hdb : Loaded db) {mk : Int → Query.Time} {now : Int}
    {c : Choice Ask Timed} {D : Res Msg × Res Unit → ℚ} (hc : FairTimed W mk db now c) (hD : IsTest D) :
    advantage (seesDraw W (watchTimed db mal) c.left c.answer) (seesDraw W (watchTimed db mal) c.right c.answer) D
      ≤ leakTimed W db mal e fr now c D := by
  obtain ⟨l, r, a⟩ := c
  obtain ⟨h1, h2, h3⟩ := hc
  cases l with
  | count q P =>
    cases r with
    | count q' P' =>
      have h := C158_count_reaction W db q q' mal a.inOrder a.early e e' fr fr' a.reply D hh hS hS' hdb mk P P' h1 h2 h3.1 h3.2.1
        h3.2.2 hD
      unfold arriveViewProb at h
      rw [← avg_draw, ← avg_draw] at h
      exact h
    | average i' text' q' => exact absurd h3 id
  | average i text q =>
    cases r with
    | count q' P' => exact absurd h3 id
    | average i' text' q' =>
      obtain ⟨rfl, h4, h5⟩ := h3
      have h := C158_average_reaction W db q q' mal a.inOrder a.early e e' fr fr' a.reply D hh hS hS' hdb i text text' now h1 h2 h5 hD h4
      unfold arriveAvgProb at h
      rw [← avg_draw, ← avg_draw] at h
      exact h

/-- C160, privacy: one client object makes `n` counts and averages with MAC keys from its own generator. One of the two servers
proposes two questions before each query, and answers as it likes and when it likes, depending on its message and on everything it
saw before. It can tell clients that take the left questions from clients that take the right ones by no more than the sum of what
each single query can reveal, and `8 * n` times the chance that one MAC key is not drawn within `W.fuel` tries. -/
theorem C160_privacy (W : World) (db : KeyDB) (mal : Bool) (e e' : U32) (fr fr' : Nat → U32) (mk : Int → Query.Time) (now : Int)
    (S : Server Ask Timed (Res Msg × Res Unit)) (hang : List (Res Msg × Res Unit) → ℚ) (n N pos : Nat) (rest : Nat → Byte)
    (hh : ∀ t, (W.hash t).length = 32) (hS : Setup W mal e fr) (hS' : Setup W (!mal) e' fr') (hdb : Loaded db)
    (hD : IsTest S.decide) (hH : IsTest hang) (hq : ∀ past, FairTimed W mk db now (S.choose past)) (hN : 4 * W.fuel * n ≤ N) :
    |decision rest pos N W Ask.query (watchTimed db mal) S hang false n
      - decision rest pos N W Ask.query (watchTimed db mal) S hang true n|
      ≤ History.total (fun i a x => watchTimed db mal (drawnBy W x) i a) S (leakTimed W db mal e fr now) n []
        + 8 * n / 2 ^ (31 * W.fuel) := by
  have h := session_le hS (watchTimed_alike db mal) hD hH (n := n)
    (telling_le hD (FairTimed W mk db now) hq (fun c D hc hD => leak_timed hh hS hS' hdb hc hD) n) rest pos (N := N) (by linarith)
  refine le_trans h (le_of_eq ?_)
  unfold fail seesDraw
  ring

theorem arriveProb_eq (W : World) (db : KeyDB) (q : Query.ClientFSS) (inOrder mal : Bool) (F : Msg → Res (List Byte))
    (Bad : Bool → Nat → Prop) :
    arriveProb W db q inOrder mal F Bad = avg (fun x : Draw => indicator
      (∃ early r, arrivedRun (drawnBy W x) db q inOrder mal (fun _ => early) F = ok r ∧ Bad early r.toNat)) := by
  unfold arriveProb
  rw [← avg_draw]
  refine avg_congr fun x => ?_
  split
  · rename_i h
    exact (indicator_true h).symm
  · rename_i h
    exact (indicator_false h).symm

/-- C160, integrity: the chance that in such a session, in whatever order the answers arrive, some query ends with a number that may
not be accepted is at most the sum of the chances for the single queries. -/
theorem C160_integrity (W : World) (db : KeyDB) (mal : Bool) (e : U32) (fr : Nat → U32) (mk : Int → Query.Time) (now : Int)
    (S : Server Ask Timed (Res Msg × Res Unit)) (n N pos : Nat) (rest : Nat → Byte)
    (hh : ∀ t, (W.hash t).length = 32) (hS : Setup W mal e fr) (hdb : Loaded db)
    (hq : ∀ past, Proper W mk db now (S.choose past).left) (hN : 4 * W.fuel * n ≤ N) :
    wrongPart rest pos N W Ask.query (watchTimed db mal) (ForgedTimed db mal now) S n
      ≤ History.total (fun i a x => watchTimed db mal (drawnBy W x) i a) S (fun c _ => forgeTimed W db mal e fr c) n [] := by
  have h : everWrong (seesDraw W (watchTimed db mal)) (fun i a x => ForgedTimed db mal now (drawnBy W x) i a) S n []
      ≤ History.total (seesDraw W (watchTimed db mal)) S (fun c _ => forgeTimed W db mal e fr c) n [] := by
    refine everWrong_bound (fun c => Proper W mk db now c.left) hq ?_ n
    rintro ⟨l, r, a⟩ hc
    cases l with
    | count q P =>
      have h := C158_count W db q mal a.inOrder e fr a.reply hh hS hdb mk P hc
      rw [arriveProb_eq] at h
      exact h
    | average i text q =>
      have h := C158_average W db q mal a.inOrder e fr a.reply hh hS hdb i text now hc
      rw [arriveProb_eq] at h
      exact h
  exact wrong_le hS (watchTimed_alike db mal) (forgedTimed_alike db mal now) h rest pos (by linarith)

/-! ### Concrete cases -/

/-- A server that proposes the counts of RSA and DSA keys, then the average ages of two groups of keys, and so on, answers with from 0
to 255 words and hurries if its seed begins with an even byte. -/
noncomputable def hasty (D : List (Res Msg × Res Unit) → ℚ) : Server Ask Timed (Res Msg × Res Unit) where
  choose past := ⟨((wordy D).choose past).left, ((wordy D).choose past).right, ⟨true, Presence.hurries, manyWords⟩⟩
  decide := D

theorem hasty_fair (D : List (Res Msg × Res Unit) → ℚ) (past : List (Res Msg × Res Unit)) :
    FairTimed (world parityCipher 5 10 10) Query.dayTime avgDB 10 ((hasty D).choose past) := by
  have l1 : (averaged (world parityCipher 5 10 10).hash avgInfo [2, 3] 10 avgDB).length = 1 := by decide
  have l2 : (averaged (world parityCipher 5 10 10).hash avgInfo [2, 4] 10 avgDB).length = 1 := by decide
  unfold hasty wordy
  dsimp only
  split
  · exact ⟨exQuery_asks _ _, dsaQuery_asks _ _, rfl, rfl, fun m b h j _ => manyWords_at m b h j⟩
  · exact ⟨avgAsks 5 [2, 3] (by simp), avgAsks 5 [2, 4] (by simp), rfl, by rw [l1, l2], fun m b h j _ => manyWords_at m b h j⟩

/-- The hypotheses of both theorems are met by this server in the place of server 1. -/
example (D hang : List (Res Msg × Res Unit) → ℚ) (hD : IsTest D) (hH : IsTest hang) (rest : Nat → Byte) :
    |decision rest 7 24 (world parityCipher 5 10 10) Ask.query (watchTimed avgDB true) (hasty D) hang false 3
      - decision rest 7 24 (world parityCipher 5 10 10) Ask.query (watchTimed avgDB true) (hasty D) hang true 3|
      ≤ History.total (fun i a x => watchTimed avgDB true (drawnBy (world parityCipher 5 10 10) x) i a) (hasty D)
          (leakTimed (world parityCipher 5 10 10) avgDB true 0 (fun _ => 1) 10) 3 []
        + 8 * (3 : Nat) / 2 ^ (31 * (world parityCipher 5 10 10).fuel) ∧
    wrongPart rest 7 24 (world parityCipher 5 10 10) Ask.query (watchTimed avgDB true) (ForgedTimed avgDB true 10) (hasty D) 3
      ≤ History.total (fun i a x => watchTimed avgDB true (drawnBy (world parityCipher 5 10 10) x) i a) (hasty D)
          (fun c _ => forgeTimed (world parityCipher 5 10 10) avgDB true 0 (fun _ => 1) c) 3 [] :=
  ⟨C160_privacy (world parityCipher 5 10 10) avgDB true 0 0 (fun _ => 1) (fun _ => 2) Query.dayTime 10 (hasty D) hang 3 24 7 rest
    exHash_length (world_setup _ parityCipher_block 10 10 true) (world_setup _ parityCipher_block 10 10 false) rfl hD hH
    (hasty_fair D) (by norm_num [world]),
   C160_integrity (world parityCipher 5 10 10) avgDB true 0 (fun _ => 1) Query.dayTime 10 (hasty D) 3 24 7 rest
    exHash_length (world_setup _ parityCipher_block 10 10 true) rfl (fun past => (hasty_fair D past).1) (by norm_num [world])⟩

end Verif.CountStream

namespace Verif.Presence.Spec
open Res Verif.Cmd Verif.Client Verif.Client.Spec Verif.Web Verif.Interactive Verif.Predicate Verif.Forge Verif.Forge.Spec
  Verif.History Verif.CountStream.Spec Verif.Uniform

/-- A question from the menu, and what it asks. -/
structure MenuAsk where
  choice : Client.Choice
  ask : Ask

/-- The way the lying server answers a question from the menu: it brings about the network's behaviour `net`, with the answers `reply`
to messages, and the order of arrival. -/
structure MenuTactic where
  net : Net
  order : Msg → Schedule
  swap : Msg → Bool
  reply : Msg → Res (List Byte)

/-- What the lying server sees of a question from the menu. -/
noncomputable def menuSees (d : Desk) (mal : Bool) (W : World) (i : MenuAsk) (a : MenuTactic) (x : Draw) : Res Msg × Bool :=
  statsSees d a.net a.order mal (drawnBy W x) i.choice i.ask.query

/-- The question as one between which the server should not be able to tell (C160). -/
def timed (mal : Bool) (c : History.Choice MenuAsk MenuTactic) : History.Choice Ask Timed :=
  ⟨c.left.ask, c.right.ask, ⟨true, fun m => mal == c.answer.swap m, c.answer.reply⟩⟩

/-- The menu makes of the choice the query of the question, which it does not reject. -/
def Means (hash : List Byte → List Byte) (d : Desk) (i : MenuAsk) : Prop :=
  rejected i.choice = false ∧ interactiveQuery hash d.date i.choice = ok i.ask.query

/-- A proposal of the lying server at the menu. -/
structure FairMenu (d : Desk) (W : World) (db : KeyDB) (info : DbInfo) (a0 a1 : String) (mal : Bool) (now : Int)
    (c : History.Choice MenuAsk MenuTactic) : Prop where
  orders : Orders c.answer.order c.answer.swap
  among : LiarAmong c.answer.net W d.gob db info a0 a1 mal c.answer.reply
  left : Means W.hash d c.left
  right : Means W.hash d c.right
  fair : FairTimed W d.date db now (timed mal c)

end Verif.Presence.Spec

namespace Verif.Presence
open Res Verif.Cmd Verif.Client Verif.Client.Spec Verif.Web Verif.Interactive Verif.Field Verif.Field.Spec Verif.Predicate
  Verif.Predicate.Spec Verif.Privacy Verif.Reaction Verif.Forge Verif.Forge.Spec Verif.Chance Verif.Presence.Spec Verif.History
  Verif.CountStream Verif.CountStream.Spec Verif.Uniform

/-- C160, the interactive program: its user asks `n` statistics questions, and starts the program again when it is gone. Before each
question the lying server proposes two, and answers as it likes and when it likes. From its messages and from whether the program was
there after each question it can tell users that ask the left questions from users that ask the right ones by no more than the sum of
what each question can reveal. -/
theorem C160_menu (d : Desk) (W : World) (db : KeyDB) (info : DbInfo) (a0 a1 : String) (hd : d.complex = [a0, a1]) (mal : Bool)
    (e e' : U32) (fr fr' : Nat → U32) (now : Int) (S : Server MenuAsk MenuTactic (Res Msg × Bool)) (n : Nat)
    (hh : ∀ t, (W.hash t).length = 32) (hS : Setup W mal e fr) (hS' : Setup W (!mal) e' fr') (hdb : Loaded db)
    (hD : IsTest S.decide) (hq : ∀ past, FairMenu d W db info a0 a1 mal now (S.choose past)) :
    telling (menuSees d mal W) S n
      ≤ History.total (menuSees d mal W) S (fun c D => leakTimed W db mal e fr now (timed mal c) (onEnding D)) n [] := by
  refine telling_le hD (FairMenu d W db info a0 a1 mal now) hq ?_ n
  intro c D hc hD
  have h := leak_timed (e' := e') (fr' := fr') hh hS hS' hdb hc.fair (onEnding_test hD)
  have key : ∀ (i : MenuAsk) (x : Draw), Means W.hash d i →
      D (menuSees d mal W i c.answer x) = onEnding D (watchTimed db mal (drawnBy W x) i.ask (timed mal c).answer) := by
    intro i x hi
    have h2 := C159_sees (W := drawnBy W x) hc.orders hd (F := c.answer.reply)
      ⟨hc.among.info0, hc.among.info1, hc.among.answer0, hc.among.answer1⟩ hi.1 hi.2 D
    unfold menuSees
    obtain ⟨ch, ask⟩ := i
    cases ask with
    | count q P => exact h2.1
    | average i text q => exact h2.2
  unfold advantage at h ⊢
  simp only [key _ _ hc.left, key _ _ hc.right]
  exact h

/-- A server that proposes questions for the numbers of RSA and DSA keys all the time. -/
noncomputable def nosy (D : List (Res Msg × Bool) → ℚ) : Server MenuAsk MenuTactic (Res Msg × Bool) where
  choose _ := ⟨⟨.countAlgo "RSA", .count exQuery (fun ki => ki.algo.toNat = 1)⟩,
    ⟨.countAlgo "DSA", .count dsaQuery (fun ki => ki.algo.toNat = 17)⟩,
    ⟨secondLies (world Fss.parityCipher 5 10 10) exDB manyWords, fun m => if hurries m then overtaking else Client.order false, hurries,
      manyWords⟩⟩
  decide := D

/-- The hypotheses are met by this server in the place of server 1. -/
example (D : List (Res Msg × Bool) → ℚ) (hD : IsTest D) (n : Nat) :
    telling (menuSees (twoDesk Query.dayTime) true (world Fss.parityCipher 5 10 10)) (nosy D) n
      ≤ History.total (menuSees (twoDesk Query.dayTime) true (world Fss.parityCipher 5 10 10)) (nosy D)
          (fun c D => leakTimed (world Fss.parityCipher 5 10 10) exDB true 0 (fun _ => 1) 10 (timed true c) (onEnding D)) n [] :=
  C160_menu (twoDesk Query.dayTime) (world Fss.parityCipher 5 10 10) exDB _ "a" "b" rfl true 0 0 (fun _ => 1) (fun _ => 2) 10 (nosy D) n
    exHash_length (world_setup _ Fss.parityCipher_block 10 10 true) (world_setup _ Fss.parityCipher_block 10 10 false) rfl hD
    (fun _ => ⟨hurries_orders, secondLies_among _ _ _, ⟨rfl, rfl⟩, ⟨rfl, rfl⟩,
      ⟨exQuery_asks _ _, dsaQuery_asks _ _, rfl, rfl, fun m b h j _ => manyWords_at m b h j⟩⟩)

end Verif.Presence
