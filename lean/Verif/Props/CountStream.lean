import Verif.Lemmas.CountStream
import Verif.Props.ReactionAverage

/-! # C139, C140: sessions of counts and averages by one client object

One client object makes counts and averages, in any order, and draws the MAC keys of all of them from its own generator. -/

namespace Verif.CountStream.Spec
open Res Verif.Rand Verif.Field Verif.Field.Spec Verif.Fss Verif.Fss.Spec Verif.Privacy Verif.Predicate Verif.Predicate.Spec
  Verif.History Verif.Uniform Verif.Forge Verif.Forge.Spec Verif.Reaction

/-- What a user asks: how many keys satisfy a predicate, or the average age of the keys whose e-mail matches a text; with the query
that the client makes of it. -/
inductive Ask where
  | count (q : Query.ClientFSS) (P : KeyInfo → Prop)
  | average (i : Query.Info) (text : List Byte) (q : Query.ClientFSS)

/-- The query. -/
def Ask.query : Ask → Query.ClientFSS
  | .count q _ => q
  | .average _ _ q => q

/-- What the server that answers sees: its message and how the client ends. -/
def watch (db : KeyDB) (mal : Bool) (w : World) (i : Ask) (a : Manner) : Res Msg × Res Unit :=
  match i with
  | .count q _ => view w db q a.1 mal a.2
  | .average _ _ q => viewAvg w db q a.1 mal a.2

/-- The number the client gets from honest servers in the year `now`; none for an average of no keys. -/
def TrueNumber (hash : List Byte → List Byte) (db : KeyDB) (now : Int) (inOrder : Bool) : Ask → Nat → Prop
  | .count _ P, n => n = due inOrder (numMatching db P)
  | .average i text _, n => MeanOf inOrder (totalAge now (averaged hash i text now db)) (averaged hash i text now db).length n

/-- The client ends with another number. -/
def WrongNumber (db : KeyDB) (mal : Bool) (now : Int) (w : World) (i : Ask) (a : Manner) : Prop :=
  ∃ r, forgedRun w db i.query a.1 mal a.2 = ok r ∧ ¬ TrueNumber w.hash db now a.1 i r.toNat

/-- A question that the client can ask. -/
def Proper (W : World) (mk : Int → Query.Time) (db : KeyDB) (now : Int) : Ask → Prop
  | .count q P => Asks W.hash mk db q P
  | .average i text q => AsksAvg W i text now db q

/-- Two questions between which a server should not be able to tell, and a way of answering in the expected form: two counts with
the same public part and equally long inputs, answered with five words; or two averages with the same public part that both count
somebody or both count nobody, answered with ten words. No word exceeds 2^32 minus the modulus. -/
def Fair (W : World) (mk : Int → Query.Time) (db : KeyDB) (now : Int) (c : Choice Ask Manner) : Prop :=
  Proper W mk db now c.left ∧ Proper W mk db now c.right ∧
  match c.left, c.right with
  | .count q _, .count q' _ => q.info = q'.info ∧ q.input.length = q'.input.length ∧ ∀ m b, c.answer.2 m = ok b → WellFormed b
  | .average i text _, .average i' text' _ => i = i' ∧
    ((averaged W.hash i text now db).length % p = 0 ↔ (averaged W.hash i text' now db).length % p = 0) ∧
    ∀ m b, c.answer.2 m = ok b → WellFormedAvg b
  | _, _ => False

/-- What one average can reveal (C129). -/
noncomputable def avgLeak (W : World) (db : KeyDB) (mal : Bool) (e : U32) (fr : Nat → U32) (now : Int) (i : Query.Info)
    (text : List Byte) (q q' : Query.ClientFSS) (a : Manner) (D : Res Msg × Res Unit → ℚ) : ℚ :=
  let T := seeAvg W db i mal a.2 ((averaged W.hash i text now db).length % p = 0) D
  let aged := fun q => settingOf W db q a.1 mal e fr (isAged (honestNow W mal))
  let ages := fun q => settingOf W db q a.1 mal e fr (ageOf (honestNow W mal))
  keyGap W.env.E e (mal == a.1) q.input T + keyGap W.env.E e (mal == a.1) q'.input T
    + avgGap (aged q) (ages q) (wordsOf q a.2) + avgGap (aged q') (ages q') (wordsOf q' a.2)
    + hitProb W db q + hitProb W db q' + 10 / 2 ^ 31 + 3456 / (p : ℚ) ^ 3

/-- What one query can reveal (C92, C129). -/
noncomputable def leakOf (W : World) (db : KeyDB) (mal : Bool) (e : U32) (fr : Nat → U32) (now : Int) (c : Choice Ask Manner)
    (D : Res Msg × Res Unit → ℚ) : ℚ :=
  match c.left, c.right with
  | .count q P, .count q' P' => leak W db mal e fr ⟨(q, P), (q', P'), c.answer⟩ D
  | .average i text q, .average _ _ q' => avgLeak W db mal e fr now i text q q' c.answer D
  | _, _ => 1

/-- The chance of forging one number (C84, C85). -/
noncomputable def forgeOf (W : World) (db : KeyDB) (mal : Bool) (e : U32) (fr : Nat → U32) (c : Choice Ask Manner) : ℚ :=
  match c.left with
  | .count q _ =>
    forgeGap (settingOf W db q c.answer.1 mal e fr (fun _ _ => 1)) (wordsOf q c.answer.2) + 864 / (p : ℚ) ^ 3
  | .average _ _ q =>
    avgGap (settingOf W db q c.answer.1 mal e fr (isAged (honestNow W mal)))
      (settingOf W db q c.answer.1 mal e fr (ageOf (honestNow W mal))) (wordsOf q c.answer.2) + 1728 / (p : ℚ) ^ 3

end Verif.CountStream.Spec

namespace Verif.CountStream
open Res Verif.Rand Verif.Field Verif.Field.Spec Verif.Fss Verif.Fss.Spec Verif.Privacy Verif.Predicate Verif.Predicate.Spec
  Verif.History Verif.CountStream.Spec Verif.Uniform Verif.Forge Verif.Forge.Spec Verif.Reaction

theorem watch_alike (db : KeyDB) (mal : Bool) (w w' : World) (i : Ask) (a : Manner) (h : Alike w w' i.query) :
    watch db mal w i a = watch db mal w' i a := by
  cases i with
  | count q P => exact view_alike h db a.1 mal a.2
  | average i text q =>
    show viewAvg w db q a.1 mal a.2 = viewAvg w' db q a.1 mal a.2
    have h' : Alike w w' q := h
    unfold viewAvg
    rw [view_alike h', forgedRun_alike h']

theorem wrong_alike (db : KeyDB) (mal : Bool) (now : Int) (w w' : World) (i : Ask) (a : Manner) (h : Alike w w' i.query) :
    WrongNumber db mal now w i a ↔ WrongNumber db mal now w' i a := by
  unfold WrongNumber
  rw [forgedRun_alike h, show w'.hash = w.hash by rw [h.1]]

/-- One query reveals little. -/
theorem leak_one {W : World} {db : KeyDB} {mal : Bool} {e e' : U32} {fr fr' : Nat → U32} (hh : ∀ t, (W.hash t).length = 32)
    (hS : Setup W mal e fr) (hS' : Setup W (!mal) e' fr') (hdb : Loaded db) {mk : Int → Query.Time} {now : Int}
    {c : Choice Ask Manner} {D : Res Msg × Res Unit → ℚ} (hc : Fair W mk db now c) (hD : IsTest D) :
    advantage (seesDraw W (watch db mal) c.left c.answer) (seesDraw W (watch db mal) c.right c.answer) D
      ≤ leakOf W db mal e fr now c D := by
  obtain ⟨l, r, a⟩ := c
  obtain ⟨h1, h2, h3⟩ := hc
  cases l with
  | count q P =>
    cases r with
    | count q' P' =>
      have h := C92_reaction W db q q' mal a.1 e e' fr fr' a.2 D hh hS hS' hdb mk P P' h1 h2 h3.1 h3.2.1 h3.2.2 hD
      unfold viewProb at h
      rw [← avg_draw, ← avg_draw] at h
      exact h
    | average i' text' q' => exact absurd h3 id
  | average i text q =>
    cases r with
    | count q' P' => exact absurd h3 id
    | average i' text' q' =>
      obtain ⟨rfl, h4, h5⟩ := h3
      have h := C129_reaction_partial W db q q' mal a.1 e e' fr fr' a.2 D hh hS hS' hdb i text text' now h1 h2 h5 hD h4
      unfold viewAvgProb at h
      rw [← avg_draw, ← avg_draw] at h
      exact h

/-- One number is hardly ever forged. -/
theorem forge_one {W : World} {db : KeyDB} {mal : Bool} {e : U32} {fr : Nat → U32} (hh : ∀ t, (W.hash t).length = 32)
    (hS : Setup W mal e fr) (hdb : Loaded db) {mk : Int → Query.Time} {now : Int} {c : Choice Ask Manner}
    (hc : Proper W mk db now c.left) (hF : ∀ i text q, c.left = .average i text q → mal = true ∨
      ∀ k, (wordsOf q c.answer.2 k).length = 10) :
    avg (fun x : Draw => indicator (WrongNumber db mal now (drawnBy W x) c.left c.answer)) ≤ forgeOf W db mal e fr c := by
  obtain ⟨l, r, a⟩ := c
  cases l with
  | count q P =>
    have h := C84_count_forged W db q mal a.1 e fr a.2 hh hS hdb mk P hc
    rw [forgeProb_eq] at h
    exact h
  | average i text q =>
    have h := C85_average_forged_partial W db q mal a.1 e fr a.2 hh hS hdb i text now hc (hF i text q rfl)
    rw [forgeProb_eq] at h
    exact h

/-- C139, full statement: one client object makes `n` queries, counts and averages in any order, and takes the MAC keys of all of them
from its own generator, whose next bytes are random; nothing is assumed about the bytes before. One of the two servers proposes two
questions before each query, answers as it likes, sees its message and how the client ends, and remembers everything. It can tell
clients that take the left questions from clients that take the right ones by no more than: the sum of what each single query can
reveal, and `8 * n` times the chance that one MAC key is not drawn within `W.fuel` tries. -/
def C139_Statement : Prop :=
  ∀ (W : World) (db : KeyDB) (mal : Bool) (e e' : U32) (fr fr' : Nat → U32) (mk : Int → Query.Time) (now : Int)
    (S : Server Ask Manner (Res Msg × Res Unit)) (hang : List (Res Msg × Res Unit) → ℚ) (n N pos : Nat) (rest : Nat → Byte),
    (∀ t, (W.hash t).length = 32) → Setup W mal e fr → Setup W (!mal) e' fr' → Loaded db → IsTest S.decide → IsTest hang →
    (∀ past, Fair W mk db now (S.choose past)) → 4 * W.fuel * n ≤ N →
    |decision rest pos N W Ask.query (watch db mal) S hang false n - decision rest pos N W Ask.query (watch db mal) S hang true n|
      ≤ History.total (fun i a x => watch db mal (drawnBy W x) i a) S (leakOf W db mal e fr now) n []
        + 8 * n / 2 ^ (31 * W.fuel)

theorem C139_holds : C139_Statement := by
  intro W db mal e e' fr fr' mk now S hang n N pos rest hh hS hS' hdb hD hH hq hN
  have h := session_le hS (watch_alike db mal) hD hH (n := n)
    (telling_le hD (Fair W mk db now) hq (fun c D hc hD => leak_one hh hS hS' hdb hc hD) n) rest pos (N := N) (by linarith)
  refine le_trans h (le_of_eq ?_)
  unfold fail seesDraw
  ring

/-- C140, full statement: in such a session, one of the two servers answers as it likes (to averages with ten words, if it is
server 0). The chance that the client ends one of the `n` queries with a wrong number is at most the sum of the chances of forging each
single number. Nothing is lost by the MAC keys coming from the client's own generator. -/
def C140_Statement : Prop :=
  ∀ (W : World) (db : KeyDB) (mal : Bool) (e : U32) (fr : Nat → U32) (mk : Int → Query.Time) (now : Int)
    (S : Server Ask Manner (Res Msg × Res Unit)) (n N pos : Nat) (rest : Nat → Byte),
    (∀ t, (W.hash t).length = 32) → Setup W mal e fr → Loaded db →
    (∀ past, Proper W mk db now (S.choose past).left ∧ ∀ i text q, (S.choose past).left = .average i text q → mal = true ∨
      ∀ k, (wordsOf q (S.choose past).answer.2 k).length = 10) → 4 * W.fuel * n ≤ N →
    wrongPart rest pos N W Ask.query (watch db mal) (WrongNumber db mal now) S n
      ≤ History.total (fun i a x => watch db mal (drawnBy W x) i a) S (fun c _ => forgeOf W db mal e fr c) n []

theorem C140_holds : C140_Statement := by
  intro W db mal e fr mk now S n N pos rest hh hS hdb hq hN
  have h : everWrong (seesDraw W (watch db mal)) (fun i a x => WrongNumber db mal now (drawnBy W x) i a) S n []
      ≤ History.total (seesDraw W (watch db mal)) S (fun c _ => forgeOf W db mal e fr c) n [] := by
    refine everWrong_bound (fun c => Proper W mk db now c.left ∧ ∀ i text q, c.left = .average i text q → mal = true ∨
      ∀ k, (wordsOf q c.answer.2 k).length = 10) hq ?_ n
    intro c hc
    exact forge_one hh hS hdb hc.1 hc.2
  exact wrong_le hS (watch_alike db mal) (wrong_alike db mal now) h rest pos (by linarith)

/-- What the keys cost is small: with four tries for a key, a million queries add less than `2^(-100)`. -/
theorem C139_small (n : Nat) (hn : n ≤ 10 ^ 6) : 8 * (n : ℚ) / 2 ^ (31 * 4) < 1 / 2 ^ 100 := by
  have h : (n : ℚ) ≤ ((10 ^ 6 : Nat) : ℚ) := Nat.cast_le.2 hn
  push_cast at h
  rw [div_lt_div_iff₀ (by positivity) (by positivity)]
  norm_num
  linarith

/-! ### Concrete cases -/

/-- A server that proposes the counts of RSA and DSA keys, then the average ages of two groups of keys, and so on. -/
noncomputable def alternating (D : List (Res Msg × Res Unit) → ℚ) : Server Ask Manner (Res Msg × Res Unit) where
  choose past :=
    if past.length % 2 = 0 then
      ⟨.count exQuery (fun ki => ki.algo.toNat = 1), .count dsaQuery (fun ki => ki.algo.toNat = 17), (true, firstByte)⟩
    else ⟨.average avgInfo [2, 3] avgQuery, .average avgInfo [2, 4] avgQuery', (true, firstByteTen)⟩
  decide := D

theorem alternating_fair (D : List (Res Msg × Res Unit) → ℚ) (past : List (Res Msg × Res Unit)) :
    Fair (world parityCipher 5 10 10) Query.dayTime avgDB 10 ((alternating D).choose past) := by
  have l1 : (averaged (world parityCipher 5 10 10).hash avgInfo [2, 3] 10 avgDB).length = 1 := by decide
  have l2 : (averaged (world parityCipher 5 10 10).hash avgInfo [2, 4] 10 avgDB).length = 1 := by decide
  unfold alternating
  dsimp only
  split
  · exact ⟨exQuery_asks _ _, dsaQuery_asks _ _, rfl, rfl, firstByte_wellFormed⟩
  · exact ⟨avgAsks 5 [2, 3] (by simp), avgAsks 5 [2, 4] (by simp), rfl, by rw [l1, l2], firstByteTen_wellFormed⟩

/-- The hypotheses of C139 are met by this server: three queries, so two counts and an average, by a client that tries each key
twice, with 24 blocks of random bytes from position 7 on. -/
example (D hang : List (Res Msg × Res Unit) → ℚ) (hD : IsTest D) (hH : IsTest hang) (rest : Nat → Byte) :
    |decision rest 7 24 (world parityCipher 5 10 10) Ask.query (watch avgDB true) (alternating D) hang false 3
      - decision rest 7 24 (world parityCipher 5 10 10) Ask.query (watch avgDB true) (alternating D) hang true 3|
      ≤ History.total (fun i a x => watch avgDB true (drawnBy (world parityCipher 5 10 10) x) i a) (alternating D)
          (leakOf (world parityCipher 5 10 10) avgDB true 0 (fun _ => 1) 10) 3 []
        + 8 * (3 : Nat) / 2 ^ (31 * (world parityCipher 5 10 10).fuel) :=
  C139_holds (world parityCipher 5 10 10) avgDB true 0 0 (fun _ => 1) (fun _ => 2) Query.dayTime 10 (alternating D) hang 3 24 7 rest
    exHash_length (world_setup _ parityCipher_block 10 10 true) (world_setup _ parityCipher_block 10 10 false) rfl hD hH
    (alternating_fair D) (by norm_num [world])

/-- The hypotheses of C140 are met by this server, which is server 1. -/
example (D : List (Res Msg × Res Unit) → ℚ) (rest : Nat → Byte) :
    wrongPart rest 7 24 (world parityCipher 5 10 10) Ask.query (watch avgDB true) (WrongNumber avgDB true 10) (alternating D) 3
      ≤ History.total (fun i a x => watch avgDB true (drawnBy (world parityCipher 5 10 10) x) i a) (alternating D)
          (fun c _ => forgeOf (world parityCipher 5 10 10) avgDB true 0 (fun _ => 1) c) 3 [] :=
  C140_holds (world parityCipher 5 10 10) avgDB true 0 (fun _ => 1) Query.dayTime 10 (alternating D) 3 24 7 rest
    exHash_length (world_setup _ parityCipher_block 10 10 true) rfl
    (fun past => ⟨(alternating_fair D past).1, fun _ _ _ _ => Or.inl rfl⟩) (by norm_num [world])

/-- Two queries of one object: the second one starts where the first one stopped, four blocks further on, with other keys. -/
example : (match afterQuery (seeded (world parityCipher 5 10 10) ⟨fun i => BitVec.ofNat 8 i, 0⟩ (initFss 5) (fun _ => 1, fun _ => 2, 3))
      exQuery with
    | ok (g, buf) => (match drawKeys 2 5 g with
      | ok (st, _) => [g.pos, buf.length] ++ st.a.map BitVec.toNat
      | _ => [])
    | _ => []) = [64, 20, 1, 1078018627, 1347506771, 1616994915, 1886483059] := by
  decide +kernel

end Verif.CountStream
