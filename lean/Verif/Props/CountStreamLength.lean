import Verif.Props.CountStream
import Verif.Props.ReactionAverageLength

/-! # C157: sessions of counts and averages against a server that answers with any number of words -/

namespace Verif.CountStream.Spec
open Res Verif.Rand Verif.Field Verif.Field.Spec Verif.Fss Verif.Fss.Spec Verif.Privacy Verif.Predicate Verif.Predicate.Spec
  Verif.History Verif.Uniform Verif.Forge Verif.Forge.Spec Verif.Reaction

/-- Two questions between which a server should not be able to tell, and a way of answering with any number of words: two counts with
the same public part and equally long inputs; or two averages with the same public part that both count somebody or both count
nobody. No word that the client reads exceeds 2^32 minus the modulus. -/
def FairAny (W : World) (mk : Int → Query.Time) (db : KeyDB) (now : Int) (c : Choice Ask Manner) : Prop :=
  Proper W mk db now c.left ∧ Proper W mk db now c.right ∧
  match c.left, c.right with
  | .count q _, .count q' _ => q.info = q'.info ∧ q.input.length = q'.input.length ∧ ∀ m b, c.answer.2 m = ok b → SmallStart b
  | .average i text _, .average i' text' _ => i = i' ∧
    ((averaged W.hash i text now db).length % p = 0 ↔ (averaged W.hash i text' now db).length % p = 0) ∧
    ∀ m b, c.answer.2 m = ok b → SmallTen b
  | _, _ => False

/-- What one count can reveal (C154). -/
noncomputable def countLeakAny (W : World) (db : KeyDB) (mal : Bool) (e : U32) (fr : Nat → U32) (P P' : KeyInfo → Prop)
    (q q' : Query.ClientFSS) (a : Manner) (D : Res Msg × Res Unit → ℚ) : ℚ :=
  keyGap W.env.E e (mal == a.1) q.input (foreseeTest W db q.info mal a.2 D)
    + keyGap W.env.E e (mal == a.1) q'.input (foreseeTest W db q.info mal a.2 D)
    + firstGap (settingOf W db q a.1 mal e fr (fun _ _ => 1)) (wordsOf q a.2)
    + firstGap (settingOf W db q' a.1 mal e fr (fun _ _ => 1)) (wordsOf q' a.2)
    + failProb W db q a.1 (due a.1 (numMatching db P)) + failProb W db q' a.1 (due a.1 (numMatching db P'))
    + 10 / 2 ^ 31 + 192 / (p : ℚ)

/-- What one average can reveal (C156). -/
noncomputable def avgLeakAny (W : World) (db : KeyDB) (mal : Bool) (e : U32) (fr : Nat → U32) (now : Int) (i : Query.Info)
    (text : List Byte) (q q' : Query.ClientFSS) (a : Manner) (D : Res Msg × Res Unit → ℚ) : ℚ :=
  let T := foreseeAvg W db i mal a.2 ((averaged W.hash i text now db).length % p = 0) D
  let aged := fun q => settingOf W db q a.1 mal e fr (isAged (honestNow W mal))
  let ages := fun q => settingOf W db q a.1 mal e fr (ageOf (honestNow W mal))
  keyGap W.env.E e (mal == a.1) q.input T + keyGap W.env.E e (mal == a.1) q'.input T
    + firstEitherGap (aged q) (ages q) (wordsOf q a.2) + firstEitherGap (aged q') (ages q') (wordsOf q' a.2)
    + hitProb W db q + hitProb W db q' + 10 / 2 ^ 31 + 384 / (p : ℚ)

/-- What one query can reveal (C154, C156). -/
noncomputable def leakAny (W : World) (db : KeyDB) (mal : Bool) (e : U32) (fr : Nat → U32) (now : Int) (c : Choice Ask Manner)
    (D : Res Msg × Res Unit → ℚ) : ℚ :=
  match c.left, c.right with
  | .count q P, .count q' P' => countLeakAny W db mal e fr P P' q q' c.answer D
  | .average i text q, .average _ _ q' => avgLeakAny W db mal e fr now i text q q' c.answer D
  | _, _ => 1

end Verif.CountStream.Spec

namespace Verif.CountStream
open Res Verif.Rand Verif.Field Verif.Field.Spec Verif.Fss Verif.Fss.Spec Verif.Privacy Verif.Predicate Verif.Predicate.Spec
  Verif.History Verif.CountStream.Spec Verif.Uniform Verif.Forge Verif.Forge.Spec Verif.Reaction

/-- One query reveals little, whatever the length of the answer. -/
theorem leak_one_any {W : World} {db : KeyDB} {mal : Bool} {e e' : U32} {fr fr' : Nat → U32} (hh : ∀ t, (W.hash t).length = 32)
    (hS : Setup W mal e fr) (hS' : Setup W (!mal) e' fr') (hdb : Loaded db) {mk : Int → Query.Time} {now : Int}
    {c : Choice Ask Manner} {D : Res Msg × Res Unit → ℚ} (hc : FairAny W mk db now c) (hD : IsTest D) :
    advantage (seesDraw W (watch db mal) c.left c.answer) (seesDraw W (watch db mal) c.right c.answer) D
      ≤ leakAny W db mal e fr now c D := by
  obtain ⟨l, r, a⟩ := c
  obtain ⟨h1, h2, h3⟩ := hc
  cases l with
  | count q P =>
    cases r with
    | count q' P' =>
      have h := C154_reaction W db q q' mal a.1 e e' fr fr' a.2 D hh hS hS' hdb mk P P' h1 h2 h3.1 h3.2.1 h3.2.2 hD
      unfold viewProb at h
      rw [← avg_draw, ← avg_draw] at h
      exact h
    | average i' text' q' => exact absurd h3 id
  | average i text q =>
    cases r with
    | count q' P' => exact absurd h3 id
    | average i' text' q' =>
      obtain ⟨rfl, h4, h5⟩ := h3
      have h := C156_reaction W db q q' mal a.1 e e' fr fr' a.2 D hh hS hS' hdb i text text' now h1 h2 h5 hD h4
      unfold viewAvgProb at h
      rw [← avg_draw, ← avg_draw] at h
      exact h

/-- C157, full statement: one client object makes `n` queries, counts and averages in any order, and takes the MAC keys of all of them
from its own generator, whose next bytes are random; nothing is assumed about the bytes before. One of the two servers proposes two
questions before each query, answers with any number of words, sees its message and how the client ends, and remembers everything.
It can tell clients that take the left questions from clients that take the right ones by no more than: the sum of what each single
query can reveal, and `8 * n` times the chance that one MAC key is not drawn within `W.fuel` tries. -/
def C157_Statement : Prop :=
  ∀ (W : World) (db : KeyDB) (mal : Bool) (e e' : U32) (fr fr' : Nat → U32) (mk : Int → Query.Time) (now : Int)
    (S : Server Ask Manner (Res Msg × Res Unit)) (hang : List (Res Msg × Res Unit) → ℚ) (n N pos : Nat) (rest : Nat → Byte),
    (∀ t, (W.hash t).length = 32) → Setup W mal e fr → Setup W (!mal) e' fr' → Loaded db → IsTest S.decide → IsTest hang →
    (∀ past, FairAny W mk db now (S.choose past)) → 4 * W.fuel * n ≤ N →
    |decision rest pos N W Ask.query (watch db mal) S hang false n - decision rest pos N W Ask.query (watch db mal) S hang true n|
      ≤ History.total (fun i a x => watch db mal (drawnBy W x) i a) S (leakAny W db mal e fr now) n []
        + 8 * n / 2 ^ (31 * W.fuel)

theorem C157_holds : C157_Statement := by
  intro W db mal e e' fr fr' mk now S hang n N pos rest hh hS hS' hdb hD hH hq hN
  have h := session_le hS (watch_alike db mal) hD hH (n := n)
    (telling_le hD (FairAny W mk db now) hq (fun c D hc hD => leak_one_any hh hS hS' hdb hc hD) n) rest pos (N := N) (by linarith)
  refine le_trans h (le_of_eq ?_)
  unfold fail seesDraw
  ring

/-- The numbers in C157 are small: a thousand queries, with four tries for a MAC key, add less than one in 5000. -/
theorem C157_small (n : Nat) (hn : n ≤ 1000) :
    n * ((10 : ℚ) / 2 ^ 31 + 384 / (p : ℚ)) + 8 * n / 2 ^ (31 * 4) < 1 / 5000 := by
  have h : (n : ℚ) ≤ ((1000 : Nat) : ℚ) := Nat.cast_le.2 hn
  push_cast at h
  rw [p_val]
  norm_num
  linarith

/-! ### Concrete cases -/

/-- A server that proposes the counts of RSA and DSA keys, then the average ages of two groups of keys, and so on, and answers with
from 0 to 255 words. -/
noncomputable def wordy (D : List (Res Msg × Res Unit) → ℚ) : Server Ask Manner (Res Msg × Res Unit) where
  choose past :=
    if past.length % 2 = 0 then
      ⟨.count exQuery (fun ki => ki.algo.toNat = 1), .count dsaQuery (fun ki => ki.algo.toNat = 17), (true, manyWords)⟩
    else ⟨.average avgInfo [2, 3] avgQuery, .average avgInfo [2, 4] avgQuery', (true, manyWords)⟩
  decide := D

theorem wordy_fair (D : List (Res Msg × Res Unit) → ℚ) (past : List (Res Msg × Res Unit)) :
    FairAny (world parityCipher 5 10 10) Query.dayTime avgDB 10 ((wordy D).choose past) := by
  have l1 : (averaged (world parityCipher 5 10 10).hash avgInfo [2, 3] 10 avgDB).length = 1 := by decide
  have l2 : (averaged (world parityCipher 5 10 10).hash avgInfo [2, 4] 10 avgDB).length = 1 := by decide
  unfold wordy
  dsimp only
  split
  · exact ⟨exQuery_asks _ _, dsaQuery_asks _ _, rfl, rfl, fun m b h j _ => manyWords_at m b h j⟩
  · exact ⟨avgAsks 5 [2, 3] (by simp), avgAsks 5 [2, 4] (by simp), rfl, by rw [l1, l2], fun m b h j _ => manyWords_at m b h j⟩

/-- The hypotheses of C157 are met by this server: three queries, so two counts and an average, by a client that tries each key
twice, with 24 blocks of random bytes from position 7 on. -/
example (D hang : List (Res Msg × Res Unit) → ℚ) (hD : IsTest D) (hH : IsTest hang) (rest : Nat → Byte) :
    |decision rest 7 24 (world parityCipher 5 10 10) Ask.query (watch avgDB true) (wordy D) hang false 3
      - decision rest 7 24 (world parityCipher 5 10 10) Ask.query (watch avgDB true) (wordy D) hang true 3|
      ≤ History.total (fun i a x => watch avgDB true (drawnBy (world parityCipher 5 10 10) x) i a) (wordy D)
          (leakAny (world parityCipher 5 10 10) avgDB true 0 (fun _ => 1) 10) 3 []
        + 8 * (3 : Nat) / 2 ^ (31 * (world parityCipher 5 10 10).fuel) :=
  C157_holds (world parityCipher 5 10 10) avgDB true 0 0 (fun _ => 1) (fun _ => 2) Query.dayTime 10 (wordy D) hang 3 24 7 rest
    exHash_length (world_setup _ parityCipher_block 10 10 true) (world_setup _ parityCipher_block 10 10 false) rfl hD hH
    (wordy_fair D) (by norm_num [world])

/-- This server's answers are outside what C139 covers: to a message with a seed of no bytes it answers with no words. -/
example : ∃ m b, manyWords m = ok b ∧ ¬ WellFormed b := by
  refine ⟨⟨⟨0, 0, 0, false, false, false⟩, ⟨[], 0, [], []⟩⟩, [], rfl, ?_⟩
  rintro ⟨a, ha, hl, -⟩
  have : a = [] := by
    have h0 : Utils.byteSliceToUint32Slice [] = ok [] := by decide
    rw [h0] at ha
    cases ha
    rfl
  rw [this] at hl
  cases hl

end Verif.CountStream
