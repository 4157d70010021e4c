import Verif.Spec.CountHonest
import Verif.Props.CountStream
import Verif.Props.Chance

/-! # C153: sessions of counts and averages that two honest servers answer -/

namespace Verif.CountStream.Spec
open Res Verif.Rand Verif.Field Verif.Field.Spec Verif.Privacy Verif.Predicate Verif.Predicate.Spec Verif.History Verif.Forge
  Verif.Forge.Spec

/-- All that is sent in a query, and how the client ends. -/
def sent (db : KeyDB) (w : World) (i : Ask) : Res (List Msg) × Res U32 :=
  ((do let (ms, _, _, _) ← query w.env w.fuel 5 w.rnd w.buf w.r1 w.r2 i.query 2; ok ms), w.run 5 db i.query true)

/-- The client ends with the number asked for: the number of matching keys (modulo the modulus `2^31 - 1`), or the average age. -/
def RightNumber (db : KeyDB) (now : Int) (w : World) (i : Ask) : Prop :=
  ∃ r, w.run 5 db i.query true = ok r ∧ match i with
    | .count _ P => r.toNat = numMatching db P % p
    | .average i text _ => r.toNat = totalAge now (averaged w.hash i text now db) / (averaged w.hash i text now db).length

/-- An average that can be computed: keys match, and sums stay below the modulus. -/
def Computable (hash : List Byte → List Byte) (db : KeyDB) (now : Int) : Ask → Prop
  | .count _ _ => True
  | .average i text _ => averaged hash i text now db ≠ [] ∧ (averaged hash i text now db).length < p ∧
      totalAge now (averaged hash i text now db) < p

end Verif.CountStream.Spec

namespace Verif.CountStream
open Res Verif.Rand Verif.Field Verif.Field.Spec Verif.Fss Verif.Fss.Spec Verif.Privacy Verif.Predicate Verif.Predicate.Spec
  Verif.History Verif.CountStream.Spec Verif.Uniform Verif.Forge Verif.Forge.Spec Verif.Reaction Finset

/-- C153: one client object makes `n` queries, counts and averages in any order, and takes the MAC keys of all of them from its own
generator, whose next bytes are random; nothing is assumed about the bytes before. The two servers are honest, and the questions are
chosen by somebody who sees all messages and results. The part of the random bytes and seeds for which not all queries end with
the right number is at most `n` times the largest bound of C102 on a single query, plus `4 * n` times the chance that one
MAC key is not drawn within `W.fuel` tries. -/
def C153_Statement : Prop :=
  ∀ (W : World) (db : KeyDB) (e e' : U32) (fr fr' : Nat → U32) (mk : Int → Query.Time) (now : Int)
    (ask : List (Res (List Msg) × Res U32) → Ask) (n N pos : Nat) (rest : Nat → Byte) (ε : ℚ),
    (∀ t, (W.hash t).length = 32) → Setup W true e fr → Setup W false e' fr' → Loaded db →
    (∀ past, Proper W mk db now (ask past) ∧ Computable W.hash db now (ask past) ∧
      Chance.runBound W.env.E W.hash db (ask past).query ≤ ε) → 4 * W.fuel * n ≤ N →
    missedPart rest pos N W Ask.query (sent db) (RightNumber db now) ask n ≤ n * (ε + 4 / 2 ^ (31 * W.fuel))

theorem run_alike {w w' : World} {q : Query.ClientFSS} (h : Alike w w' q) (db : KeyDB) (inOrder : Bool) :
    w.run 5 db q inOrder = w'.run 5 db q inOrder := by
  obtain ⟨e, ms, st, g, o, g', o', h1, h2⟩ := h
  have hs : ∀ sn m, w'.serve sn 5 db m = w.serve sn 5 db m := by
    intro sn m
    rw [e]
    rfl
  unfold World.run
  rw [h1, h2]
  simp only [ok_bind, hs]

theorem sent_alike (db : KeyDB) (w w' : World) (i : Ask) (h : Alike w w' i.query) : sent db w i = sent db w' i := by
  unfold sent
  rw [run_alike h]
  obtain ⟨e, ms, st, g, o, g', o', h1, h2⟩ := h
  rw [h1, h2]
  rfl

theorem right_alike (db : KeyDB) (now : Int) (w w' : World) (i : Ask) (h : Alike w w' i.query) :
    RightNumber db now w i ↔ RightNumber db now w' i := by
  unfold RightNumber
  rw [run_alike h, show w'.hash = w.hash by rw [h.1]]

section
variable {I V : Type} {W : World} {query : I → Query.ClientFSS} {seen : World → I → V} {right : World → I → Prop}

/-- Somebody who chooses the questions and says yes iff the keys are not drawn. -/
def chooser (ask : List V → I) : Server I Unit V := ⟨fun past => ⟨ask past, ask past, ()⟩, fun _ => 0⟩

/-- A session fails by a wrong query or by keys that are not drawn. -/
theorem misses_le (ask : List V → I) : ∀ n past g buf,
    misses W query seen right ask n past g buf ≤
      goesWrong W query (fun w i (_ : Unit) => seen w i) (fun w i _ => ¬ right w i) (chooser ask) n past g buf +
      decides W query (fun w i (_ : Unit) => seen w i) (chooser ask) (fun _ => 1) false n past g buf := by
  classical
  intro n
  induction n with
  | zero =>
    intro past g buf
    simp [misses, goesWrong, decides, chooser]
  | succ n ih =>
    intro past g buf
    have hd : ∀ n past g buf, 0 ≤ decides W query (fun w i (_ : Unit) => seen w i) (chooser ask) (fun _ => 1) false n past g buf := by
      intro n
      induction n with
      | zero => intro past g buf; exact le_rfl
      | succ n ih =>
        intro past g buf
        refine avg_nonneg (fun x => ?_)
        split
        · exact ih _ _ _
        · exact zero_le_one
    rw [misses, goesWrong, decides, Reaction.avg_add]
    refine avg_mono (fun x => ?_)
    show _ ≤ (match afterQuery (seeded W g buf x) (query (ask past)) with
      | ok (g', buf') => @ite ℚ (¬ right (seeded W g buf x) (ask past)) (Classical.propDecidable _) 1
          (goesWrong W query (fun w i (_ : Unit) => seen w i) (fun w i _ => ¬ right w i) (chooser ask) n
            (past ++ [seen (seeded W g buf x) (ask past)]) g' buf')
      | _ => 0) +
      (match afterQuery (seeded W g buf x) (query (ask past)) with
      | ok (g', buf') => decides W query (fun w i (_ : Unit) => seen w i) (chooser ask) (fun _ => 1) false n
            (past ++ [seen (seeded W g buf x) (ask past)]) g' buf'
      | _ => 1)
    cases afterQuery (seeded W g buf x) (query (ask past)) with
    | ok r =>
      obtain ⟨g', buf'⟩ := r
      dsimp only
      by_cases h : right (seeded W g buf x) (ask past)
      · rw [if_pos h, if_neg (not_not.2 h)]
        exact ih _ _ _
      · rw [if_neg h, if_pos h]
        have := hd n (past ++ [seen (seeded W g buf x) (ask past)]) g' buf'
        linarith
    | err m => exact le_of_eq (zero_add _).symm
    | crash m => exact le_of_eq (zero_add _).symm
end

theorem session_zero {I A V Ω : Type} [Fintype Ω] [Nonempty Ω] (see : I → A → Ω → V) (S : Server I A V) (right : Bool)
    (h : ∀ past, S.decide past = 0) : ∀ n past, session see S right n past = 0 := by
  intro n
  induction n with
  | zero => exact h
  | succ n ih =>
    intro past
    rw [session]
    simp only [ih]
    exact avg_const _

/-- One query with any keys. -/
theorem one_missed {W : World} {db : KeyDB} {e e' : U32} {fr fr' : Nat → U32} (hh : ∀ t, (W.hash t).length = 32)
    (hS : Setup W true e fr) (hS' : Setup W false e' fr') (hdb : Loaded db) {mk : Int → Query.Time} {now : Int} {i : Ask}
    (hi : Proper W mk db now i) (hc : Computable W.hash db now i) :
    avg (fun x : Draw => indicator (¬ RightNumber db now (drawnBy W x) i)) ≤ Chance.runBound W.env.E W.hash db i.query := by
  have h1 := avg_draw (fun β α s0 s1 tb => indicator (¬ RightNumber db now (drawn W β α s0 s1 tb) i))
  refine h1.le.trans ?_
  rw [← avg_coins (fun y x => indicator (¬ RightNumber db now (drawn W y.1 y.2 x.1 x.2.1 x.2.2) i)), avg_comm]
  refine Reaction.avg_le (fun y => ?_)
  obtain ⟨r, hr⟩ := drawKeys_mac hS.fuel y.1 y.2
  have hR : Ready { W with rnd := macSource y.1 y.2, r1 := List.replicate 17 0, r2 := List.replicate 16 0 } 5 :=
    ⟨hS.cipher, hS.same, hS'.same, hS.buf, hS.buf0, hS.buf1, by simp, by simp, _, hr⟩
  have key : Chance.chance (fun s0 s1 tb => ¬ RightNumber db now (drawn W y.1 y.2 s0 s1 tb) i) ≤
      Chance.runBound W.env.E W.hash db i.query := by
    cases i with
    | count q P => exact (Chance.C102_rarely { W with rnd := macSource y.1 y.2, r1 := List.replicate 17 0, r2 := List.replicate 16 0 } db q hh hR hdb).1 mk P hi
    | average i text q =>
      have hA : AsksAvg { W with rnd := macSource y.1 y.2, r1 := List.replicate 17 0, r2 := List.replicate 16 0 } i text now db q := by
        have hi' : AsksAvg W i text now db q := hi
        cases hi'
        constructor <;> assumption
      exact (Chance.C102_rarely { W with rnd := macSource y.1 y.2, r1 := List.replicate 17 0, r2 := List.replicate 16 0 } db q hh hR hdb).2 i text now hA hc.1 hc.2.1 hc.2.2
  refine le_trans (le_of_eq ?_) key
  unfold Chance.chance
  rw [avg_prod']
  refine avg_congr fun s0 => ?_
  rw [avg_prod']
  refine avg_congr fun s1 => avg_congr fun tb => ?_
  unfold indicator
  split <;> rename_i h <;> simp

theorem C153_holds : C153_Statement := by
  intro W db e e' fr fr' mk now ask n N pos rest ε hh hS hS' hdb hq hN
  have hε : 0 ≤ ε := (avg_nonneg (fun _ => indicator_nonneg _)).trans
    ((one_missed hh hS hS' hdb (hq []).1 (hq []).2.1).trans (hq []).2.2)
  have hN' : W.fuel * 4 * n ≤ N := by linarith
  have h1 : missedPart rest pos N W Ask.query (sent db) (RightNumber db now) ask n ≤
      wrongPart rest pos N W Ask.query (fun w i (_ : Unit) => sent db w i) (fun w i _ => ¬ RightNumber db now w i) (chooser ask) n +
      decision rest pos N W Ask.query (fun w i (_ : Unit) => sent db w i) (chooser ask) (fun _ => 1) false n := by
    unfold missedPart wrongPart decision
    rw [Reaction.avg_add]
    exact avg_mono (fun B => misses_le ask n [] _ _)
  have hsee : ∀ w w' i (a : Unit), Alike w w' (Ask.query i) → (fun w i (_ : Unit) => sent db w i) w i a =
      (fun w i (_ : Unit) => sent db w i) w' i a := fun w w' i _ h => sent_alike db w w' i h
  have h2 : wrongPart rest pos N W Ask.query (fun w i (_ : Unit) => sent db w i) (fun w i _ => ¬ RightNumber db now w i)
      (chooser ask) n ≤ n * ε := by
    refine wrong_le hS hsee (fun w w' i _ h => not_congr (right_alike db now w w' i h)) ?_ rest pos hN'
    refine (everWrong_bound (bound := fun _ => ε) (fun c => Proper W mk db now c.left ∧ Computable W.hash db now c.left ∧
      Chance.runBound W.env.E W.hash db c.left.query ≤ ε) hq ?_ n).trans (History.total_le _ _ (fun _ _ => ε) _ hε (fun _ _ => le_rfl) n [])
    intro c hc
    exact (one_missed hh hS hS' hdb hc.1 hc.2.1).trans hc.2.2
  have h3 : decision rest pos N W Ask.query (fun w i (_ : Unit) => sent db w i) (chooser ask) (fun _ => 1) false n ≤
      n * (4 / 2 ^ (31 * W.fuel)) := by
    unfold decision
    rw [decides_mean hS hsee (chooser ask) (fun _ => 1) false n [] W.buf hS.buf rest pos N hN']
    obtain ⟨m0, m1, m2⟩ := missing_bound W.fuel
    have h4 := mixed_close (W := W) (see := fun w i (_ : Unit) => sent db w i) (chooser ask) (hang := fun _ => (1 : ℚ))
      (fun _ => ⟨le_rfl, zero_le_one⟩) (fun _ => ⟨zero_le_one, le_rfl⟩) false m2 (by linarith) n []
    rw [session_zero _ _ _ (fun _ => rfl), sub_zero] at h4
    refine (le_abs_self _).trans (h4.trans (mul_le_mul_of_nonneg_left (m1.trans (le_of_eq ?_)) (by positivity)))
    unfold fail
    ring
  refine h1.trans ((add_le_add h2 h3).trans (le_of_eq ?_))
  ring

/-- A user who counts the keys with an algorithm, then asks for an average age, then counts again, and so on. -/
def inTurn (past : List (Res (List Msg) × Res U32)) : Ask :=
  if past.length % 2 = 0 then .count exQuery (fun ki => ki.algo.toNat = 1) else .average avgInfo [2, 3] avgQuery

/-- The hypotheses of C153 are met by three questions of this user: a count, an average, a count. -/
example (rest : Nat → Byte) :
    missedPart rest 7 24 (world parityCipher 5 10 10) Ask.query (sent avgDB) (RightNumber avgDB 10) inTurn 3
      ≤ (3 : Nat) * (max (Chance.runBound parityCipher exHash avgDB exQuery) (Chance.runBound parityCipher exHash avgDB avgQuery)
        + 4 / 2 ^ (31 * (world parityCipher 5 10 10).fuel)) := by
  refine C153_holds (world parityCipher 5 10 10) avgDB 0 0 (fun _ => 1) (fun _ => 2) Query.dayTime 10 inTurn 3 24 7 rest _
    exHash_length (world_setup _ parityCipher_block 10 10 true) (world_setup _ parityCipher_block 10 10 false) rfl ?_
    (by norm_num [world])
  intro past
  unfold inTurn
  split
  · exact ⟨exQuery_asks _ _, trivial, le_max_left _ _⟩
  · exact ⟨avgAsks 5 [2, 3] (by simp), ⟨by decide, by decide, by decide⟩, le_max_right _ _⟩

end Verif.CountStream
