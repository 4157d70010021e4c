import Verif.Spec.AmplifyHonest
import Verif.Props.AmplifyStream
import Verif.Props.AmplifyChance
import Verif.Props.LweHonest

/-! # C152: sessions of amplified lattice lookups that an honest server answers -/

namespace Verif.AmplifyStream
open Res Verif.Rand Verif.Matrix Verif.Lwe Verif.Lwe.Spec Verif.Gauss Verif.Privacy Verif.Coins Verif.Coins.Spec Verif.Reaction
  Verif.History Verif.LweReal Verif.LweReal.Spec Verif.LweDraws Verif.Monitor.Spec Verif.LweStream Verif.LweStream.Spec
  Verif.AmplifyStream.Spec

/-- C152: an amplified client object with `2t+1` base clients makes `n` lookups one after the other, all from the same generators, and
the server answers honestly. Whatever the generators delivered before, whatever the database holds, and even if the entries are
chosen by somebody who sees all messages: the part of the random bytes of the generators for which not all lookups end with the
stored bit is at most `n` times the chance that not both the first and more than half of `2t+1` multipliers are away from zero (nothing, if
all stored bits are zero), plus `n(2t+1)·2·columns/2^(38·rows)`, plus four times the chance that `c` random words per noise value do
not suffice. The part for which not all lookups end without a wrong bit is at most the same with the chance that both the first and
more than half of the multipliers are near zero. -/
def C152_Statement : Prop :=
  ∀ fl : ℚ → ℚ, Nearest fl → ∀ (aesctr : List Byte → Nat → Byte) (P : Past) (ask : List (Res (List Byte) × Res Unit) → Nat)
    (n t c : Nat), 4 ≤ c →
    ∀ db : Db 32, Published lwe32 aesctr 1100 db → 84 * db.numRows ≤ 2 ^ 31 → 2 * t + 1 < 2 ^ 32 → 8 + 4 * db.numColumns < 2 ^ 32 →
      c * (n * (2 * t + 1) * db.numRows) ≤ P.N → n * (2 * t + 1) * 4416 ≤ P.M → (∀ past, ask past < db.numRows * db.numColumns) →
      let p := paramsWithDatabaseSize db.numRows db.numColumns
      let rare : ℚ := n * ((2 * t + 1) * (2 * db.numColumns) / 2 ^ (38 * db.numRows)) +
        4 * (n * (2 * t + 1) * db.numRows * (11 / 10 * (97 / 100) ^ c))
      ∀ one : ℚ, 0 ≤ one →
        (((∃ i j, storedBit db.matrix i j ≠ 0) → 1 - firstAndMost t (1 - (168 * db.numRows - 1) / 2 ^ 32) ≤ one) →
          missedPartAll P fl aesctr p db t (RightAll aesctr p db) ask n ≤ n * one + rare) ∧
        (((∃ i j, storedBit db.matrix i j ≠ 0) → firstAndMost t ((168 * db.numRows - 1) / 2 ^ 32) ≤ one) →
          missedPartAll P fl aesctr p db t (SafeAll aesctr p db) ask n ≤ n * one + rare)

/-- A session of lookups that fail with the chance `ε` each. -/
theorem missedAll_le {fl : ℚ → ℚ} (hf : Nearest fl) (aesctr : List Byte → Nat → Byte) (P : Past)
    (ask : List (Res (List Byte) × Res Unit) → Nat) (n t c : Nat) (hc : 4 ≤ c) (p : Params) (db : Db 32)
    (hN : c * (n * (2 * t + 1) * db.numRows) ≤ P.N) (hM : n * (2 * t + 1) * stride 4 p.n ≤ P.M)
    (hask : ∀ past, ask past < db.numRows * db.numColumns) (right : Nat → List Coins → Prop) (ε : ℚ) (h0 : 0 ≤ ε)
    (hε : ∀ i, i < db.numRows * db.numColumns →
      ownAvg fl 4 p.n db.numRows (2 * t + 1) (c * db.numRows) (fun cs => indicator (¬ right i cs)) ≤ ε) :
    missedPartAll P fl aesctr p db t right ask n ≤ n * ε + 2 * (n * (2 * t + 1) * db.numRows * (11 / 10 * (97 / 100) ^ c)) := by
  classical
  set srv := asker (V := Res (List Byte) × Res Unit) ask (amplifyAnswerBytes db) with hsrv
  set bad : Nat → (List Byte → Res (List Byte)) → List Coins → Prop := fun i _ cs => ¬ right i cs with hbad
  have h1 : everWrong (seesFreshAll fl aesctr p db t (c * db.numRows))
      (fun i F (z : Fin (2 * t + 1) → Fresh 4 p.n (c * db.numRows)) => bad i F (coinsFrom fl db.numRows z)) srv n [] ≤ n * ε := by
    refine (everWrong_le _ _ srv (fun _ => ε) (fun x => x.left < db.numRows * db.numColumns) hask (fun x hx => ?_) n []).trans
      (History.total_le _ _ (fun _ _ => ε) _ h0 (fun _ _ => le_rfl) n [])
    exact (avg_group fl p.n db.numRows (2 * t + 1) (c * db.numRows) (fun cs => indicator (¬ right x.left cs))).le.trans (hε _ hx)
  let Φ : List Coins → ℚ := fun cs => indicator (ReplayWrong (watchAll aesctr p db) bad srv [] (chunks (2 * t + 1) n cs))
  have h2 : ownAvg fl 4 p.n db.numRows (n * (2 * t + 1)) (c * db.numRows) Φ =
      everWrong (seesFreshAll fl aesctr p db t (c * db.numRows))
        (fun i F (z : Fin (2 * t + 1) → Fresh 4 p.n (c * db.numRows)) => bad i F (coinsFrom fl db.numRows z)) srv n [] := by
    refine (ownAvg_groups fl p.n db.numRows (2 * t + 1) n (c * db.numRows)
      (fun cs => indicator (ReplayWrong (watchAll aesctr p db) bad srv [] cs))).trans ?_
    exact (everWrong_replay (fun z : Fin (2 * t + 1) → Fresh 4 p.n (c * db.numRows) => coinsFrom fl db.numRows z)
      (watchAll aesctr p db) bad srv n []).symm
  have h3 := missing_le hf 4 p.n db.numRows (n * (2 * t + 1)) P.N c hc hN
  have h4 : missedPartAll P fl aesctr p db t right ask n ≤ sharedAvg fl 4 p.n db.numRows (n * (2 * t + 1)) P.N Φ +
      avg (fun x : ((Fin (n * (2 * t + 1)) → Fin 4 → Byte) × (Fin (n * (2 * t + 1)) → Fin (4 * p.n) → Byte)) ×
        (Fin P.N → BitVec 64) => judge 1 (fun _ => 0) (madeMany fl db.numRows x.1.1 x.1.2 (List.ofFn x.2))) := by
    have e1 := avg_stream P fl 4 p.n db.numRows (n * (2 * t + 1)) (by omega) hM (judge 0 Φ)
    have e2 := avg_stream P fl 4 p.n db.numRows (n * (2 * t + 1)) (by omega) hM (judge 1 (fun _ => 0))
    rw [sharedAvg_eq, ← e1, ← e2, avg_add]
    refine avg_mono (fun B => ?_)
    rw [words_eq]
    cases h : drawMany fl 4 p.n db.numRows (n * (2 * t + 1)) ⟨tape P.rest P.pos P.M B.1, P.pos⟩
        (List.ofFn (fun i : Fin P.N => servedWord (tape P.rest' (8 * P.m) (8 * P.N) B.2) bufSize (8 * P.m) i)) with
    | ok cs =>
      show _ ≤ indicator _ + (0 : ℚ)
      rw [add_zero]
      split
      · exact indicator_nonneg _
      · rename_i hno
        by_cases hr : ReplayWrong (watchAll aesctr p db) bad srv [] (chunks (2 * t + 1) n cs)
        · rw [indicator_true hr]
        · exact absurd ⟨_, rfl, delivers_collect _ (watchAll aesctr p db) _ ask _ n [] _ _ _
            (collect_group _ _ _ _ _ n _ _ cs h) hr⟩ hno
    | err m =>
      show _ ≤ (0 : ℚ) + 1
      split <;> norm_num
    | crash m =>
      show _ ≤ (0 : ℚ) + 1
      split <;> norm_num
  have a2 := shared_own hf 4 p.n db.numRows (n * (2 * t + 1)) P.N (c * db.numRows) c hc le_rfl Φ
    (fun y => ⟨indicator_nonneg _, indicator_le_one _⟩)
  rw [h2] at a2
  rw [late_eq] at a2 h3
  linarith

open Classical in
/-- The chance with independent draws from the chance with draws from the generators. -/
theorem own_part {fl : ℚ → ℚ} (hf : Nearest fl) (P : Past) (l t c : Nat) (hc : 4 ≤ c) (hM : (2 * t + 1) * 4416 ≤ P.M)
    (hN : c * ((2 * t + 1) * l) ≤ P.N) (A : List Coins → Prop) (E : Res (List Coins) → Prop) (hE : ∀ cs, A cs → E (ok cs)) :
    ownAvg fl 4 1100 l (2 * t + 1) (c * l) (fun cs => indicator (A cs)) ≤
      amplifiedPart P fl 1100 l t E + 2 * ((2 * t + 1) * l * (11 / 10 * (97 / 100) ^ c)) := by
  have h1 := own_shared hf 4 1100 l (2 * t + 1) P.N (c * l) c hc le_rfl hN (fun cs => indicator (A cs))
    (fun y => ⟨indicator_nonneg _, indicator_le_one _⟩)
  have h2 : sharedAvg fl 4 1100 l (2 * t + 1) P.N (fun cs => indicator (A cs)) ≤ amplifiedPart P fl 1100 l t E := by
    unfold amplifiedPart
    rw [avg_amplified P fl l t hM (fun r => if E r then (1 : ℚ) else 0), sharedAvg_eq]
    refine avg_mono (fun x => ?_)
    cases madeMany fl l x.1.1 x.1.2 (List.ofFn x.2) with
    | ok cs =>
      show indicator (A cs) ≤ _
      by_cases h : A cs
      · rw [indicator_true h, if_pos (hE cs h)]
      · rw [indicator_false h]
        split <;> norm_num
    | err m =>
      show (0 : ℚ) ≤ _
      split <;> norm_num
    | crash m =>
      show (0 : ℚ) ≤ _
      split <;> norm_num
  have e : (((2 * t + 1) * l : Nat) : ℚ) * late c = (2 * t + 1) * l * (11 / 10 * (97 / 100) ^ c) := by
    unfold late
    push_cast
    ring
  rw [e] at h1
  linarith

theorem C152_holds : C152_Statement := by
  classical
  intro fl hf aesctr P ask n t c hc db hp hR ht hC hN hM hask p rare one h0
  have hM' : n * (2 * t + 1) * stride 4 p.n ≤ P.M := by
    show n * (2 * t + 1) * stride 4 1100 ≤ P.M
    rw [stride_eq]
    exact hM
  let Q : Past := ⟨fun _ => 0, 0, (2 * t + 1) * 4416, fun _ => 0, 0, c * ((2 * t + 1) * db.numRows)⟩
  have key := fun i hi => C107_holds fl hf aesctr Q t db i hp hR hi ht hC le_rfl
  have hle : ∀ (i : Nat) (x : ℚ), ((∃ i j, storedBit db.matrix i j ≠ 0) → x ≤ one) →
      (if storedBit db.matrix (i / db.numColumns) (i % db.numColumns) = 0 then 0 else x) ≤ one := by
    intro i x hx
    split
    · exact h0
    · rename_i h
      exact hx ⟨_, _, h⟩
  have fin : ∀ (right : Nat → List Coins → Prop) (E : Nat → Res (List Coins) → Prop), (∀ i cs, ¬ right i cs → E i (ok cs)) →
      (∀ i, i < db.numRows * db.numColumns → amplifiedPart Q fl 1100 db.numRows t (E i) ≤
        one + (2 * t + 1) * (2 * db.numColumns) / 2 ^ (38 * db.numRows)) →
      missedPartAll P fl aesctr p db t right ask n ≤ n * one + rare := by
    intro right E hE hq
    refine (missedAll_le hf aesctr P ask n t c hc p db hN hM' hask right
      (one + (2 * t + 1) * (2 * db.numColumns) / 2 ^ (38 * db.numRows) + 2 * ((2 * t + 1) * db.numRows * (11 / 10 * (97 / 100) ^ c)))
      (by positivity) (fun i hi => ?_)).trans (le_of_eq ?_)
    · exact (own_part hf Q db.numRows t c hc le_rfl le_rfl (fun cs => ¬ right i cs) (E i) (hE i)).trans
        (add_le_add_left (hq i hi) _)
    · show _ = (n : ℚ) * one + (n * ((2 * t + 1) * (2 * db.numColumns) / 2 ^ (38 * db.numRows)) +
        4 * (n * (2 * t + 1) * db.numRows * (11 / 10 * (97 / 100) ^ c)))
      ring
  constructor
  · intro h1
    refine fin _ (fun i => AmplifiedFails aesctr p db i) (fun i cs h => ⟨cs, rfl, h⟩) (fun i hi => ?_)
    exact (key i hi).2.1.trans (add_le_add_left (hle i _ h1) _)
  · intro h1
    refine fin _ (fun i => AmplifiedWrong aesctr p db i) (fun i cs h => ?_) (fun i hi => ?_)
    · obtain ⟨b, e1, e2⟩ := not_not.1 h
      exact ⟨cs, b, rfl, e1, e2⟩
    · exact (key i hi).1.1.trans (add_le_add_left (hle i _ h1) _)

/-- The hypotheses can be met: a database of 80 rows and columns, seven base clients and ten lookups of entries that depend on all
messages, with 3000 random words for each noise value. All lookups give the stored bits but for a chance of one in 31000, and none
gives a wrong bit but for a chance of `10^-19`. -/
example (aesctr : List Byte → Nat → Byte) (data : List Byte) (hd : data.length = 80 * 80 / 8 + 1) (P : Past)
    (hM : 10 * 7 * 4416 ≤ P.M) (hN : 3000 * (10 * 7 * 80) ≤ P.N) (pick : List (Res (List Byte) × Res Unit) → Nat) :
    ∃ db fl, createRandomBinary lwe32 aesctr 1100 data 80 80 = ok db ∧ Nearest fl ∧
      (let p := paramsWithDatabaseSize 80 80
      missedPartAll P fl aesctr p db 3 (RightAll aesctr p db) (fun past => pick past % (80 * 80)) 10 ≤ 1 / 31000 ∧
      missedPartAll P fl aesctr p db 3 (SafeAll aesctr p db) (fun past => pick past % (80 * 80)) 10 ≤ 1 / 10 ^ 19) := by
  obtain ⟨fl, hf⟩ := Monitor.nearest_exists
  have hfit : FitsInt 1100 80 80 := by unfold FitsInt; norm_num
  obtain ⟨db, h1, h2, h3, h4, h5, -⟩ := C30_random_database aesctr 1100 80 80 data hd hfit
  refine ⟨db, fl, h1, hf, ?_⟩
  have h := C152_holds fl hf aesctr P (fun past => pick past % (80 * 80)) 10 3 3000 (by norm_num) db
    ⟨h2, h5, by rw [h3, h4]; exact hfit⟩ (by rw [h3]; norm_num) (by norm_num) (by rw [h4]; norm_num) (by rw [h3]; exact hN) hM
    (fun past => by rw [h3, h4]; exact Nat.mod_lt _ (by norm_num))
  rw [h3, h4] at h
  have a1 : ((2 * (3 : Nat) + 1) * (2 * (80 : Nat)) : ℚ) / 2 ^ (38 * 80) ≤ (2 * (3 : Nat) + 1) * (2 * (80 : Nat)) / 2 ^ 200 :=
    div_le_div_of_nonneg_left (by positivity) (by positivity) (pow_le_pow_right₀ (by norm_num) (by norm_num))
  have a2 := pow_small
  have a3 : ((10 : Nat) : ℚ) * ((2 * (3 : Nat) + 1) * (2 * (80 : Nat)) / 2 ^ (38 * 80)) +
      4 * ((10 : Nat) * (2 * (3 : Nat) + 1) * (80 : Nat) * (11 / 10 * (97 / 100) ^ 3000)) ≤ 1 / 10 ^ 30 := by
    refine (add_le_add (mul_le_mul_of_nonneg_left a1 (by positivity)) (mul_le_mul_of_nonneg_left
      (mul_le_mul_of_nonneg_left (mul_le_mul_of_nonneg_left a2 (by norm_num)) (by positivity)) (by norm_num))).trans ?_
    norm_num
  constructor
  · refine ((h (1 / 319000) (by norm_num)).1 (fun _ => ?_)).trans ((add_le_add_right a3 _).trans (by norm_num))
    unfold firstAndMost
    norm_num [Finset.sum_range_succ, Nat.choose]
  · refine ((h (1 / 10 ^ 20 - 1 / 10 ^ 30) (by norm_num)).2 (fun _ => ?_)).trans ((add_le_add_right a3 _).trans (by norm_num))
    unfold firstAndMost
    norm_num [Finset.sum_range_succ, Nat.choose]

end Verif.AmplifyStream
