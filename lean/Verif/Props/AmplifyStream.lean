import Verif.Lemmas.AmplifyStream
import Verif.Props.LweStream

/-! # C146, C147: sessions of amplified lattice lookups by one client that draws from its own generators -/

namespace Verif.AmplifyStream
open Res Verif.Rand Verif.Matrix Verif.Lwe Verif.Lwe.Spec Verif.Gauss Verif.Privacy Verif.Coins Verif.Coins.Spec Verif.Reaction
  Verif.History Verif.LweReal Verif.LweReal.Spec Verif.LweDraws Verif.Monitor.Spec Verif.LweStream Verif.LweStream.Spec
  Verif.AmplifyStream.Spec

/-- C146: an amplified client object with `2t+1` base clients makes `n` lookups one after the other, all from the same generators. The
server chooses the two entries of each lookup and its answers depending on all it saw. Whatever the generators delivered before and
whatever the database holds, it tells a client that takes the left entries from one that takes the right entries with no more than the
expected sum of the advantages of explicit tests per lookup against the LWE problem, plus `n(2t+1)` times a term for a guessed
multiplier and large noise in any column, plus four times the chance that `c` random words per noise value do not suffice for all
lookups. -/
def C146_Statement : Prop :=
  ∀ fl : ℚ → ℚ, Nearest fl → ∀ (aesctr : List Byte → Nat → Byte) (P : Past)
    (srv : Server Nat (List Byte → Res (List Byte)) (Res (List Byte) × Res Unit)) (hang : List (Res (List Byte) × Res Unit) → ℚ),
    IsTest srv.decide → IsTest hang → ∀ n t c, 4 ≤ c →
    ∀ db : Db 32, Published lwe32 aesctr 1100 db → 84 * db.numRows < 2 ^ 32 → c * (n * (2 * t + 1) * db.numRows) ≤ P.N →
      n * (2 * t + 1) * 4416 ≤ P.M →
      (∀ past, (srv.choose past).left < db.numRows * db.numColumns ∧ (srv.choose past).right < db.numRows * db.numColumns) →
      let p := paramsWithDatabaseSize db.numRows db.numColumns
      |decisionAll P fl aesctr p db t srv hang false n - decisionAll P fl aesctr p db t srv hang true n| ≤
        History.total (seesFreshAll fl aesctr p db t (c * db.numRows)) srv (gapsAll fl aesctr p db t (c * db.numRows)) n [] +
        n * ((2 * t + 1) *
          (4 * db.numColumns / 2 ^ (38 * db.numRows) + 2 * db.numColumns * (672 * db.numRows - 6) / 2 ^ 32)) +
        4 * (n * (2 * t + 1) * db.numRows * (11 / 10 * (97 / 100) ^ c))

/-- C147: the part of the random bytes of the generators for which one of the `n` lookups of such a session gives a bit that is not
stored is at most the expected sum of the advantages of explicit tests per lookup against the LWE problem, plus `n` times a term for
guessing most multipliers and large noise, plus twice the chance that `c` random words per noise value do not suffice. -/
def C147_Statement : Prop :=
  ∀ fl : ℚ → ℚ, Nearest fl → ∀ (aesctr : List Byte → Nat → Byte) (P : Past)
    (srv : Server Nat (List Byte → Res (List Byte)) (Res (List Byte) × Res Unit)) (n t c : Nat), 4 ≤ c →
    ∀ db : Db 32, Published lwe32 aesctr 1100 db → 84 * db.numRows < 2 ^ 32 → c * (n * (2 * t + 1) * db.numRows) ≤ P.N →
      n * (2 * t + 1) * 4416 ≤ P.M → (∀ past, (srv.choose past).left < db.numRows * db.numColumns) →
      let p := paramsWithDatabaseSize db.numRows db.numColumns
      wrongPartAll P fl aesctr p db t srv n ≤
        History.total (seesFreshAll fl aesctr p db t (c * db.numRows)) srv
          (fun x _ => gapAll fl aesctr p db t (c * db.numRows) x) n [] +
        n * ((2 * t + 1) * (2 / 2 ^ (38 * db.numRows)) + (2 * t).choose t * ((672 * db.numRows - 6) / 2 ^ 32) ^ (t + 1)) +
        2 * (n * (2 * t + 1) * db.numRows * (11 / 10 * (97 / 100) ^ c))

theorem decisionAll_eq (P : Past) (fl : ℚ → ℚ) (aesctr : List Byte → Nat → Byte) (p : Params)
    (db : Db 32) (t : Nat) (srv : Server Nat (List Byte → Res (List Byte)) (Res (List Byte) × Res Unit))
    (hang : List (Res (List Byte) × Res Unit) → ℚ) (right : Bool) (n : Nat) :
    decisionAll P fl aesctr p db t srv hang right n = avg (fun B : (Fin P.M → Byte) × (Fin (8 * P.N) → Byte) =>
      decides (drawGroup fl 4 p.n db.numRows (2 * t + 1)) (watchAll aesctr p db) srv hang right n []
        ⟨tape P.rest P.pos P.M B.1, P.pos⟩
        (List.ofFn (fun i : Fin P.N => servedWord (tape P.rest' (8 * P.m) (8 * P.N) B.2) bufSize (8 * P.m) i))) := by
  unfold decisionAll
  refine avg_congr (fun B => ?_)
  rw [words_eq]

/-- The session as a function of all draws. -/
def told (aesctr : List Byte → Nat → Byte) (p : Params) (db : Db 32) (t n : Nat)
    (srv : Server Nat (List Byte → Res (List Byte)) (Res (List Byte) × Res Unit)) (right : Bool) (cs : List Coins) : ℚ :=
  replay (watchAll aesctr p db) srv right [] (chunks (2 * t + 1) n cs)

/-- The decision lies between those over complete draws, with nothing and with everything for incomplete ones. -/
theorem decisionAll_between (P : Past) (fl : ℚ → ℚ) (aesctr : List Byte → Nat → Byte)
    (p : Params) (db : Db 32) (t : Nat) (srv : Server Nat (List Byte → Res (List Byte)) (Res (List Byte) × Res Unit))
    (hang : List (Res (List Byte) × Res Unit) → ℚ) (hD : IsTest srv.decide) (hh : IsTest hang) (right : Bool) (n : Nat)
    (hM : n * (2 * t + 1) * stride 4 p.n ≤ P.M) :
    sharedAvg fl 4 p.n db.numRows (n * (2 * t + 1)) P.N (told aesctr p db t n srv right) ≤
      decisionAll P fl aesctr p db t srv hang right n ∧
    decisionAll P fl aesctr p db t srv hang right n ≤
      sharedAvg fl 4 p.n db.numRows (n * (2 * t + 1)) P.N (told aesctr p db t n srv right) +
      avg (fun x : ((Fin (n * (2 * t + 1)) → Fin 4 → Byte) × (Fin (n * (2 * t + 1)) → Fin (4 * p.n) → Byte)) ×
          (Fin P.N → BitVec 64) => judge 1 (fun _ => 0) (madeMany fl db.numRows x.1.1 x.1.2 (List.ofFn x.2))) := by
  have e1 := avg_stream P fl 4 p.n db.numRows (n * (2 * t + 1)) (by omega) hM (judge 0 (told aesctr p db t n srv right))
  have e2 := avg_stream P fl 4 p.n db.numRows (n * (2 * t + 1)) (by omega) hM (judge 1 (fun _ => 0))
  rw [decisionAll_eq, sharedAvg_eq, ← e1, ← e2]
  constructor
  · refine avg_mono (fun B => ?_)
    cases h : drawMany fl 4 p.n db.numRows (n * (2 * t + 1)) ⟨tape P.rest P.pos P.M B.1, P.pos⟩
        (List.ofFn (fun i : Fin P.N => servedWord (tape P.rest' (8 * P.m) (8 * P.N) B.2) bufSize (8 * P.m) i)) with
    | ok cs => exact le_of_eq (decides_collect _ _ srv hang right n [] _ _ _ (collect_group _ _ _ _ _ n _ _ cs h)).symm
    | err m => exact (decides_test _ _ srv hang hD hh right n [] _ _).1
    | crash m => exact (decides_test _ _ srv hang hD hh right n [] _ _).1
  · rw [avg_add]
    refine avg_mono (fun B => ?_)
    cases h : drawMany fl 4 p.n db.numRows (n * (2 * t + 1)) ⟨tape P.rest P.pos P.M B.1, P.pos⟩
        (List.ofFn (fun i : Fin P.N => servedWord (tape P.rest' (8 * P.m) (8 * P.N) B.2) bufSize (8 * P.m) i)) with
    | ok cs =>
      rw [decides_collect _ _ srv hang right n [] _ _ _ (collect_group _ _ _ _ _ n _ _ cs h)]
      exact le_of_eq (add_zero _).symm
    | err m => exact (decides_test _ _ srv hang hD hh right n [] _ _).2.trans (le_of_eq (zero_add _).symm)
    | crash m => exact (decides_test _ _ srv hang hD hh right n [] _ _).2.trans (le_of_eq (zero_add _).symm)

theorem late_eq (n t l c : Nat) : ((n * (2 * t + 1) * l : Nat) : ℚ) * late c = n * (2 * t + 1) * l * (11 / 10 * (97 / 100) ^ c) := by
  unfold late
  push_cast
  ring

theorem C146_holds : C146_Statement := by
  intro fl hf aesctr P srv hang hD hh n t c hc db hp hR hN hM hch p
  have hb : p.b.toNat = 84 * db.numRows := computeB_toNat _ hR
  have hpos : 0 < db.numRows := Nat.pos_of_ne_zero (fun h => by have := (hch []).1; rw [h] at this; omega)
  have hM' : n * (2 * t + 1) * stride 4 p.n ≤ P.M := by
    show n * (2 * t + 1) * stride 4 1100 ≤ P.M
    rw [stride_eq]
    exact hM
  have h4 := large_le hf db hp hpos (Finset.range db.numColumns) (c * db.numRows)
  rw [Finset.card_range] at h4
  have e1 : (2 * (2 * ((2 * (84 * db.numRows) - 2 : Nat) : ℚ) + 1) * (1 / 2 ^ 32)) = (672 * db.numRows - 6) / 2 ^ 32 := by
    rw [Nat.cast_sub (by omega)]
    push_cast
    ring
  have e2 : ((2 * (84 * db.numRows) - 2 : Nat) : Int) = 168 * db.numRows - 2 := by omega
  have h5 := mul_le_mul_of_nonneg_left h4 (show (0 : ℚ) ≤ 2 * (2 * t + 1 : Nat) by positivity)
  have h1 : |session (seesFreshAll fl aesctr p db t (c * db.numRows)) srv false n [] -
      session (seesFreshAll fl aesctr p db t (c * db.numRows)) srv true n []| ≤
      History.total (seesFreshAll fl aesctr p db t (c * db.numRows)) srv (fun x D => gapsAll fl aesctr p db t (c * db.numRows) x D +
        (2 * t + 1) * (4 * db.numColumns / 2 ^ (38 * db.numRows) + 2 * db.numColumns * (672 * db.numRows - 6) / 2 ^ 32)) n [] := by
    refine session_close _ srv hD _ (fun x => x.left < db.numRows * db.numColumns ∧ x.right < db.numRows * db.numColumns) hch ?_ n []
    intro x D hx hDD
    have h3 := C109_reaction_hides (n := 2 * t + 1) (by omega) aesctr p (by rw [hb]; omega) db
      (fun x : Fin 4 → Byte => List.ofFn x)
      (fun x : Sample 4 1100 (c * db.numRows) => List.ofFn x.1) (fun x => noiseFrom fl db.numRows (List.ofFn x.2))
      (fun τ ω => setup_made hp ⟨rfl, rfl, rfl⟩ fl _ _ _) x.answer _ C88_spread32 x.left x.right hx.1 hx.2 D hDD
    rw [hb, e1, e2] at h3
    have h6 : |ownAvg fl 4 1100 db.numRows (2 * t + 1) (c * db.numRows) (fun cs => D (viewAll aesctr p db x.answer x.left cs)) -
        ownAvg fl 4 1100 db.numRows (2 * t + 1) (c * db.numRows) (fun cs => D (viewAll aesctr p db x.answer x.right cs))| ≤
        gapsAll fl aesctr p db t (c * db.numRows) x D + _ + _ := h3
    rw [← avg_group, ← avg_group] at h6
    refine h6.trans ?_
    rw [add_assoc (gapsAll fl aesctr p db t (c * db.numRows) x D)]
    refine add_le_add_right ((add_le_add_left h5 _).trans (le_of_eq ?_)) _
    push_cast
    ring
  rw [total_add] at h1
  have h2 : ∀ right, ownAvg fl 4 p.n db.numRows (n * (2 * t + 1)) (c * db.numRows) (told aesctr p db t n srv right) =
      session (seesFreshAll fl aesctr p db t (c * db.numRows)) srv right n [] := by
    intro right
    refine (ownAvg_groups fl p.n db.numRows (2 * t + 1) n (c * db.numRows) (replay (watchAll aesctr p db) srv right [])).trans ?_
    exact (session_replay (fun z : Fin (2 * t + 1) → Fresh 4 p.n (c * db.numRows) => coinsFrom fl db.numRows z)
      (watchAll aesctr p db) srv right n []).symm
  have h3 := missing_le hf 4 p.n db.numRows (n * (2 * t + 1)) P.N c hc hN
  have ht : ∀ right cs, 0 ≤ told aesctr p db t n srv right cs ∧ told aesctr p db t n srv right cs ≤ 1 :=
    fun right y => replay_test (watchAll aesctr p db) srv hD right _ []
  have key : ∀ a b : Bool, decisionAll P fl aesctr p db t srv hang a n - decisionAll P fl aesctr p db t srv hang b n ≤
      (session (seesFreshAll fl aesctr p db t (c * db.numRows)) srv a n [] -
        session (seesFreshAll fl aesctr p db t (c * db.numRows)) srv b n []) +
        4 * (n * (2 * t + 1) * db.numRows * (11 / 10 * (97 / 100) ^ c)) := by
    intro a b
    have a1 := (decisionAll_between P fl aesctr p db t srv hang hD hh a n hM').2
    have b1 := (decisionAll_between P fl aesctr p db t srv hang hD hh b n hM').1
    have a2 := shared_own hf 4 p.n db.numRows (n * (2 * t + 1)) P.N (c * db.numRows) c hc le_rfl _ (ht a)
    have b2 := own_shared hf 4 p.n db.numRows (n * (2 * t + 1)) P.N (c * db.numRows) c hc le_rfl hN _ (ht b)
    rw [h2] at a2 b2
    rw [late_eq] at a2 b2 h3
    linarith
  have h7 := abs_le.1 h1
  have k1 := key false true
  have k2 := key true false
  rw [abs_le]
  constructor <;> linarith

theorem C147_holds : C147_Statement := by
  classical
  intro fl hf aesctr P srv n t c hc db hp hR hN hM hch p
  have hb : p.b.toNat = 84 * db.numRows := computeB_toNat _ hR
  have hpos : 0 < db.numRows := Nat.pos_of_ne_zero (fun h => by have := hch []; rw [h] at this; omega)
  have hM' : n * (2 * t + 1) * stride 4 p.n ≤ P.M := by
    show n * (2 * t + 1) * stride 4 1100 ≤ P.M
    rw [stride_eq]
    exact hM
  have e1 : (2 * (2 * ((2 * (84 * db.numRows) - 2 : Nat) : ℚ) + 1) * (1 / 2 ^ 32)) = (672 * db.numRows - 6) / 2 ^ 32 := by
    rw [Nat.cast_sub (by omega)]
    push_cast
    ring
  have e2 : ((2 * (84 * db.numRows) - 2 : Nat) : Int) = 168 * db.numRows - 2 := by omega
  have h1 : everWrong (seesFreshAll fl aesctr p db t (c * db.numRows))
      (fun i F (z : Fin (2 * t + 1) → Fresh 4 p.n (c * db.numRows)) => WrongAll aesctr p db i F (coinsFrom fl db.numRows z)) srv n [] ≤
      History.total (seesFreshAll fl aesctr p db t (c * db.numRows)) srv (fun x _ => gapAll fl aesctr p db t (c * db.numRows) x +
        ((2 * t + 1) * (2 / 2 ^ (38 * db.numRows)) + (2 * t).choose t * ((672 * db.numRows - 6) / 2 ^ 32) ^ (t + 1))) n [] := by
    refine everWrong_le _ _ srv (fun x => gapAll fl aesctr p db t (c * db.numRows) x +
        ((2 * t + 1) * (2 / 2 ^ (38 * db.numRows)) + (2 * t).choose t * ((672 * db.numRows - 6) / 2 ^ 32) ^ (t + 1)))
      (fun x => x.left < db.numRows * db.numColumns) hch ?_ n []
    intro x hx
    have h3 := C110_wrong_bit (r := t) aesctr p (by rw [hb]; omega) db (fun x : Fin 4 → Byte => List.ofFn x)
      (fun x : Sample 4 1100 (c * db.numRows) => List.ofFn x.1) (fun x => noiseFrom fl db.numRows (List.ofFn x.2))
      (fun τ ω => setup_made hp ⟨rfl, rfl, rfl⟩ fl _ _ _) x.answer _ C88_spread32 x.left hx
    have h4 := large_le hf db hp hpos {x.left % db.numColumns} (c * db.numRows)
    rw [Finset.card_singleton, Nat.cast_one, mul_one] at h4
    have h5 := mul_le_mul_of_nonneg_left h4 (show (0 : ℚ) ≤ 2 * t + 1 by positivity)
    rw [hb, e1, e2] at h3
    have h6 : ownAvg fl 4 1100 db.numRows (2 * t + 1) (c * db.numRows) (fun cs => indicator (WrongAll aesctr p db x.left x.answer cs)) ≤
      gapAll fl aesctr p db t (c * db.numRows) x + _ + _ := h3
    rw [← avg_group, add_assoc] at h6
    exact h6.trans (add_le_add_right (add_le_add_left h5 _) _)
  rw [total_add] at h1
  let Φ : List Coins → ℚ := fun cs =>
    indicator (ReplayWrong (watchAll aesctr p db) (WrongAll aesctr p db) srv [] (chunks (2 * t + 1) n cs))
  have h2 : ownAvg fl 4 p.n db.numRows (n * (2 * t + 1)) (c * db.numRows) Φ =
      everWrong (seesFreshAll fl aesctr p db t (c * db.numRows))
        (fun i F (z : Fin (2 * t + 1) → Fresh 4 p.n (c * db.numRows)) => WrongAll aesctr p db i F (coinsFrom fl db.numRows z))
        srv n [] := by
    refine (ownAvg_groups fl p.n db.numRows (2 * t + 1) n (c * db.numRows)
      (fun cs => indicator (ReplayWrong (watchAll aesctr p db) (WrongAll aesctr p db) srv [] cs))).trans ?_
    exact (everWrong_replay (fun z : Fin (2 * t + 1) → Fresh 4 p.n (c * db.numRows) => coinsFrom fl db.numRows z)
      (watchAll aesctr p db) (WrongAll aesctr p db) srv n []).symm
  have h3 := missing_le hf 4 p.n db.numRows (n * (2 * t + 1)) P.N c hc hN
  have h4 : wrongPartAll P fl aesctr p db t srv n ≤ sharedAvg fl 4 p.n db.numRows (n * (2 * t + 1)) P.N Φ +
      avg (fun x : ((Fin (n * (2 * t + 1)) → Fin 4 → Byte) × (Fin (n * (2 * t + 1)) → Fin (4 * p.n) → Byte)) ×
        (Fin P.N → BitVec 64) => judge 1 (fun _ => 0) (madeMany fl db.numRows x.1.1 x.1.2 (List.ofFn x.2))) := by
    have e1 := avg_stream P fl 4 p.n db.numRows (n * (2 * t + 1)) (by omega) hM' (judge 0 Φ)
    have e2 := avg_stream P fl 4 p.n db.numRows (n * (2 * t + 1)) (by omega) hM' (judge 1 (fun _ => 0))
    rw [sharedAvg_eq, ← e1, ← e2, avg_add]
    refine avg_mono (fun B => ?_)
    rw [words_eq]
    cases h : drawMany fl 4 p.n db.numRows (n * (2 * t + 1)) ⟨tape P.rest P.pos P.M B.1, P.pos⟩
        (List.ofFn (fun i : Fin P.N => servedWord (tape P.rest' (8 * P.m) (8 * P.N) B.2) bufSize (8 * P.m) i)) with
    | ok cs =>
      show _ ≤ indicator _ + (0 : ℚ)
      rw [add_zero]
      split
      · rename_i hw'
        obtain ⟨ws, e, hg⟩ := hw'
        rw [ok.injEq] at e
        subst e
        rw [indicator_true ((goesWrong_collect _ _ _ srv n [] _ _ _ (collect_group _ _ _ _ _ n _ _ cs h)).1 hg)]
      · exact indicator_nonneg _
    | err m =>
      show _ ≤ (0 : ℚ) + 1
      split <;> norm_num
    | crash m =>
      show _ ≤ (0 : ℚ) + 1
      split <;> norm_num
  have a2 := shared_own hf 4 p.n db.numRows (n * (2 * t + 1)) P.N (c * db.numRows) c hc le_rfl Φ
    (fun y => ⟨indicator_nonneg _, indicator_le_one _⟩)
  rw [h2] at a2
  rw [late_eq] at a2 h3
  linarith

/-- A server that proposes two entries of a database of 80 rows and columns depending on how often the client has rejected so far,
answers by `F` and decides by `D`. -/
def sampleAll (F : List (Res (List Byte) × Res Unit) → List Byte → Res (List Byte)) (D : List (Res (List Byte) × Res Unit) → ℚ) :
    Server Nat (List Byte → Res (List Byte)) (Res (List Byte) × Res Unit) :=
  ⟨fun past => ⟨(past.filter (fun v => v.2 matches err _)).length % 80, 6000 + past.length % 100, F past⟩, D⟩

/-- The hypotheses can be met: a database of 80 rows and columns, seven base clients and ten lookups, with 3000 random words for each
noise value. Besides solving the LWE problem a server tells the two clients apart with an advantage of at most one in seven. -/
example (aesctr : List Byte → Nat → Byte) (data : List Byte) (hd : data.length = 80 * 80 / 8 + 1) (P : Past)
    (hM : 10 * 7 * 4416 ≤ P.M) (hN : 3000 * (10 * 7 * 80) ≤ P.N)
    (F : List (Res (List Byte) × Res Unit) → List Byte → Res (List Byte)) (D hang : List (Res (List Byte) × Res Unit) → ℚ)
    (hD : IsTest D) (hh : IsTest hang) :
    ∃ db fl, createRandomBinary lwe32 aesctr 1100 data 80 80 = ok db ∧ Nearest fl ∧
      (let p := paramsWithDatabaseSize 80 80
      |decisionAll P fl aesctr p db 3 (sampleAll F D) hang false 10 - decisionAll P fl aesctr p db 3 (sampleAll F D) hang true 10| ≤
        History.total (seesFreshAll fl aesctr p db 3 (3000 * 80)) (sampleAll F D)
          (gapsAll fl aesctr p db 3 (3000 * 80)) 10 [] + 1 / 7) := by
  obtain ⟨fl, hf⟩ := Monitor.nearest_exists
  have hfit : FitsInt 1100 80 80 := by unfold FitsInt; norm_num
  obtain ⟨db, h1, h2, h3, h4, h5, -⟩ := C30_random_database aesctr 1100 80 80 data hd hfit
  refine ⟨db, fl, h1, hf, ?_⟩
  have h := C146_holds fl hf aesctr P (sampleAll F D) hang hD hh 10 3 3000 (by norm_num) db ⟨h2, h5, by rw [h3, h4]; exact hfit⟩
    (by rw [h3]; norm_num) (by rw [h3]; exact hN) hM (fun past => by
      rw [h3, h4]
      have a1 := Nat.mod_lt (past.filter (fun v => v.2 matches err _)).length (show 0 < 80 by norm_num)
      have a2 := Nat.mod_lt past.length (show 0 < 100 by norm_num)
      exact ⟨lt_of_lt_of_le a1 (by norm_num), lt_of_lt_of_le (Nat.add_lt_add_left a2 6000) (by norm_num)⟩)
  rw [h3, h4] at h
  refine h.trans ?_
  rw [add_assoc]
  refine add_le_add_right ?_ _
  have a1 : (4 * ((80 : Nat) : ℚ)) / 2 ^ (38 * 80) ≤ 4 * (80 : Nat) / 2 ^ 200 :=
    div_le_div_of_nonneg_left (by positivity) (by positivity) (pow_le_pow_right₀ (by norm_num) (by norm_num))
  have a2 := pow_small
  refine (add_le_add (mul_le_mul_of_nonneg_left (mul_le_mul_of_nonneg_left (add_le_add_left a1 _) (by positivity)) (by positivity))
    (mul_le_mul_of_nonneg_left (mul_le_mul_of_nonneg_left (mul_le_mul_of_nonneg_left a2 (by norm_num)) (by positivity))
      (by norm_num))).trans ?_
  norm_num

/-- The hypotheses can be met: a database of 1024 rows and columns, seven base clients and a thousand lookups. Besides solving the LWE
problem a server has a chance of at most `2^-36` that one of them gives a wrong bit. -/
example (aesctr : List Byte → Nat → Byte) (data : List Byte) (hd : data.length = 1024 * 1024 / 8 + 1) (P : Past)
    (hM : 1000 * 7 * 4416 ≤ P.M) (hN : 3000 * (1000 * 7 * 1024) ≤ P.N)
    (F : List (Res (List Byte) × Res Unit) → List Byte → Res (List Byte)) (D : List (Res (List Byte) × Res Unit) → ℚ) :
    ∃ db fl, createRandomBinary lwe32 aesctr 1100 data 1024 1024 = ok db ∧ Nearest fl ∧
      (let p := paramsWithDatabaseSize 1024 1024
      wrongPartAll P fl aesctr p db 3 (sample F D) 1000 ≤
        History.total (seesFreshAll fl aesctr p db 3 (3000 * 1024)) (sample F D)
          (fun x _ => gapAll fl aesctr p db 3 (3000 * 1024) x) 1000 [] + 1 / 2 ^ 36) := by
  obtain ⟨fl, hf⟩ := Monitor.nearest_exists
  have hfit : FitsInt 1100 1024 1024 := by unfold FitsInt; norm_num
  obtain ⟨db, h1, h2, h3, h4, h5, -⟩ := C30_random_database aesctr 1100 1024 1024 data hd hfit
  refine ⟨db, fl, h1, hf, ?_⟩
  have h := C147_holds fl hf aesctr P (sample F D) 1000 3 3000 (by norm_num) db ⟨h2, h5, by rw [h3, h4]; exact hfit⟩
    (by rw [h3]; norm_num) (by rw [h3]; exact hN) hM (fun past => by
      rw [h3, h4]
      have a1 := Nat.mod_lt (past.filter (fun v => v.2 matches err _)).length (show 0 < 1024 by norm_num)
      exact lt_of_lt_of_le a1 (by norm_num))
  rw [h3, h4] at h
  refine h.trans ?_
  rw [add_assoc]
  refine add_le_add_right ?_ _
  have a1 := tail_small 2 (by norm_num)
  have a2 := pow_small
  have a3 : Nat.choose (2 * 3) 3 = 20 := by decide
  rw [a3]
  refine (add_le_add (mul_le_mul_of_nonneg_left (add_le_add_left (mul_le_mul_of_nonneg_left a1 (by positivity)) _) (by positivity))
    (mul_le_mul_of_nonneg_left (mul_le_mul_of_nonneg_left (mul_le_mul_of_nonneg_left a2 (by norm_num)) (by positivity))
      (by norm_num))).trans ?_
  norm_num

end Verif.AmplifyStream
