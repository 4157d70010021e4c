import Verif.Lemmas.LweStream
import Verif.Props.LweDraws
import Verif.Props.History

/-! # C137, C138: sessions of lattice lookups by one client that draws from its own generators -/

namespace Verif.LweStream
open Res Verif.Rand Verif.Matrix Verif.Lwe Verif.Lwe.Spec Verif.Gauss Verif.Privacy Verif.Coins Verif.Coins.Spec Verif.Reaction
  Verif.History Verif.LweReal Verif.LweReal.Spec Verif.LweDraws Verif.Monitor.Spec Verif.LweStream.Spec

/-- C137: a client object makes `n` lookups one after the other, all from the same generators. The server chooses the two entries
of each lookup and its answers depending on all it saw. Whatever the generators delivered before and whatever the database holds,
it tells a client that takes the left entries from one that takes the right entries with no more than the expected sum of the
advantages of four explicit tests per lookup against the LWE problem (with a uniform secret and noise sampled from `c` random words
per value), plus `n` times a term for a guessed multiplier and large noise in any column, plus four times the chance that `c` random
words per noise value do not suffice for all lookups. -/
def C137_Statement : Prop :=
  ∀ fl : ℚ → ℚ, Nearest fl → ∀ (aesctr : List Byte → Nat → Byte) (P : Past)
    (srv : Server Nat (List Byte → Res (List Byte)) (Res (List Byte) × Res Unit)) (hang : List (Res (List Byte) × Res Unit) → ℚ),
    IsTest srv.decide → IsTest hang → ∀ n c, 4 ≤ c →
    (∀ db : Db 32, Published lwe32 aesctr 1100 db → 84 * db.numRows < 2 ^ 32 → c * (n * db.numRows) ≤ P.N → n * 4416 ≤ P.M →
      (∀ past, (srv.choose past).left < db.numRows * db.numColumns ∧ (srv.choose past).right < db.numRows * db.numColumns) →
      let p := paramsWithDatabaseSize db.numRows db.numColumns
      |decision P fl 4 lwe32 aesctr p db srv hang false n - decision P fl 4 lwe32 aesctr p db srv hang true n| ≤
        History.total (seesFresh fl 4 lwe32 aesctr p db (c * db.numRows)) srv
          (gaps fl 4 lwe32 aesctr p db id (168 * db.numRows - 2) (c * db.numRows)) n [] +
        n * (4 * db.numColumns / 2 ^ (38 * db.numRows) + 2 * db.numColumns * (672 * db.numRows - 6) / 2 ^ 32) +
        4 * (n * db.numRows * (11 / 10 * (97 / 100) ^ c))) ∧
    ∀ db : Db 128, Published lwe128 aesctr 4800 db → 84 * db.numRows < 2 ^ 32 - 1 → c * (n * db.numRows) ≤ P.N → n * 76816 ≤ P.M →
      (∀ past, (srv.choose past).left < db.numRows * db.numColumns ∧ (srv.choose past).right < db.numRows * db.numColumns) →
      let p := paramsWithDatabaseSize128 db.numRows db.numColumns
      |decision P fl 16 lwe128 aesctr p db srv hang false n - decision P fl 16 lwe128 aesctr p db srv hang true n| ≤
        History.total (seesFresh fl 16 lwe128 aesctr p db (c * db.numRows)) srv
          (gaps fl 16 lwe128 aesctr p db noise128 (168 * db.numRows) (c * db.numRows)) n [] +
        n * (4 * db.numColumns / 2 ^ (38 * db.numRows) + 2 * db.numColumns * (672 * db.numRows + 2) / 2 ^ 128) +
        4 * (n * db.numRows * (11 / 10 * (97 / 100) ^ c))

/-- C138: the part of the random bytes of the generators for which one of the `n` lookups of such a session gives a bit that is not
stored is at most the expected sum of the advantages of one explicit test per lookup against the LWE problem, plus `n` times
a term for a guessed multiplier and large noise, plus twice the chance that `c` random words per noise value do not suffice. -/
def C138_Statement : Prop :=
  ∀ fl : ℚ → ℚ, Nearest fl → ∀ (aesctr : List Byte → Nat → Byte) (P : Past)
    (srv : Server Nat (List Byte → Res (List Byte)) (Res (List Byte) × Res Unit)) (n c : Nat), 4 ≤ c →
    (∀ db : Db 32, Published lwe32 aesctr 1100 db → 84 * db.numRows < 2 ^ 32 → c * (n * db.numRows) ≤ P.N → n * 4416 ≤ P.M →
      (∀ past, (srv.choose past).left < db.numRows * db.numColumns) →
      let p := paramsWithDatabaseSize db.numRows db.numColumns
      wrongPart P fl 4 lwe32 aesctr p db srv n ≤
        History.total (seesFresh fl 4 lwe32 aesctr p db (c * db.numRows)) srv
          (fun x _ => gap fl 4 lwe32 aesctr p db id (168 * db.numRows - 2) (c * db.numRows) x) n [] +
        n * (2 / 2 ^ (38 * db.numRows) + (672 * db.numRows - 6) / 2 ^ 32) +
        2 * (n * db.numRows * (11 / 10 * (97 / 100) ^ c))) ∧
    ∀ db : Db 128, Published lwe128 aesctr 4800 db → 84 * db.numRows < 2 ^ 32 - 1 → c * (n * db.numRows) ≤ P.N → n * 76816 ≤ P.M →
      (∀ past, (srv.choose past).left < db.numRows * db.numColumns) →
      let p := paramsWithDatabaseSize128 db.numRows db.numColumns
      wrongPart P fl 16 lwe128 aesctr p db srv n ≤
        History.total (seesFresh fl 16 lwe128 aesctr p db (c * db.numRows)) srv
          (fun x _ => gap fl 16 lwe128 aesctr p db noise128 (168 * db.numRows) (c * db.numRows) x) n [] +
        n * (2 / 2 ^ (38 * db.numRows) + (672 * db.numRows + 2) / 2 ^ 128) +
        2 * (n * db.numRows * (11 / 10 * (97 / 100) ^ c))

theorem decision_eq (P : Past) (fl : ℚ → ℚ) (k : Nat) {w : Nat} (S : Scheme w) (aesctr : List Byte → Nat → Byte) (p : Params)
    (db : Db w) (srv : Server Nat (List Byte → Res (List Byte)) (Res (List Byte) × Res Unit))
    (hang : List (Res (List Byte) × Res Unit) → ℚ) (right : Bool) (n : Nat) :
    decision P fl k S aesctr p db srv hang right n = avg (fun B : (Fin P.M → Byte) × (Fin (8 * P.N) → Byte) =>
      decides (drawNext fl k p.n db.numRows) (watch S aesctr p db) srv hang right n [] ⟨tape P.rest P.pos P.M B.1, P.pos⟩
        (List.ofFn (fun i : Fin P.N => servedWord (tape P.rest' (8 * P.m) (8 * P.N) B.2) bufSize (8 * P.m) i))) := by
  unfold decision
  refine avg_congr (fun B => ?_)
  rw [words_eq]

/-- The decision lies between those over complete draws, with nothing and with everything for incomplete ones. -/
theorem decision_between (P : Past) (fl : ℚ → ℚ) (k : Nat) (hk : k ≤ 16) {w : Nat} (S : Scheme w) (aesctr : List Byte → Nat → Byte)
    (p : Params) (db : Db w) (srv : Server Nat (List Byte → Res (List Byte)) (Res (List Byte) × Res Unit))
    (hang : List (Res (List Byte) × Res Unit) → ℚ) (hD : IsTest srv.decide) (hh : IsTest hang) (right : Bool) (n : Nat)
    (hM : n * stride k p.n ≤ P.M) :
    sharedAvg fl k p.n db.numRows n P.N (replay (watch S aesctr p db) srv right []) ≤ decision P fl k S aesctr p db srv hang right n ∧
    decision P fl k S aesctr p db srv hang right n ≤ sharedAvg fl k p.n db.numRows n P.N (replay (watch S aesctr p db) srv right []) +
      avg (fun x : ((Fin n → Fin k → Byte) × (Fin n → Fin (k * p.n) → Byte)) × (Fin P.N → BitVec 64) =>
        judge 1 (fun _ => 0) (madeMany fl db.numRows x.1.1 x.1.2 (List.ofFn x.2))) := by
  have e1 := avg_stream P fl k p.n db.numRows n hk hM (judge 0 (replay (watch S aesctr p db) srv right []))
  have e2 := avg_stream P fl k p.n db.numRows n hk hM (judge 1 (fun _ => 0))
  rw [decision_eq, sharedAvg_eq, ← e1, ← e2]
  constructor
  · refine avg_mono (fun B => ?_)
    cases h : drawMany fl k p.n db.numRows n ⟨tape P.rest P.pos P.M B.1, P.pos⟩
        (List.ofFn (fun i : Fin P.N => servedWord (tape P.rest' (8 * P.m) (8 * P.N) B.2) bufSize (8 * P.m) i)) with
    | ok cs => exact le_of_eq (decides_eq fl k p.n db.numRows _ srv hang right n [] _ _ cs h).symm
    | err m => exact (decides_test _ _ srv hang hD hh right n [] _ _).1
    | crash m => exact (decides_test _ _ srv hang hD hh right n [] _ _).1
  · rw [avg_add]
    refine avg_mono (fun B => ?_)
    cases h : drawMany fl k p.n db.numRows n ⟨tape P.rest P.pos P.M B.1, P.pos⟩
        (List.ofFn (fun i : Fin P.N => servedWord (tape P.rest' (8 * P.m) (8 * P.N) B.2) bufSize (8 * P.m) i)) with
    | ok cs =>
      rw [decides_eq fl k p.n db.numRows _ srv hang right n [] _ _ cs h]
      exact le_of_eq (add_zero _).symm
    | err m => exact (decides_test _ _ srv hang hD hh right n [] _ _).2.trans (le_of_eq (zero_add _).symm)
    | crash m => exact (decides_test _ _ srv hang hD hh right n [] _ _).2.trans (le_of_eq (zero_add _).symm)

/-- C137 for either scheme. -/
theorem session_le {fl : ℚ → ℚ} (hf : Nearest fl) (aesctr : List Byte → Nat → Byte) (P : Past) {w k : Nat} (hk : k ≤ 16)
    {S : Scheme w} (hS : S.k = k) (hw : 256 ^ k = 2 ^ w) {lo hi : Int} {nz : Int → Int} (p : Params) (G : Good S lo hi nz p.b)
    (d : Nat) (hd : lo + hi = d) (hnz : ∀ g, g - 1 ≤ nz g ∧ nz g ≤ g) (h0 : nz 0 = 0) (hlo : 0 ≤ lo) (hhi : 0 ≤ hi)
    (db : Db w) (hp : Published S aesctr p.n db) (hpar : ParamsFor p db)
    (hb : ∀ x : Int, |x| < 84 * (db.numRows : Int) → -lo ≤ x ∧ x ≤ hi)
    (srv : Server Nat (List Byte → Res (List Byte)) (Res (List Byte) × Res Unit))
    (hang : List (Res (List Byte) × Res Unit) → ℚ) (hD : IsTest srv.decide) (hh : IsTest hang) (n c : Nat) (hc : 4 ≤ c)
    (hN : c * (n * db.numRows) ≤ P.N) (hM : n * stride k p.n ≤ P.M)
    (hch : ∀ past, (srv.choose past).left < db.numRows * db.numColumns ∧ (srv.choose past).right < db.numRows * db.numColumns) :
    |decision P fl k S aesctr p db srv hang false n - decision P fl k S aesctr p db srv hang true n| ≤
      History.total (seesFresh fl k S aesctr p db (c * db.numRows)) srv (gaps fl k S aesctr p db nz d (c * db.numRows)) n [] +
      n * (2 * (2 * db.numColumns / 2 ^ (38 * db.numRows)) + 2 * (db.numColumns * (2 * (2 * d + 1) * (1 / 2 ^ w)))) +
      4 * (n * db.numRows * (11 / 10 * (97 / 100) ^ c)) := by
  subst hS
  have h1 : |session (seesFresh fl S.k S aesctr p db (c * db.numRows)) srv false n [] -
      session (seesFresh fl S.k S aesctr p db (c * db.numRows)) srv true n []| ≤
      History.total (seesFresh fl S.k S aesctr p db (c * db.numRows)) srv (fun x D => gaps fl S.k S aesctr p db nz d (c * db.numRows) x D +
        (2 * (2 * db.numColumns / 2 ^ (38 * db.numRows)) + 2 * (db.numColumns * (2 * (2 * d + 1) * (1 / 2 ^ w))))) n [] := by
    refine session_close _ srv hD _ (fun x => x.left < db.numRows * db.numColumns ∧ x.right < db.numRows * db.numColumns) hch ?_ n []
    intro x D hx hDD
    have h2 := lwe_reaction aesctr p G d hd db (fun τ : Fin S.k → Byte => List.ofFn τ)
      (fun x : Sample S.k p.n (c * db.numRows) => List.ofFn x.1) (fun x => noiseFrom fl db.numRows (List.ofFn x.2))
      (fun τ x => setup_made hp hpar fl _ _ _) x.answer (1 / 2 ^ w) (spread_bytes w S.k hw) x.left x.right hx.1 hx.2 D hDD
    have h3 := overflow_le hf db hp.valid lo hi nz hnz h0 hlo hhi hb (Finset.range db.numColumns) (c * db.numRows)
      (A := Fin (S.k * p.n) → Byte)
    rw [Finset.card_range] at h3
    refine h2.trans ?_
    rw [add_assoc _ (2 * avg _)]
    exact add_le_add_right (add_le_add_left (mul_le_mul_of_nonneg_left h3 (by norm_num : (0 : ℚ) ≤ 2)) _) _
  rw [total_add] at h1
  have h2 : ∀ right, ownAvg fl S.k p.n db.numRows n (c * db.numRows) (replay (watch S aesctr p db) srv right []) =
      session (seesFresh fl S.k S aesctr p db (c * db.numRows)) srv right n [] := by
    intro right
    rw [ownAvg_fresh]
    exact (session_replay (fun x : Fresh S.k p.n (c * db.numRows) =>
      (⟨List.ofFn x.1, List.ofFn x.2.1, noiseFrom fl db.numRows (List.ofFn x.2.2)⟩ : Coins)) (watch S aesctr p db) srv right n []).symm
  have h3 := missing_le hf S.k p.n db.numRows n P.N c hc hN
  have ht := fun right y => replay_test (watch S aesctr p db) srv hD right y []
  have e3 : ((n * db.numRows : Nat) : ℚ) * late c = n * db.numRows * (11 / 10 * (97 / 100) ^ c) := by
    unfold late
    push_cast
    ring
  have key : ∀ a b : Bool, decision P fl S.k S aesctr p db srv hang a n - decision P fl S.k S aesctr p db srv hang b n ≤
      (session (seesFresh fl S.k S aesctr p db (c * db.numRows)) srv a n [] -
        session (seesFresh fl S.k S aesctr p db (c * db.numRows)) srv b n []) + 4 * (n * db.numRows * (11 / 10 * (97 / 100) ^ c)) := by
    intro a b
    have a1 := (decision_between P fl S.k hk S aesctr p db srv hang hD hh a n hM).2
    have b1 := (decision_between P fl S.k hk S aesctr p db srv hang hD hh b n hM).1
    have a2 := shared_own hf S.k p.n db.numRows n P.N (c * db.numRows) c hc le_rfl _ (ht a)
    have b2 := own_shared hf S.k p.n db.numRows n P.N (c * db.numRows) c hc le_rfl hN _ (ht b)
    rw [h2] at a2 b2
    rw [e3] at a2 b2 h3
    linarith
  have h4 := abs_le.1 h1
  have k1 := key false true
  have k2 := key true false
  rw [abs_le]
  constructor <;> linarith

/-- C138 for either scheme. -/
theorem wrong_session_le {fl : ℚ → ℚ} (hf : Nearest fl) (aesctr : List Byte → Nat → Byte) (P : Past) {w k : Nat} (hk : k ≤ 16)
    {S : Scheme w} (hS : S.k = k) (hw : 256 ^ k = 2 ^ w) {lo hi : Int} {nz : Int → Int} (p : Params) (G : Good S lo hi nz p.b)
    (d : Nat) (hd : lo + hi = d) (hnz : ∀ g, g - 1 ≤ nz g ∧ nz g ≤ g) (h0 : nz 0 = 0) (hlo : 0 ≤ lo) (hhi : 0 ≤ hi)
    (db : Db w) (hp : Published S aesctr p.n db) (hpar : ParamsFor p db)
    (hb : ∀ x : Int, |x| < 84 * (db.numRows : Int) → -lo ≤ x ∧ x ≤ hi)
    (srv : Server Nat (List Byte → Res (List Byte)) (Res (List Byte) × Res Unit)) (n c : Nat) (hc : 4 ≤ c)
    (hN : c * (n * db.numRows) ≤ P.N) (hM : n * stride k p.n ≤ P.M)
    (hch : ∀ past, (srv.choose past).left < db.numRows * db.numColumns) :
    wrongPart P fl k S aesctr p db srv n ≤
      History.total (seesFresh fl k S aesctr p db (c * db.numRows)) srv (fun x _ => gap fl k S aesctr p db nz d (c * db.numRows) x) n [] +
      n * (2 / 2 ^ (38 * db.numRows) + 2 * (2 * d + 1) * (1 / 2 ^ w)) + 2 * (n * db.numRows * (11 / 10 * (97 / 100) ^ c)) := by
  classical
  subst hS
  have h1 : everWrong (seesFresh fl S.k S aesctr p db (c * db.numRows)) (fun i F (x : Fresh S.k p.n (c * db.numRows)) =>
        WrongBit S aesctr p db i F ⟨List.ofFn x.1, List.ofFn x.2.1, noiseFrom fl db.numRows (List.ofFn x.2.2)⟩) srv n [] ≤
      History.total (seesFresh fl S.k S aesctr p db (c * db.numRows)) srv (fun x _ => gap fl S.k S aesctr p db nz d (c * db.numRows) x +
        (2 / 2 ^ (38 * db.numRows) + 2 * (2 * d + 1) * (1 / 2 ^ w))) n [] := by
    refine everWrong_le _ _ srv (fun x => gap fl S.k S aesctr p db nz d (c * db.numRows) x +
        (2 / 2 ^ (38 * db.numRows) + 2 * (2 * d + 1) * (1 / 2 ^ w))) (fun x => x.left < db.numRows * db.numColumns) hch ?_ n []
    intro x hx
    have h2 := lwe_forged aesctr p G d hd db (fun τ : Fin S.k → Byte => List.ofFn τ)
      (fun x : Sample S.k p.n (c * db.numRows) => List.ofFn x.1) (fun x => noiseFrom fl db.numRows (List.ofFn x.2))
      (fun τ x => setup_made hp hpar fl _ _ _) x.answer (1 / 2 ^ w) (spread_bytes w S.k hw) x.left hx
    have h3 := overflow_le hf db hp.valid lo hi nz hnz h0 hlo hhi hb {x.left % db.numColumns} (c * db.numRows)
      (A := Fin (S.k * p.n) → Byte)
    rw [Finset.card_singleton, Nat.cast_one, mul_one] at h3
    refine h2.trans ?_
    rw [add_assoc]
    exact add_le_add_right (add_le_add_left h3 _) _
  rw [total_add] at h1
  have h2 : ownAvg fl S.k p.n db.numRows n (c * db.numRows)
      (fun cs => indicator (ReplayWrong (watch S aesctr p db) (WrongBit S aesctr p db) srv [] cs)) =
      everWrong (seesFresh fl S.k S aesctr p db (c * db.numRows)) (fun i F (x : Fresh S.k p.n (c * db.numRows)) =>
        WrongBit S aesctr p db i F ⟨List.ofFn x.1, List.ofFn x.2.1, noiseFrom fl db.numRows (List.ofFn x.2.2)⟩) srv n [] := by
    rw [ownAvg_fresh]
    exact (everWrong_replay (fun x : Fresh S.k p.n (c * db.numRows) =>
      (⟨List.ofFn x.1, List.ofFn x.2.1, noiseFrom fl db.numRows (List.ofFn x.2.2)⟩ : Coins)) (watch S aesctr p db)
      (WrongBit S aesctr p db) srv n []).symm
  have h3 := missing_le hf S.k p.n db.numRows n P.N c hc hN
  have h4 : wrongPart P fl S.k S aesctr p db srv n ≤ sharedAvg fl S.k p.n db.numRows n P.N
      (fun cs => indicator (ReplayWrong (watch S aesctr p db) (WrongBit S aesctr p db) srv [] cs)) +
      avg (fun x : ((Fin n → Fin S.k → Byte) × (Fin n → Fin (S.k * p.n) → Byte)) × (Fin P.N → BitVec 64) =>
        judge 1 (fun _ => 0) (madeMany fl db.numRows x.1.1 x.1.2 (List.ofFn x.2))) := by
    have e1 := avg_stream P fl S.k p.n db.numRows n hk hM
      (judge 0 (fun cs => indicator (ReplayWrong (watch S aesctr p db) (WrongBit S aesctr p db) srv [] cs)))
    have e2 := avg_stream P fl S.k p.n db.numRows n hk hM (judge 1 (fun _ => 0))
    rw [sharedAvg_eq, ← e1, ← e2, avg_add]
    refine avg_mono (fun B => ?_)
    rw [words_eq]
    cases h : drawMany fl S.k p.n db.numRows n ⟨tape P.rest P.pos P.M B.1, P.pos⟩
        (List.ofFn (fun i : Fin P.N => servedWord (tape P.rest' (8 * P.m) (8 * P.N) B.2) bufSize (8 * P.m) i)) with
    | ok cs =>
      show _ ≤ indicator _ + (0 : ℚ)
      rw [add_zero]
      split
      · rename_i hw'
        obtain ⟨ws, e, hg⟩ := hw'
        rw [ok.injEq] at e
        subst e
        rw [indicator_true ((goesWrong_iff fl S.k p.n db.numRows _ _ srv n [] _ _ cs h).1 hg)]
      · exact indicator_nonneg _
    | err m =>
      show _ ≤ (0 : ℚ) + 1
      split <;> norm_num
    | crash m =>
      show _ ≤ (0 : ℚ) + 1
      split <;> norm_num
  have e3 : ((n * db.numRows : Nat) : ℚ) * late c = n * db.numRows * (11 / 10 * (97 / 100) ^ c) := by
    unfold late
    push_cast
    ring
  have a2 := shared_own hf S.k p.n db.numRows n P.N (c * db.numRows) c hc le_rfl
    (fun cs => indicator (ReplayWrong (watch S aesctr p db) (WrongBit S aesctr p db) srv [] cs))
    (fun y => ⟨indicator_nonneg _, indicator_le_one _⟩)
  rw [h2] at a2
  rw [e3] at a2 h3
  linarith

theorem stride_eq128 : stride 16 4800 = 76816 := by decide

theorem C137_holds : C137_Statement := by
  intro fl hf aesctr P srv hang hD hh n c hc
  constructor
  · intro db hp hR hN hM hch p
    have hb : p.b.toNat = 84 * db.numRows := computeB_toNat _ hR
    have hpos : 0 < db.numRows := Nat.pos_of_ne_zero (fun h => by have := (hch []).1; rw [h] at this; omega)
    have h := session_le (k := 4) (S := lwe32) hf aesctr P (by omega) rfl (by norm_num) p (good32 _ (by rw [hb]; omega))
      (168 * db.numRows - 2) (by rw [hb]; omega) (fun g => ⟨by simp, by simp⟩) rfl (by rw [hb]; omega) (by rw [hb]; omega) db hp
      ⟨rfl, rfl, rfl⟩ (fun x hx => by rw [hb]; have := abs_lt.1 hx; omega) srv hang hD hh n c hc hN
      (by show n * stride 4 1100 ≤ P.M; rw [stride_eq]; exact hM) hch
    rw [Nat.cast_sub (by omega)] at h
    push_cast at h
    refine h.trans (le_of_eq ?_)
    refine congrArg₂ (· + ·) (congrArg₂ (· + ·) rfl ?_) rfl
    ring
  · intro db hp hR hN hM hch p
    have hb : p.b.toNat = 84 * db.numRows := computeB_toNat _ (by omega)
    have hpos : 0 < db.numRows := Nat.pos_of_ne_zero (fun h => by have := (hch []).1; rw [h] at this; omega)
    have h := session_le (k := 16) (S := lwe128) hf aesctr P (by omega) rfl (by norm_num) p (good128 _ (by rw [hb]; omega))
      (168 * db.numRows) (by rw [hb]; omega) (fun g => by unfold noise128; split <;> omega) rfl (by rw [hb]; omega) (by rw [hb]; omega)
      db hp ⟨rfl, rfl, rfl⟩ (fun x hx => by rw [hb]; have := abs_lt.1 hx; omega) srv hang hD hh n c hc hN
      (by show n * stride 16 4800 ≤ P.M; rw [stride_eq128]; exact hM) hch
    push_cast at h
    refine h.trans (le_of_eq ?_)
    refine congrArg₂ (· + ·) (congrArg₂ (· + ·) rfl ?_) rfl
    ring

theorem C138_holds : C138_Statement := by
  intro fl hf aesctr P srv n c hc
  constructor
  · intro db hp hR hN hM hch p
    have hb : p.b.toNat = 84 * db.numRows := computeB_toNat _ hR
    have hpos : 0 < db.numRows := Nat.pos_of_ne_zero (fun h => by have := hch []; rw [h] at this; omega)
    have h := wrong_session_le (k := 4) (S := lwe32) hf aesctr P (by omega) rfl (by norm_num) p (good32 _ (by rw [hb]; omega))
      (168 * db.numRows - 2) (by rw [hb]; omega) (fun g => ⟨by simp, by simp⟩) rfl (by rw [hb]; omega) (by rw [hb]; omega) db hp
      ⟨rfl, rfl, rfl⟩ (fun x hx => by rw [hb]; have := abs_lt.1 hx; omega) srv n c hc hN
      (by show n * stride 4 1100 ≤ P.M; rw [stride_eq]; exact hM) hch
    rw [Nat.cast_sub (by omega)] at h
    push_cast at h
    refine h.trans (le_of_eq ?_)
    refine congrArg₂ (· + ·) (congrArg₂ (· + ·) rfl ?_) rfl
    ring
  · intro db hp hR hN hM hch p
    have hb : p.b.toNat = 84 * db.numRows := computeB_toNat _ (by omega)
    have hpos : 0 < db.numRows := Nat.pos_of_ne_zero (fun h => by have := hch []; rw [h] at this; omega)
    have h := wrong_session_le (k := 16) (S := lwe128) hf aesctr P (by omega) rfl (by norm_num) p (good128 _ (by rw [hb]; omega))
      (168 * db.numRows) (by rw [hb]; omega) (fun g => by unfold noise128; split <;> omega) rfl (by rw [hb]; omega) (by rw [hb]; omega)
      db hp ⟨rfl, rfl, rfl⟩ (fun x hx => by rw [hb]; have := abs_lt.1 hx; omega) srv n c hc hN
      (by show n * stride 16 4800 ≤ P.M; rw [stride_eq128]; exact hM) hch
    push_cast at h
    refine h.trans (le_of_eq ?_)
    refine congrArg₂ (· + ·) (congrArg₂ (· + ·) rfl ?_) rfl
    ring

/-- A server that proposes two entries depending on how often the client has rejected so far, answers by `F` and decides by `D`. -/
def sample (F : List (Res (List Byte) × Res Unit) → List Byte → Res (List Byte)) (D : List (Res (List Byte) × Res Unit) → ℚ) :
    Server Nat (List Byte → Res (List Byte)) (Res (List Byte) × Res Unit) :=
  ⟨fun past => ⟨(past.filter (fun v => v.2 matches err _)).length % 1024, 1000000 + past.length % 1000, F past⟩, D⟩

/-- The hypotheses can be met: a database of 1024 rows and columns, the 128-bit client, and a thousand lookups, with 3000 random
words for each noise value. Besides solving the LWE problem a server tells the two clients apart with an advantage of at most
`2^-85`. -/
example (aesctr : List Byte → Nat → Byte) (data : List Byte) (hd : data.length = 1024 * 1024 / 8 + 1) (P : Past)
    (hM : 1000 * 76816 ≤ P.M) (hN : 3000 * (1000 * 1024) ≤ P.N)
    (F : List (Res (List Byte) × Res Unit) → List Byte → Res (List Byte)) (D hang : List (Res (List Byte) × Res Unit) → ℚ)
    (hD : IsTest D) (hh : IsTest hang) :
    ∃ db fl, createRandomBinary lwe128 aesctr 4800 data 1024 1024 = ok db ∧ Nearest fl ∧
      (let p := paramsWithDatabaseSize128 1024 1024
      |decision P fl 16 lwe128 aesctr p db (sample F D) hang false 1000 -
          decision P fl 16 lwe128 aesctr p db (sample F D) hang true 1000| ≤
        History.total (seesFresh fl 16 lwe128 aesctr p db (3000 * 1024)) (sample F D)
          (gaps fl 16 lwe128 aesctr p db noise128 (168 * 1024) (3000 * 1024)) 1000 [] + 1 / 2 ^ 85) := by
  obtain ⟨fl, hf⟩ := Monitor.nearest_exists
  have hfit : FitsInt 4800 1024 1024 := by unfold FitsInt; norm_num
  obtain ⟨db, h1, h2, h3, h4, h5, -⟩ := C32_random_database aesctr 4800 1024 1024 data hd hfit
  refine ⟨db, fl, h1, hf, ?_⟩
  have h := (C137_holds fl hf aesctr P (sample F D) hang hD hh 1000 3000 (by norm_num)).2 db ⟨h2, h5, by rw [h3, h4]; exact hfit⟩
    (by rw [h3]; norm_num) (by rw [h3]; exact hN) hM (fun past => by
      rw [h3, h4]
      have a1 := Nat.mod_lt (past.filter (fun v => v.2 matches err _)).length (show 0 < 1024 by norm_num)
      have a2 := Nat.mod_lt past.length (show 0 < 1000 by norm_num)
      exact ⟨lt_of_lt_of_le a1 (by norm_num), lt_of_lt_of_le (Nat.add_lt_add_left a2 1000000) (by norm_num)⟩)
  rw [h3, h4] at h
  refine h.trans ?_
  rw [add_assoc]
  refine add_le_add_right ?_ _
  have a1 := tail_small (4 * (1024 : Nat)) (by positivity)
  have a2 := pow_small
  refine (add_le_add (mul_le_mul_of_nonneg_left (add_le_add_left a1 _) (by positivity)) (mul_le_mul_of_nonneg_left
    (mul_le_mul_of_nonneg_left (mul_le_mul_of_nonneg_left a2 (by norm_num)) (by positivity)) (by norm_num))).trans ?_
  norm_num

/-- The same with the 32-bit client and a hundred lookups: besides solving the LWE problem a server has a chance of at most one in
60 that one of the bits is wrong. -/
example (aesctr : List Byte → Nat → Byte) (data : List Byte) (hd : data.length = 1024 * 1024 / 8 + 1) (P : Past)
    (hM : 100 * 4416 ≤ P.M) (hN : 3000 * (100 * 1024) ≤ P.N)
    (F : List (Res (List Byte) × Res Unit) → List Byte → Res (List Byte)) (D : List (Res (List Byte) × Res Unit) → ℚ) :
    ∃ db fl, createRandomBinary lwe32 aesctr 1100 data 1024 1024 = ok db ∧ Nearest fl ∧
      (let p := paramsWithDatabaseSize 1024 1024
      wrongPart P fl 4 lwe32 aesctr p db (sample F D) 100 ≤
        History.total (seesFresh fl 4 lwe32 aesctr p db (3000 * 1024)) (sample F D)
          (fun x _ => gap fl 4 lwe32 aesctr p db id (168 * 1024 - 2) (3000 * 1024) x) 100 [] + 1 / 60) := by
  obtain ⟨fl, hf⟩ := Monitor.nearest_exists
  have hfit : FitsInt 1100 1024 1024 := by unfold FitsInt; norm_num
  obtain ⟨db, h1, h2, h3, h4, h5, -⟩ := C30_random_database aesctr 1100 1024 1024 data hd hfit
  refine ⟨db, fl, h1, hf, ?_⟩
  have h := (C138_holds fl hf aesctr P (sample F D) 100 3000 (by norm_num)).1 db ⟨h2, h5, by rw [h3, h4]; exact hfit⟩
    (by rw [h3]; norm_num) (by rw [h3]; exact hN) hM (fun past => by
      rw [h3, h4]
      have a1 := Nat.mod_lt (past.filter (fun v => v.2 matches err _)).length (show 0 < 1024 by norm_num)
      exact lt_of_lt_of_le a1 (by norm_num))
  rw [h3, h4] at h
  refine h.trans ?_
  rw [add_assoc]
  refine add_le_add_right ?_ _
  have a1 := tail_small 2 (by norm_num)
  have a2 := pow_small
  refine (add_le_add (mul_le_mul_of_nonneg_left (add_le_add_left a1 _) (by positivity)) (mul_le_mul_of_nonneg_left
    (mul_le_mul_of_nonneg_left (mul_le_mul_of_nonneg_left a2 (by norm_num)) (by positivity)) (by norm_num))).trans ?_
  norm_num

end Verif.LweStream
