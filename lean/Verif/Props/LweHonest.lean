import Verif.Spec.LweHonest
import Verif.Props.LweStream
import Verif.Props.LweChance

/-! # C151: sessions of lattice lookups that an honest server answers -/

namespace Verif.LweStream
open Res Verif.Rand Verif.Matrix Verif.Lwe Verif.Lwe.Spec Verif.Gauss Verif.Privacy Verif.Coins Verif.Coins.Spec Verif.Reaction
  Verif.History Verif.LweReal Verif.LweReal.Spec Verif.LweDraws Verif.Monitor.Spec Verif.LweStream.Spec

/-- C151: a client object makes `n` lookups one after the other, all from the same generators, and the server answers honestly.
Whatever the generators delivered before, whatever the database holds, and even if the entries are chosen by somebody who sees all
messages, the part of the random bytes of the generators for which not all lookups end with the stored bit is at most `n` times
`(168·rows - 1)/2^32 + 2·columns/2^(38·rows)` for the 32-bit client and `n` times `(168·rows + 1)/2^128 + 2·columns/2^(38·rows)`
for the 128-bit client, plus twice the chance that `c` random words per noise value do not suffice. If all stored bits are zero, the
first of the two terms is not there. -/
def C151_Statement : Prop :=
  ∀ fl : ℚ → ℚ, Nearest fl → ∀ (aesctr : List Byte → Nat → Byte) (P : Past) (ask : List (Res (List Byte) × Res Unit) → Nat)
    (n c : Nat), 4 ≤ c →
    (∀ db : Db 32, Published lwe32 aesctr 1100 db → 84 * db.numRows ≤ 2 ^ 31 → c * (n * db.numRows) ≤ P.N → n * 4416 ≤ P.M →
      (∀ past, ask past < db.numRows * db.numColumns) →
      ∀ one : ℚ, 0 ≤ one → ((∃ i j, storedBit db.matrix i j ≠ 0) → (168 * db.numRows - 1) / 2 ^ 32 ≤ one) →
      missedPart P fl 4 lwe32 aesctr (paramsWithDatabaseSize db.numRows db.numColumns) db ask n ≤
        n * (one + 2 * db.numColumns / 2 ^ (38 * db.numRows)) + 2 * (n * db.numRows * (11 / 10 * (97 / 100) ^ c))) ∧
    ∀ db : Db 128, Published lwe128 aesctr 4800 db → 84 * db.numRows < 2 ^ 32 - 1 → c * (n * db.numRows) ≤ P.N → n * 76816 ≤ P.M →
      (∀ past, ask past < db.numRows * db.numColumns) →
      ∀ one : ℚ, 0 ≤ one → ((∃ i j, storedBit db.matrix i j ≠ 0) → (168 * db.numRows + 1) / 2 ^ 128 ≤ one) →
      missedPart P fl 16 lwe128 aesctr (paramsWithDatabaseSize128 db.numRows db.numColumns) db ask n ≤
        n * (one + 2 * db.numColumns / 2 ^ (38 * db.numRows)) + 2 * (n * db.numRows * (11 / 10 * (97 / 100) ^ c))

/-- Somebody who chooses the entries and answers honestly. -/
def asker {V : Type} (ask : List V → Nat) (F : List Byte → Res (List Byte)) : Server Nat (List Byte → Res (List Byte)) V :=
  ⟨fun past => ⟨ask past, ask past, F⟩, fun _ => 0⟩

theorem delivers_collect {C V : Type} (next : Prg → List (BitVec 64) → Res (C × Prg × List (BitVec 64)))
    (see : Nat → (List Byte → Res (List Byte)) → C → V) (right : Nat → C → Prop) (ask : List V → Nat)
    (F : List Byte → Res (List Byte)) :
    ∀ n past g ws cs, collect next n g ws = ok cs →
      ¬ ReplayWrong see (fun i _ c => ¬ right i c) (asker ask F) past cs → Delivers next (fun i => see i F) right ask n past g ws := by
  intro n
  induction n with
  | zero => intros; trivial
  | succ n ih =>
    intro past g ws cs h hr
    rw [collect] at h
    obtain ⟨⟨c, g', ws'⟩, h1, h2⟩ := bind_eq_ok.1 h
    obtain ⟨cs', h3, h4⟩ := bind_eq_ok.1 h2
    rw [ok.injEq] at h4
    subst h4
    rw [ReplayWrong, not_or, not_not] at hr
    exact ⟨c, g', ws', h1, hr.1, ih _ _ _ _ h3 hr.2⟩

/-- Few multipliers hit a small set. -/
theorem hit_le {w : Nat} {T : Type} [Fintype T] (t : T → BitVec w) (ε : ℚ) (h : Spread t ε) (s : Finset (BitVec w)) :
    avg (fun τ => indicator (t τ ∈ s)) ≤ s.card * ε := by
  classical
  refine (avg_mono (g := fun τ => ∑ x ∈ s, indicator (t τ = x)) (fun τ => ?_)).trans ?_
  · by_cases hm : t τ ∈ s
    · rw [indicator_true hm]
      refine le_trans (le_of_eq (indicator_true (rfl : t τ = t τ)).symm)
        (Finset.single_le_sum (f := fun x => indicator (t τ = x)) (fun x _ => indicator_nonneg _) hm)
    · rw [indicator_false hm]
      exact Finset.sum_nonneg (fun x _ => indicator_nonneg _)
  · rw [avg_sum, ← nsmul_eq_mul]
    exact Finset.sum_le_card_nsmul _ _ _ (fun x _ => h x)

/-- One honest lookup with independent draws. -/
theorem fresh_missed {fl : ℚ → ℚ} (hf : Nearest fl) (aesctr : List Byte → Nat → Byte) {k : Nat} {S : Scheme (8 * k)} (hS : S.k = k)
    {lo hi : Int} {nz : Int → Int} (p : Params) (G : Good S lo hi nz p.b)
    (hnz : ∀ g, g - 1 ≤ nz g ∧ nz g ≤ g) (h0 : nz 0 = 0) (hlo : 0 ≤ lo) (hhi : 0 ≤ hi) (db : Db (8 * k))
    (hp : Published S aesctr p.n db) (hpar : ParamsFor p db)
    (hb : ∀ x : Int, |x| < 84 * (db.numRows : Int) → -lo ≤ x ∧ x ≤ hi) (hfit : lo + hi + 1 ≤ 2 ^ (8 * k)) (N i : Nat)
    (hi' : i < db.numRows * db.numColumns) (one : ℚ) (h1 : 0 ≤ one)
    (h2 : (∃ i j, storedBit db.matrix i j ≠ 0) → ((hi + lo + 1).toNat : ℚ) / 2 ^ (8 * k) ≤ one) :
    avg (fun x : Fresh k p.n N => indicator (¬ RightBit S aesctr p db i
      ⟨List.ofFn x.1, List.ofFn x.2.1, noiseFrom fl db.numRows (List.ofFn x.2.2)⟩)) ≤
      one + 2 * db.numColumns / 2 ^ (38 * db.numRows) := by
  classical
  have h3 := overflow_le hf db hp.valid lo hi nz hnz h0 hlo hhi hb (Finset.range db.numColumns) N (A := Fin (k * p.n) → Byte)
  rw [Finset.card_range] at h3
  rw [avg_prod]
  refine (avg_mono (g := fun y : Sample k p.n N => one + indicator (Overflow lo hi nz db (Finset.range db.numColumns)
    (noiseFrom fl db.numRows (List.ofFn y.2)))) (fun y => ?_)).trans ?_
  · by_cases ho : Overflow lo hi nz db (Finset.range db.numColumns) (noiseFrom fl db.numRows (List.ofFn y.2))
    · rw [indicator_true ho]
      refine (Reaction.avg_le (fun τ => indicator_le_one _)).trans ?_
      linarith
    · rw [indicator_false ho, add_zero]
      have hcol : ∀ j, j < db.numColumns →
          -lo ≤ columnNoise (fun r => nz ((noiseFrom fl db.numRows (List.ofFn y.2)).getD r 0)) db.matrix db.numRows j ∧
          columnNoise (fun r => nz ((noiseFrom fl db.numRows (List.ofFn y.2)).getD r 0)) db.matrix db.numRows j ≤ hi := by
        intro j hj
        by_contra hno
        exact ho ⟨j, Finset.mem_range.2 hj, hno⟩
      have key : ∀ τ : Fin k → Byte, ¬ RightBit S aesctr p db i
          ⟨List.ofFn τ, List.ofFn y.1, noiseFrom fl db.numRows (List.ofFn y.2)⟩ →
          storedBit db.matrix (i / db.numColumns) (i % db.numColumns) ≠ 0 ∧
          (wordAt (8 * k) k (List.ofFn τ) 0) ∈ (blind S p.b (columnNoise (fun r => nz ((noiseFrom fl db.numRows
            (List.ofFn y.2)).getD r 0)) db.matrix db.numRows (i % db.numColumns))).map ⟨BitVec.ofFin, fun a b h => by
              simpa using congrArg BitVec.toFin h⟩ := by
        intro τ hτ
        have hl := ofLE_lt (List.ofFn τ)
        rw [List.length_ofFn, show (256 : Nat) ^ k = 2 ^ (8 * k) by rw [pow_mul]; norm_num] at hl
        obtain ⟨a, b⟩ := (retrieve_small hS aesctr p G db ⟨List.ofFn τ, List.ofFn y.1, noiseFrom fl db.numRows (List.ofFn y.2)⟩
          (setup_made hp hpar fl _ _ _) i hi' hcol ⟨_, hl⟩ (by
            unfold multiplier
            rw [List.take_of_length_le (by simp)])).1 hτ
        refine ⟨a, Finset.mem_map.2 ⟨_, b, ?_⟩⟩
        unfold wordAt
        apply BitVec.eq_of_toNat_eq
        rw [Nat.mul_zero, List.drop_zero, List.take_of_length_le (by simp), BitVec.toNat_ofNat, Nat.mod_eq_of_lt hl]
        rfl
      by_cases hz : storedBit db.matrix (i / db.numColumns) (i % db.numColumns) = 0
      · refine (Reaction.avg_le (fun τ => ?_)).trans h1
        rw [indicator_false (fun h => (key τ h).1 hz)]
      · refine (avg_mono (fun τ => indicator_mono (fun h => (key τ h).2))).trans
          ((hit_le _ _ (spread_bytes (8 * k) k (by rw [pow_mul]; norm_num)) _).trans ?_)
        rw [Finset.card_map, blind_card G hfit, mul_one_div]
        exact h2 ⟨_, _, hz⟩
  · rw [← avg_add, avg_const]
    exact add_le_add_right h3 _

/-- C151 for either scheme. -/
theorem missed_le {fl : ℚ → ℚ} (hf : Nearest fl) (aesctr : List Byte → Nat → Byte) (P : Past) {k : Nat} (hk : k ≤ 16)
    {S : Scheme (8 * k)} (hS : S.k = k) {lo hi : Int} {nz : Int → Int} (p : Params) (G : Good S lo hi nz p.b)
    (hnz : ∀ g, g - 1 ≤ nz g ∧ nz g ≤ g) (h0 : nz 0 = 0) (hlo : 0 ≤ lo) (hhi : 0 ≤ hi) (db : Db (8 * k))
    (hp : Published S aesctr p.n db) (hpar : ParamsFor p db)
    (hb : ∀ x : Int, |x| < 84 * (db.numRows : Int) → -lo ≤ x ∧ x ≤ hi) (hfit : lo + hi + 1 ≤ 2 ^ (8 * k))
    (ask : List (Res (List Byte) × Res Unit) → Nat) (n c : Nat) (hc : 4 ≤ c)
    (hN : c * (n * db.numRows) ≤ P.N) (hM : n * stride k p.n ≤ P.M) (hask : ∀ past, ask past < db.numRows * db.numColumns)
    (one : ℚ) (h1 : 0 ≤ one) (h2 : (∃ i j, storedBit db.matrix i j ≠ 0) → ((hi + lo + 1).toNat : ℚ) / 2 ^ (8 * k) ≤ one) :
    missedPart P fl k S aesctr p db ask n ≤
      n * (one + 2 * db.numColumns / 2 ^ (38 * db.numRows)) + 2 * (n * db.numRows * (11 / 10 * (97 / 100) ^ c)) := by
  classical
  set srv := asker (V := Res (List Byte) × Res Unit) ask (answerBytes S db) with hsrv
  set bad : Nat → (List Byte → Res (List Byte)) → Coins → Prop := fun i _ c => ¬ RightBit S aesctr p db i c with hbad
  have g1 : everWrong (seesFresh fl k S aesctr p db (c * db.numRows)) (fun i F (x : Fresh k p.n (c * db.numRows)) =>
        bad i F ⟨List.ofFn x.1, List.ofFn x.2.1, noiseFrom fl db.numRows (List.ofFn x.2.2)⟩) srv n [] ≤
      n * (one + 2 * db.numColumns / 2 ^ (38 * db.numRows)) := by
    refine (everWrong_le _ _ srv (fun _ => one + 2 * db.numColumns / 2 ^ (38 * db.numRows))
      (fun x => x.left < db.numRows * db.numColumns) hask (fun x hx => ?_) n []).trans
      (History.total_le _ _ (fun _ _ => one + 2 * db.numColumns / 2 ^ (38 * db.numRows)) _ (by positivity) (fun _ _ => le_rfl) n [])
    exact fresh_missed hf aesctr hS p G hnz h0 hlo hhi db hp hpar hb hfit _ x.left hx one h1 h2
  have g2 : ownAvg fl k p.n db.numRows n (c * db.numRows)
      (fun cs => indicator (ReplayWrong (watch S aesctr p db) bad srv [] cs)) =
      everWrong (seesFresh fl k S aesctr p db (c * db.numRows)) (fun i F (x : Fresh k p.n (c * db.numRows)) =>
        bad i F ⟨List.ofFn x.1, List.ofFn x.2.1, noiseFrom fl db.numRows (List.ofFn x.2.2)⟩) srv n [] := by
    rw [ownAvg_fresh]
    exact (everWrong_replay (fun x : Fresh k p.n (c * db.numRows) =>
      (⟨List.ofFn x.1, List.ofFn x.2.1, noiseFrom fl db.numRows (List.ofFn x.2.2)⟩ : Coins)) (watch S aesctr p db)
      bad srv n []).symm
  have g3 := missing_le hf k p.n db.numRows n P.N c hc hN
  have g4 : missedPart P fl k S aesctr p db ask n ≤ sharedAvg fl k p.n db.numRows n P.N
      (fun cs => indicator (ReplayWrong (watch S aesctr p db) bad srv [] cs)) +
      avg (fun x : ((Fin n → Fin k → Byte) × (Fin n → Fin (k * p.n) → Byte)) × (Fin P.N → BitVec 64) =>
        judge 1 (fun _ => 0) (madeMany fl db.numRows x.1.1 x.1.2 (List.ofFn x.2))) := by
    have e1 := avg_stream P fl k p.n db.numRows n hk hM
      (judge 0 (fun cs => indicator (ReplayWrong (watch S aesctr p db) bad srv [] cs)))
    have e2 := avg_stream P fl k p.n db.numRows n hk hM (judge 1 (fun _ => 0))
    rw [sharedAvg_eq, ← e1, ← e2, avg_add]
    refine avg_mono (fun B => ?_)
    rw [words_eq]
    cases h : drawMany fl k p.n db.numRows n ⟨tape P.rest P.pos P.M B.1, P.pos⟩
        (List.ofFn (fun i : Fin P.N => servedWord (tape P.rest' (8 * P.m) (8 * P.N) B.2) bufSize (8 * P.m) i)) with
    | ok cs =>
      show _ ≤ indicator _ + (0 : ℚ)
      rw [add_zero]
      split
      · exact indicator_nonneg _
      · rename_i hno
        by_cases hr : ReplayWrong (watch S aesctr p db) bad srv [] cs
        · rw [indicator_true hr]
        · exact absurd ⟨_, rfl, delivers_collect _ (watch S aesctr p db) _ ask _ n [] _ _ cs
            (by rw [collect_drawNext, h]) hr⟩ hno
    | err m =>
      show _ ≤ (0 : ℚ) + 1
      split <;> norm_num
    | crash m =>
      show _ ≤ (0 : ℚ) + 1
      split <;> norm_num
  have e3 : ((n * db.numRows : Nat) : ℚ) * late c = n * db.numRows * (11 / 10 * (97 / 100) ^ c) := by
    unfold late
    push_cast
    ring
  have a2 := shared_own hf k p.n db.numRows n P.N (c * db.numRows) c hc le_rfl
    (fun cs => indicator (ReplayWrong (watch S aesctr p db) bad srv [] cs))
    (fun y => ⟨indicator_nonneg _, indicator_le_one _⟩)
  rw [g2] at a2
  rw [e3] at a2 g3
  linarith

theorem C151_holds : C151_Statement := by
  intro fl hf aesctr P ask n c hc
  constructor
  · intro db hp hR hN hM hask one h1 h2
    have hb : (paramsWithDatabaseSize db.numRows db.numColumns).b.toNat = 84 * db.numRows := computeB_toNat _ (by omega)
    have hpos : 0 < db.numRows := Nat.pos_of_ne_zero (fun h => by have := hask []; rw [h] at this; omega)
    refine missed_le (k := 4) (S := lwe32) hf aesctr P (by omega) rfl (paramsWithDatabaseSize db.numRows db.numColumns)
      (good32 _ (by rw [hb]; omega)) (fun g => ⟨by simp, by simp⟩) rfl (by rw [hb]; omega) (by rw [hb]; omega) db hp ⟨rfl, rfl, rfl⟩
      (fun x hx => by rw [hb]; have := abs_lt.1 hx; omega) (by rw [hb]; omega) ask n c hc hN
      (by show n * stride 4 1100 ≤ P.M; rw [stride_eq]; exact hM) hask one h1 (fun hne => (le_of_eq ?_).trans (h2 hne))
    have e : (((84 * db.numRows : Nat) : Int) - 1 + (((84 * db.numRows : Nat) : Int) - 1) + 1).toNat = 168 * db.numRows - 1 := by omega
    rw [hb, e, Nat.cast_sub (by omega)]
    push_cast
    rfl
  · intro db hp hR hN hM hask one h1 h2
    have hb : (paramsWithDatabaseSize128 db.numRows db.numColumns).b.toNat = 84 * db.numRows := computeB_toNat _ (by omega)
    have hpos : 0 < db.numRows := Nat.pos_of_ne_zero (fun h => by have := hask []; rw [h] at this; omega)
    refine missed_le (k := 16) (S := lwe128) hf aesctr P (by omega) rfl (paramsWithDatabaseSize128 db.numRows db.numColumns)
      (good128 _ (by rw [hb]; omega)) (fun g => by unfold noise128; split <;> omega) rfl (by rw [hb]; omega) (by rw [hb]; omega) db hp
      ⟨rfl, rfl, rfl⟩ (fun x hx => by rw [hb]; have := abs_lt.1 hx; omega) (by rw [hb]; omega) ask n c hc hN
      (by show n * stride 16 4800 ≤ P.M; rw [stride_eq128]; exact hM) hask one h1 (fun hne => (le_of_eq ?_).trans (h2 hne))
    have e : (((84 * db.numRows : Nat) : Int) - 1 + (((84 * db.numRows : Nat) : Int) + 1) + 1).toNat = 168 * db.numRows + 1 := by omega
    rw [hb, e]
    push_cast
    rfl

/-- The hypotheses can be met: a database of 1024 rows and columns, the 128-bit client, and a thousand lookups of entries that depend
on all messages, with 3000 random words for each noise value. All lookups give the stored bits but for a chance of `2^-98`. -/
example (aesctr : List Byte → Nat → Byte) (data : List Byte) (hd : data.length = 1024 * 1024 / 8 + 1) (P : Past)
    (hM : 1000 * 76816 ≤ P.M) (hN : 3000 * (1000 * 1024) ≤ P.N) (pick : List (Res (List Byte) × Res Unit) → Nat) :
    ∃ db fl, createRandomBinary lwe128 aesctr 4800 data 1024 1024 = ok db ∧ Nearest fl ∧
      missedPart P fl 16 lwe128 aesctr (paramsWithDatabaseSize128 1024 1024) db (fun past => pick past % (1024 * 1024)) 1000 ≤
        1 / 2 ^ 98 := by
  obtain ⟨fl, hf⟩ := Monitor.nearest_exists
  have hfit : FitsInt 4800 1024 1024 := by unfold FitsInt; norm_num
  obtain ⟨db, h1, h2, h3, h4, h5, -⟩ := C32_random_database aesctr 4800 1024 1024 data hd hfit
  refine ⟨db, fl, h1, hf, ?_⟩
  have h := (C151_holds fl hf aesctr P (fun past => pick past % (1024 * 1024)) 1000 3000 (by norm_num)).2 db
    ⟨h2, h5, by rw [h3, h4]; exact hfit⟩ (by rw [h3]; norm_num) (by rw [h3]; exact hN) hM
    (fun past => by rw [h3, h4]; exact Nat.mod_lt _ (by norm_num)) _ (by positivity) (fun _ => le_rfl)
  rw [h3, h4] at h
  refine h.trans ?_
  have a1 := tail_small (2 * (1024 : Nat)) (by positivity)
  have a2 := pow_small
  refine (add_le_add (mul_le_mul_of_nonneg_left (add_le_add_right a1 _) (by positivity)) (mul_le_mul_of_nonneg_left
    (mul_le_mul_of_nonneg_left (mul_le_mul_of_nonneg_left a2 (by norm_num)) (by positivity)) (by norm_num))).trans ?_
  norm_num

/-- The same with the 32-bit client and a hundred lookups: but for a chance of one in 249 all lookups give the stored bits. -/
example (aesctr : List Byte → Nat → Byte) (data : List Byte) (hd : data.length = 1024 * 1024 / 8 + 1) (P : Past)
    (hM : 100 * 4416 ≤ P.M) (hN : 3000 * (100 * 1024) ≤ P.N) (pick : List (Res (List Byte) × Res Unit) → Nat) :
    ∃ db fl, createRandomBinary lwe32 aesctr 1100 data 1024 1024 = ok db ∧ Nearest fl ∧
      missedPart P fl 4 lwe32 aesctr (paramsWithDatabaseSize 1024 1024) db (fun past => pick past % (1024 * 1024)) 100 ≤ 1 / 249 := by
  obtain ⟨fl, hf⟩ := Monitor.nearest_exists
  have hfit : FitsInt 1100 1024 1024 := by unfold FitsInt; norm_num
  obtain ⟨db, h1, h2, h3, h4, h5, -⟩ := C30_random_database aesctr 1100 1024 1024 data hd hfit
  refine ⟨db, fl, h1, hf, ?_⟩
  have h := (C151_holds fl hf aesctr P (fun past => pick past % (1024 * 1024)) 100 3000 (by norm_num)).1 db
    ⟨h2, h5, by rw [h3, h4]; exact hfit⟩ (by rw [h3]; norm_num) (by rw [h3]; exact hN) hM
    (fun past => by rw [h3, h4]; exact Nat.mod_lt _ (by norm_num)) ((168 * 1024 - 1) / 2 ^ 32) (by norm_num)
    (fun _ => by rw [h3]; norm_num)
  rw [h3, h4] at h
  refine h.trans ?_
  have a1 := tail_small (2 * (1024 : Nat)) (by positivity)
  have a2 := pow_small
  refine (add_le_add (mul_le_mul_of_nonneg_left (add_le_add_right a1 _) (by positivity)) (mul_le_mul_of_nonneg_left
    (mul_le_mul_of_nonneg_left (mul_le_mul_of_nonneg_left a2 (by norm_num)) (by positivity)) (by norm_num))).trans ?_
  norm_num

end Verif.LweStream
