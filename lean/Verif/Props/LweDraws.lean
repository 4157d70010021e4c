import Verif.Spec.LweDraws
import Verif.Lemmas.LweDraws
import Verif.Props.ReactionAmplify
import Verif.Props.LweReal

/-! # C135, C136: a lying server of the amplified LWE client that draws from its own generators -/

namespace Verif.LweDraws
open Res Verif.Rand Verif.Matrix Verif.Lwe Verif.Lwe.Spec Verif.Gauss Verif.Gauss.Spec Verif.Privacy Verif.Coins
  Verif.Coins.Spec Verif.Reaction Verif.LweReal Verif.LweReal.Spec Verif.Monitor.Spec

/-- C135: whatever the generators delivered before, whatever the database holds, whichever entry is asked for and whatever
the server answers, the part of the random bytes with which an amplified client of `2t+1` base clients takes a bit that is
not stored is at most the advantages of `2t+1` explicit tests in telling `s A + e`, with a uniform secret and noise sampled
from `c` random words per value, from a uniform vector, plus `(2t+1)·2/2^(38·rows)` for large noise, plus
`binom(2t, t)·((672·rows - 6)/2^32)^(t+1)` for guessed multipliers, plus the chance that `c` words per value do not suffice. -/
def C135_Statement : Prop :=
  ∀ fl : ℚ → ℚ, Nearest fl → ∀ (aesctr : List Byte → Nat → Byte) (P : Past) (F : List Byte → Res (List Byte)) (t c : Nat),
    4 ≤ c → ∀ (db : Db 32) (index : Nat), Published lwe32 aesctr 1100 db → 84 * db.numRows < 2 ^ 32 →
      index < db.numRows * db.numColumns → (2 * t + 1) * 4416 ≤ P.M →
      let p := paramsWithDatabaseSize db.numRows db.numColumns
      amplifiedPart P fl 1100 db.numRows t (Spec.WrongFrom aesctr p db F index) ≤
        lweGaps (instanceOf fl 4 lwe32 aesctr p id (c * db.numRows))
          (mostTest (r := t) db F (168 * db.numRows - 2) {index % db.numColumns} (multiplierOf 32 4) (index / db.numColumns)) +
        (2 * t + 1) * (2 / 2 ^ (38 * db.numRows)) + (2 * t).choose t * ((672 * db.numRows - 6) / 2 ^ 32) ^ (t + 1) +
        (2 * t + 1) * db.numRows * (11 / 10 * (97 / 100) ^ c)

/-- C136: what the server sees of such a client, the message and the way it ends, tells two entries apart with no more than
the advantages of explicit tests against the LWE problem (some of which use the noise to compare the answers with the honest
ones), plus a term for guessed multipliers and large noise in any column, plus three times the chance that `c` random words
per noise value do not suffice. -/
def C136_Statement : Prop :=
  ∀ fl : ℚ → ℚ, Nearest fl → ∀ (aesctr : List Byte → Nat → Byte) (P : Past) (F : List Byte → Res (List Byte))
    (D : Option (Res (List Byte) × Res Unit) → ℚ), IsTest D → ∀ t c : Nat, 4 ≤ c →
    ∀ (db : Db 32) (i i' : Nat), Published lwe32 aesctr 1100 db → 84 * db.numRows < 2 ^ 32 →
      c * ((2 * t + 1) * db.numRows) ≤ P.N → i < db.numRows * db.numColumns → i' < db.numRows * db.numColumns →
      (2 * t + 1) * 4416 ≤ P.M →
      let p := paramsWithDatabaseSize db.numRows db.numColumns
      let v := instanceOf fl 4 lwe32 aesctr p id (c * db.numRows)
      let near := toleranceOf fl 4 1100 lwe32 p.b db id (c * db.numRows)
      let see := fun i => hintGaps v near
        (seeAllTest (n := 2 * t + 1) db F (multiplierOf 32 4) (i / db.numColumns) (fun x => D (some x)))
      let hit := fun i => lweGaps v (oneTest (n := 2 * t + 1) db F (168 * db.numRows - 2) (Finset.range db.numColumns)
        (multiplierOf 32 4) (i / db.numColumns))
      |Spec.seen P fl aesctr p db t F i D - Spec.seen P fl aesctr p db t F i' D| ≤
        see i + see i' + hit i + hit i' +
          (2 * t + 1) * (4 * db.numColumns / 2 ^ (38 * db.numRows) + 2 * db.numColumns * (672 * db.numRows - 6) / 2 ^ 32) +
          3 * ((2 * t + 1) * db.numRows * (11 / 10 * (97 / 100) ^ c))

theorem stride_eq : stride 4 1100 = 4416 := by decide

theorem avg_amplified (P : Past) (fl : ℚ → ℚ) (l t : Nat) (hM : (2 * t + 1) * 4416 ≤ P.M) (Φ : Res (List Coins) → ℚ) :
    avg (fun B : (Fin P.M → Byte) × (Fin (8 * P.N) → Byte) => Φ (amplifiedDraws P fl 1100 l t B.1 B.2)) =
      avg (fun x : ((Fin (2 * t + 1) → Fin 4 → Byte) × (Fin (2 * t + 1) → Fin (4 * 1100) → Byte)) × (Fin P.N → BitVec 64) =>
          Φ (madeMany fl l x.1.1 x.1.2 (List.ofFn x.2))) := by
  rw [← avg_many_eq P fl 4 1100 l (2 * t + 1) (by omega) (by rw [stride_eq]; exact hM)]
  exact avg_congr (fun B => by rw [amplifiedDraws_eq])

/-- The noise is rarely too large. -/
theorem large_le {fl : ℚ → ℚ} (hf : Nearest fl) {aesctr : List Byte → Nat → Byte} (db : Db 32) (hp : Published lwe32 aesctr 1100 db)
    (hpos : 0 < db.numRows) (ks : Finset Nat) (N : Nat) :
    avg (fun x : Sample 4 1100 N => indicator (Overflow (((84 * db.numRows : Nat) : Int) - 1) (((84 * db.numRows : Nat) : Int) - 1)
      id db ks (noiseFrom fl db.numRows (List.ofFn x.2)))) ≤ 2 * ks.card / 2 ^ (38 * db.numRows) :=
  overflow_le hf db hp.valid _ _ id (fun g => ⟨by simp, by simp⟩) rfl (by omega) (by omega)
    (fun x hx => by have := abs_lt.1 hx; omega) ks N (A := Fin (4 * 1100) → Byte)

theorem C135_holds : C135_Statement := by
  classical
  intro fl hf aesctr P F t c hc db index hp hR hi hM p
  have hb : p.b.toNat = 84 * db.numRows := computeB_toNat _ hR
  have hpos : 0 < db.numRows := Nat.pos_of_ne_zero (fun h => by rw [h] at hi; omega)
  let Φ : List Coins → ℚ := fun cs => indicator (∃ b, amplifyRetrieve aesctr p db.numColumns db.digest cs index F = ok b ∧
      b ≠ BitVec.ofNat 32 (storedBit db.matrix (index / db.numColumns) (index % db.numColumns)))
  have h1 : amplifiedPart P fl 1100 db.numRows t (Spec.WrongFrom aesctr p db F index) =
      sharedAvg fl 4 1100 db.numRows (2 * t + 1) P.N Φ := by
    unfold amplifiedPart
    rw [avg_amplified P fl db.numRows t hM (fun r => if Spec.WrongFrom aesctr p db F index r then (1 : ℚ) else 0), sharedAvg_eq]
    refine avg_congr (fun x => ?_)
    cases madeMany fl db.numRows x.1.1 x.1.2 (List.ofFn x.2) with
    | ok cs =>
      show _ = Φ cs
      by_cases hw : ∃ b, amplifyRetrieve aesctr p db.numColumns db.digest cs index F = ok b ∧
          b ≠ BitVec.ofNat 32 (storedBit db.matrix (index / db.numColumns) (index % db.numColumns))
      · rw [show Φ cs = 1 from indicator_true hw, if_pos]
        obtain ⟨b, e1, e2⟩ := hw
        exact ⟨cs, b, rfl, e1, e2⟩
      · rw [show Φ cs = 0 from indicator_false hw, if_neg]
        rintro ⟨cs', b, e, e1, e2⟩
        rw [ok.injEq] at e
        subst e
        exact hw ⟨b, e1, e2⟩
    | err m =>
      show _ = (0 : ℚ)
      rw [if_neg]
      rintro ⟨cs', b, e, -⟩
      simp at e
    | crash m =>
      show _ = (0 : ℚ)
      rw [if_neg]
      rintro ⟨cs', b, e, -⟩
      simp at e
  have h2 := shared_own hf 4 1100 db.numRows (2 * t + 1) P.N (c * db.numRows) c hc le_rfl Φ
    (fun y => ⟨indicator_nonneg _, indicator_le_one _⟩)
  have h3 := C110_wrong_bit (r := t) aesctr p (by rw [hb]; omega) db (fun x : Fin 4 → Byte => List.ofFn x)
    (fun x : Sample 4 1100 (c * db.numRows) => List.ofFn x.1) (fun x => noiseFrom fl db.numRows (List.ofFn x.2))
    (fun τ ω => setup_made hp ⟨rfl, rfl, rfl⟩ fl _ _ _) F _ C88_spread32 index hi
  have h4 := large_le hf db hp hpos {index % db.numColumns} (c * db.numRows)
  rw [Finset.card_singleton, Nat.cast_one, mul_one] at h4
  rw [hb] at h3
  have h5 := mul_le_mul_of_nonneg_left h4 (show (0 : ℚ) ≤ 2 * t + 1 by positivity)
  have e1 : (2 * (2 * ((2 * (84 * db.numRows) - 2 : Nat) : ℚ) + 1) * (1 / 2 ^ 32)) = (672 * db.numRows - 6) / 2 ^ 32 := by
    rw [Nat.cast_sub (by omega)]
    push_cast
    ring
  have e2 : ((2 * (84 * db.numRows) - 2 : Nat) : Int) = 168 * db.numRows - 2 := by omega
  rw [e1, e2] at h3
  have e3 : (((2 * t + 1) * db.numRows : Nat) : ℚ) * late c = (2 * t + 1) * db.numRows * (11 / 10 * (97 / 100) ^ c) := by
    unfold late
    push_cast
    ring
  rw [e3, ← h1] at h2
  have h6 : ownAvg fl 4 1100 db.numRows (2 * t + 1) (c * db.numRows) Φ ≤ _ := h3
  refine h2.trans (add_le_add_left (h6.trans ?_) _)
  exact add_le_add_left (add_le_add_right h5 _) _

theorem C136_holds : C136_Statement := by
  intro fl hf aesctr P F D hD t c hc db i i' hp hR hN hi hi' hM p v near see hit
  have hb : p.b.toNat = 84 * db.numRows := computeB_toNat _ hR
  have hpos : 0 < db.numRows := Nat.pos_of_ne_zero (fun h => by rw [h] at hi; omega)
  let Φ : Nat → List Coins → ℚ := fun j cs => D (some (viewAll aesctr p db F j cs))
  have h1 : ∀ j, Spec.seen P fl aesctr p db t F j D =
      avg (fun x : ((Fin (2 * t + 1) → Fin 4 → Byte) × (Fin (2 * t + 1) → Fin (4 * 1100) → Byte)) × (Fin P.N → BitVec 64) =>
          judge (D none) (Φ j) (madeMany fl db.numRows x.1.1 x.1.2 (List.ofFn x.2))) := by
    intro j
    refine (avg_amplified P fl db.numRows t hM (fun r => D (Spec.sees aesctr p db F j r))).trans ?_
    refine avg_congr (fun x => ?_)
    cases madeMany fl db.numRows x.1.1 x.1.2 (List.ofFn x.2) <;> rfl
  have h2 := judge_gap hf 4 1100 db.numRows (2 * t + 1) P.N (c * db.numRows) c hc le_rfl hN (D none) (Φ i) (Φ i')
    (fun y => hD _) (fun y => hD _)
  have h3 := C109_reaction_hides (n := 2 * t + 1) (by omega) aesctr p (by rw [hb]; omega) db
    (fun x : Fin 4 → Byte => List.ofFn x)
    (fun x : Sample 4 1100 (c * db.numRows) => List.ofFn x.1) (fun x => noiseFrom fl db.numRows (List.ofFn x.2))
    (fun τ ω => setup_made hp ⟨rfl, rfl, rfl⟩ fl _ _ _) F _ C88_spread32 i i' hi hi' (fun x => D (some x)) (fun x => hD _)
  have h4 := large_le hf db hp hpos (Finset.range db.numColumns) (c * db.numRows)
  rw [Finset.card_range] at h4
  rw [hb] at h3
  have e1 : (2 * (2 * ((2 * (84 * db.numRows) - 2 : Nat) : ℚ) + 1) * (1 / 2 ^ 32)) = (672 * db.numRows - 6) / 2 ^ 32 := by
    rw [Nat.cast_sub (by omega)]
    push_cast
    ring
  have e2 : ((2 * (84 * db.numRows) - 2 : Nat) : Int) = 168 * db.numRows - 2 := by omega
  rw [e1, e2] at h3
  have e3 : (((2 * t + 1) * db.numRows : Nat) : ℚ) * late c = (2 * t + 1) * db.numRows * (11 / 10 * (97 / 100) ^ c) := by
    unfold late
    push_cast
    ring
  rw [e3, ← h1, ← h1] at h2
  have h5 := mul_le_mul_of_nonneg_left h4 (show (0 : ℚ) ≤ 2 * (2 * t + 1 : Nat) by positivity)
  have h6 : |ownAvg fl 4 1100 db.numRows (2 * t + 1) (c * db.numRows) (Φ i) -
      ownAvg fl 4 1100 db.numRows (2 * t + 1) (c * db.numRows) (Φ i')| ≤ see i + see i' + hit i + hit i' + _ + _ := h3
  refine h2.trans (add_le_add_left (h6.trans ?_) _)
  rw [add_assoc (see i + see i' + hit i + hit i')]
  refine add_le_add_right ((add_le_add_left h5 _).trans (le_of_eq ?_)) _
  push_cast
  ring

/-- C136 for a server that does not learn how the client ends: whatever the number of columns and the digest, nothing but the
advantages of tests against the LWE problem and the chance that the words do not suffice remains. -/
theorem C136_message {fl : ℚ → ℚ} (hf : Nearest fl) (aesctr : List Byte → Nat → Byte) (P : Past) (rows cols : Nat) (dg : Mat 32)
    (hfit : FitsInt 1 1100 rows) (hR : 84 * rows < 2 ^ 32) (D : Option (Res (List Byte)) → ℚ) (hD : IsTest D) (t c : Nat)
    (hc : 4 ≤ c) (hN : c * ((2 * t + 1) * rows) ≤ P.N) (hM : (2 * t + 1) * 4416 ≤ P.M) (i i' : Nat) (hi : i < rows * cols)
    (hi' : i' < rows * cols) :
    |Spec.heard P fl aesctr (paramsWithDatabaseSize rows cols) cols dg t i D -
        Spec.heard P fl aesctr (paramsWithDatabaseSize rows cols) cols dg t i' D| ≤
      lweGaps (instanceOf fl 4 lwe32 aesctr (paramsWithDatabaseSize rows cols) id (c * rows))
        (rowsTest (n := 2 * t + 1) (multiplierOf 32 4) (i / cols) (fun x => D (some x))) +
      lweGaps (instanceOf fl 4 lwe32 aesctr (paramsWithDatabaseSize rows cols) id (c * rows))
        (rowsTest (n := 2 * t + 1) (multiplierOf 32 4) (i' / cols) (fun x => D (some x))) +
      3 * ((2 * t + 1) * rows * (11 / 10 * (97 / 100) ^ c)) := by
  have hb : (paramsWithDatabaseSize rows cols).b.toNat = 84 * rows := computeB_toNat _ hR
  have hpos : 0 < rows := Nat.pos_of_ne_zero (fun h => by rw [h] at hi; omega)
  let Φ : Nat → List Coins → ℚ := fun j cs => D (some (sentAll aesctr (paramsWithDatabaseSize rows cols) cols dg j cs))
  have h1 : ∀ j, Spec.heard P fl aesctr (paramsWithDatabaseSize rows cols) cols dg t j D =
      avg (fun x : ((Fin (2 * t + 1) → Fin 4 → Byte) × (Fin (2 * t + 1) → Fin (4 * 1100) → Byte)) × (Fin P.N → BitVec 64) =>
          judge (D none) (Φ j) (madeMany fl rows x.1.1 x.1.2 (List.ofFn x.2))) := by
    intro j
    refine (avg_amplified P fl rows t hM (fun r => D (Spec.hears aesctr (paramsWithDatabaseSize rows cols) cols dg j r))).trans ?_
    refine avg_congr (fun x => ?_)
    cases madeMany fl rows x.1.1 x.1.2 (List.ofFn x.2) <;> rfl
  have h2 := judge_gap hf 4 1100 rows (2 * t + 1) P.N (c * rows) c hc le_rfl hN (D none) (Φ i) (Φ i')
    (fun y => hD _) (fun y => hD _)
  have h3 := C108_query_hides (n := 2 * t + 1) aesctr (paramsWithDatabaseSize rows cols) (by rw [hb]; omega) cols dg hfit
    (fun x : Fin 4 → Byte => List.ofFn x)
    (fun x : Sample 4 1100 (c * rows) => List.ofFn x.1) (fun x => noiseFrom fl rows (List.ofFn x.2))
    (fun ω => noiseFrom_length fl _ _) (fun ω => noiseFrom_bound fl _ _) i i' hi hi' (fun x => D (some x))
  have e3 : (((2 * t + 1) * rows : Nat) : ℚ) * late c = (2 * t + 1) * rows * (11 / 10 * (97 / 100) ^ c) := by
    unfold late
    push_cast
    ring
  rw [e3, ← h1, ← h1] at h2
  exact h2.trans (add_le_add_left h3 _)

example (aesctr : List Byte → Nat → Byte) (dg : Mat 32) (D : Option (Res (List Byte)) → ℚ) (hD : IsTest D) (fl : ℚ → ℚ)
    (hf : Nearest fl) := C136_message hf aesctr ⟨fun _ => 7, 32, 7 * 4416, fun _ => 9, 5, 4 * (7 * 1024)⟩ 1024 1024 dg (by decide)
  (by norm_num) D hD 3 4 le_rfl le_rfl le_rfl 777 123456 (by norm_num) (by norm_num)

theorem pow_small : ((97 : ℚ) / 100) ^ 3000 ≤ 1 / 2 ^ 120 := by
  refine (show ((97 : ℚ) / 100) ^ 3000 = (((97 : ℚ) / 100) ^ 25) ^ 120 by rw [← pow_mul]).le.trans ?_
  rw [one_div, ← inv_pow]
  exact pow_le_pow_left₀ (by positivity) (by norm_num) 120

/-- The hypotheses can be met: a database of 1024 rows and columns and seven base clients. Besides solving the LWE problem a
server has a chance of at most `2^-45` of a wrong bit. -/
example (aesctr : List Byte → Nat → Byte) (data : List Byte) (hd : data.length = 1024 * 1024 / 8 + 1) (P : Past)
    (hM : 7 * 4416 ≤ P.M) (F : List Byte → Res (List Byte)) :
    ∃ db fl, createRandomBinary lwe32 aesctr 1100 data 1024 1024 = ok db ∧ Nearest fl ∧
      amplifiedPart P fl 1100 1024 3 (Spec.WrongFrom aesctr (paramsWithDatabaseSize 1024 1024) db F 777) ≤
        lweGaps (instanceOf fl 4 lwe32 aesctr (paramsWithDatabaseSize 1024 1024) id (3000 * 1024))
          (mostTest (r := 3) db F (168 * (1024 : Nat) - 2) {777} (multiplierOf 32 4) 0) + 1 / 2 ^ 45 := by
  obtain ⟨fl, hf⟩ := Monitor.nearest_exists
  have hfit : FitsInt 1100 1024 1024 := by unfold FitsInt; norm_num
  obtain ⟨db, h1, h2, h3, h4, h5, -⟩ := C30_random_database aesctr 1100 1024 1024 data hd hfit
  refine ⟨db, fl, h1, hf, ?_⟩
  have h := C135_holds fl hf aesctr P F 3 3000 (by norm_num) db 777 ⟨h2, h5, by rw [h3, h4]; exact hfit⟩ (by rw [h3]; norm_num)
    (by rw [h3, h4]; norm_num) hM
  rw [h3, h4] at h
  refine h.trans ?_
  rw [add_assoc, add_assoc]
  refine add_le_add_right ?_ _
  have a1 := tail_small 2 (by norm_num)
  have a2 := pow_small
  have a3 : Nat.choose (2 * 3) 3 = 20 := by decide
  rw [a3]
  have b1 := mul_le_mul_of_nonneg_left a1 (show (0 : ℚ) ≤ 2 * (3 : Nat) + 1 by positivity)
  have b2 := mul_le_mul_of_nonneg_left a2 (show (0 : ℚ) ≤ (2 * (3 : Nat) + 1) * (1024 : Nat) * (11 / 10) by positivity)
  rw [mul_assoc ((2 * ((3 : Nat) : ℚ) + 1) * ((1024 : Nat) : ℚ)) (11 / 10)] at b2
  refine (add_le_add b1 (add_le_add_right b2 _)).trans ?_
  norm_num

/-- The same for what the server sees, when 3000 random words are there for each noise value: besides solving the LWE problem
it tells two entries apart with an advantage of at most two and a half, so that the bound says nothing for this size ... -/
example : (2 * (3 : ℚ) + 1) * (2 * 1024 * (672 * 1024 - 6) / 2 ^ 32) > 2 := by norm_num

/-- ... and of at most one in 60 for a database of 80 rows and columns. -/
example (aesctr : List Byte → Nat → Byte) (data : List Byte) (hd : data.length = 80 * 80 / 8 + 1) (P : Past)
    (hM : 7 * 4416 ≤ P.M) (hN : 3000 * (7 * 80) ≤ P.N) (F : List Byte → Res (List Byte))
    (D : Option (Res (List Byte) × Res Unit) → ℚ) (hD : IsTest D) :
    ∃ db fl, createRandomBinary lwe32 aesctr 1100 data 80 80 = ok db ∧ Nearest fl ∧
      (let p := paramsWithDatabaseSize 80 80
      let v := instanceOf fl 4 lwe32 aesctr p id (3000 * 80)
      let near := toleranceOf fl 4 1100 lwe32 p.b db id (3000 * 80)
      let see := fun i => hintGaps v near (seeAllTest (n := 7) db F (multiplierOf 32 4) (i / 80) (fun x => D (some x)))
      let hit := fun i => lweGaps v (oneTest (n := 7) db F (168 * (80 : Nat) - 2) (Finset.range 80) (multiplierOf 32 4) (i / 80))
      |Spec.seen P fl aesctr p db 3 F 777 D - Spec.seen P fl aesctr p db 3 F 5555 D| ≤
        see 777 + see 5555 + hit 777 + hit 5555 + 1 / 60) := by
  obtain ⟨fl, hf⟩ := Monitor.nearest_exists
  have hfit : FitsInt 1100 80 80 := by unfold FitsInt; norm_num
  obtain ⟨db, h1, h2, h3, h4, h5, -⟩ := C30_random_database aesctr 1100 80 80 data hd hfit
  refine ⟨db, fl, h1, hf, ?_⟩
  have h := C136_holds fl hf aesctr P F D hD 3 3000 (by norm_num) db 777 5555 ⟨h2, h5, by rw [h3, h4]; exact hfit⟩
    (by rw [h3]; norm_num) (by rw [h3]; exact hN) (by rw [h3, h4]; norm_num) (by rw [h3, h4]; norm_num) hM
  rw [h3, h4] at h
  refine h.trans ?_
  rw [add_assoc]
  refine add_le_add_right ?_ _
  have a1 : (4 * ((80 : Nat) : ℚ)) / 2 ^ (38 * 80) ≤ 4 * (80 : Nat) / 2 ^ 200 :=
    div_le_div_of_nonneg_left (by positivity) (by positivity) (pow_le_pow_right₀ (by norm_num) (by norm_num))
  have a2 := pow_small
  have b1 := mul_le_mul_of_nonneg_left (add_le_add_left a1 (2 * ((80 : Nat) : ℚ) * (672 * (80 : Nat) - 6) / 2 ^ 32))
    (show (0 : ℚ) ≤ 2 * (3 : Nat) + 1 by positivity)
  have b2 := mul_le_mul_of_nonneg_left a2 (show (0 : ℚ) ≤ 3 * ((2 * (3 : Nat) + 1) * (80 : Nat) * (11 / 10)) by positivity)
  rw [mul_assoc 3, mul_assoc ((2 * ((3 : Nat) : ℚ) + 1) * ((80 : Nat) : ℚ)) (11 / 10)] at b2
  refine (add_le_add b1 b2).trans ?_
  norm_num

end Verif.LweDraws
