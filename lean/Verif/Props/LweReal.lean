import Verif.Lemmas.LweReal

/-! # C132, C133: a lying server of the LWE schemes and a client with its own generators -/

namespace Verif.LweReal
open Res Verif.Rand Verif.Matrix Verif.Lwe Verif.Lwe.Spec Verif.Gauss Verif.Gauss.Spec Verif.Privacy Verif.Coins
  Verif.Coins.Spec Verif.Reaction Verif.LweReal.Spec Verif.Monitor.Spec

/-- C132: whatever the generators delivered before, whatever the database holds, whichever entry is asked for and whatever
the server answers, the part of the random bytes with which the client takes a bit that is not stored is at most the
advantage of an explicit test in telling `s A + e`, with a uniform secret and noise sampled from random words, from a
uniform vector, plus `2/2^(38·rows)`, plus `(672·rows - 6)/2^32` for the 32-bit and `(672·rows + 2)/2^128` for the 128-bit
client. -/
def C132_Statement : Prop :=
  ∀ fl : ℚ → ℚ, Nearest fl → ∀ (aesctr : List Byte → Nat → Byte) (P : Past) (F : List Byte → Res (List Byte)),
    (∀ (db : Db 32) (index : Nat), Published lwe32 aesctr 1100 db → 84 * db.numRows < 2 ^ 32 →
      index < db.numRows * db.numColumns → 5000 ≤ P.M →
      part P fl 4 1100 db.numRows (WrongFrom lwe32 aesctr (paramsWithDatabaseSize db.numRows db.numColumns) db F index) ≤
        lweGap (instanceOf fl 4 lwe32 aesctr (paramsWithDatabaseSize db.numRows db.numColumns) id P.N)
          (hitTest lwe32 db F (168 * db.numRows - 2) {index % db.numColumns} (multiplierOf 32 4) (index / db.numColumns)) +
        2 / 2 ^ (38 * db.numRows) + (672 * db.numRows - 6) / 2 ^ 32) ∧
    ∀ (db : Db 128) (index : Nat), Published lwe128 aesctr 4800 db → 84 * db.numRows < 2 ^ 32 - 1 →
      index < db.numRows * db.numColumns → 80000 ≤ P.M →
      part P fl 16 4800 db.numRows (WrongFrom lwe128 aesctr (paramsWithDatabaseSize128 db.numRows db.numColumns) db F index) ≤
        lweGap (instanceOf fl 16 lwe128 aesctr (paramsWithDatabaseSize128 db.numRows db.numColumns) noise128 P.N)
          (hitTest lwe128 db F (168 * db.numRows) {index % db.numColumns} (multiplierOf 128 16) (index / db.numColumns)) +
        2 / 2 ^ (38 * db.numRows) + (672 * db.numRows + 2) / 2 ^ 128

/-- C133: what the server sees of such a client, the message and the way it ends, tells two entries apart with no more than
the advantages of four explicit tests against the LWE problem (two of which use the noise for one comparison of the answer
with the honest one), plus a term for a guessed multiplier and large noise in any column, plus the chance that `c` random
words per noise value do not suffice. -/
def C133_Statement : Prop :=
  ∀ fl : ℚ → ℚ, Nearest fl → ∀ (aesctr : List Byte → Nat → Byte) (P : Past) (F : List Byte → Res (List Byte))
    (D : Option (Res (List Byte) × Res Unit) → ℚ), IsTest D → ∀ c, 4 ≤ c →
    (∀ (db : Db 32) (i i' : Nat), Published lwe32 aesctr 1100 db → 84 * db.numRows < 2 ^ 32 → c * db.numRows ≤ P.N →
      i < db.numRows * db.numColumns → i' < db.numRows * db.numColumns → 5000 ≤ P.M →
      let p := paramsWithDatabaseSize db.numRows db.numColumns
      let v := instanceOf fl 4 lwe32 aesctr p id P.N
      let near := toleranceOf fl 4 1100 lwe32 p.b db id P.N
      let see := fun i => hintGap v near (seeTest lwe32 db F (multiplierOf 32 4) (i / db.numColumns) (fun x => D (some x)))
      let hit := fun i => lweGap v
        (hitTest lwe32 db F (168 * db.numRows - 2) (Finset.range db.numColumns) (multiplierOf 32 4) (i / db.numColumns))
      |seen P fl 4 lwe32 aesctr p db F i D - seen P fl 4 lwe32 aesctr p db F i' D| ≤
        see i + see i' + hit i + hit i' + 4 * db.numColumns / 2 ^ (38 * db.numRows) +
          2 * db.numColumns * (672 * db.numRows - 6) / 2 ^ 32 + db.numRows * (11 / 10 * (97 / 100) ^ c)) ∧
    ∀ (db : Db 128) (i i' : Nat), Published lwe128 aesctr 4800 db → 84 * db.numRows < 2 ^ 32 - 1 → c * db.numRows ≤ P.N →
      i < db.numRows * db.numColumns → i' < db.numRows * db.numColumns → 80000 ≤ P.M →
      let p := paramsWithDatabaseSize128 db.numRows db.numColumns
      let v := instanceOf fl 16 lwe128 aesctr p noise128 P.N
      let near := toleranceOf fl 16 4800 lwe128 p.b db noise128 P.N
      let see := fun i => hintGap v near (seeTest lwe128 db F (multiplierOf 128 16) (i / db.numColumns) (fun x => D (some x)))
      let hit := fun i => lweGap v
        (hitTest lwe128 db F (168 * db.numRows) (Finset.range db.numColumns) (multiplierOf 128 16) (i / db.numColumns))
      |seen P fl 16 lwe128 aesctr p db F i D - seen P fl 16 lwe128 aesctr p db F i' D| ≤
        see i + see i' + hit i + hit i' + 4 * db.numColumns / 2 ^ (38 * db.numRows) +
          2 * db.numColumns * (672 * db.numRows + 2) / 2 ^ 128 + db.numRows * (11 / 10 * (97 / 100) ^ c)

theorem setup_made {w : Nat} {S : Scheme w} {aesctr : List Byte → Nat → Byte} {p : Params} {db : Db w}
    (hp : Published S aesctr p.n db) (hpar : ParamsFor p db) (fl : ℚ → ℚ) (ws : List (BitVec 64)) (a b : List Byte) :
    Setup S aesctr p db ⟨a, b, noiseFrom fl db.numRows ws⟩ :=
  ⟨hp.valid, hpar, hp.digest, hp.fits, noiseFrom_length fl _ ws, noiseFrom_bound fl _ ws⟩

/-- The bound on wrong bits, for either scheme. -/
theorem wrong_le {fl : ℚ → ℚ} (hf : Nearest fl) (aesctr : List Byte → Nat → Byte) (P : Past) {w k : Nat} (hk : k ≤ 16)
    {S : Scheme w} (hS : S.k = k) (hw : 256 ^ k = 2 ^ w) {lo hi : Int} {nz : Int → Int} (p : Params) (G : Good S lo hi nz p.b)
    (d : Nat) (hd : lo + hi = d) (hnz : ∀ g, g - 1 ≤ nz g ∧ nz g ≤ g) (h0 : nz 0 = 0) (hlo : 0 ≤ lo) (hhi : 0 ≤ hi)
    (db : Db w) (hp : Published S aesctr p.n db) (hpar : ParamsFor p db) (F : List Byte → Res (List Byte))
    (index : Nat) (hidx : index < db.numRows * db.numColumns)
    (hb : ∀ x : Int, |x| < 84 * (db.numRows : Int) → -lo ≤ x ∧ x ≤ hi) (hM : 16 + k * p.n ≤ P.M) :
    part P fl k p.n db.numRows (WrongFrom S aesctr p db F index) ≤
      lweGap (fun x : Sample k p.n P.N => secretVector S aesctr p nz (List.ofFn x.1) (noiseFrom fl db.numRows (List.ofFn x.2)))
        (hitTest S db F d {index % db.numColumns} (multiplierOf w k) (index / db.numColumns)) +
      2 / 2 ^ (38 * db.numRows) + 2 * (2 * d + 1) * (1 / 2 ^ w) := by
  classical
  subst hS
  have h1 := lwe_forged aesctr p G d hd db (fun τ : Fin S.k → Byte => List.ofFn τ)
    (fun x : Sample S.k p.n P.N => List.ofFn x.1) (fun x => noiseFrom fl db.numRows (List.ofFn x.2))
    (fun τ x => setup_made hp hpar fl _ _ _) F (1 / 2 ^ w) (spread_bytes w S.k hw) index hidx
  have h2 := overflow_le hf db hp.valid lo hi nz hnz h0 hlo hhi hb {index % db.numColumns} P.N (A := Fin (S.k * p.n) → Byte)
  rw [Finset.card_singleton, Nat.cast_one, mul_one] at h2
  refine le_trans ?_ (h1.trans (add_le_add_left (add_le_add_right h2 _) _))
  unfold Coins.Spec.part
  rw [avg_draws_eq P fl S.k p.n db.numRows hk hM (fun r => if WrongFrom S aesctr p db F index r then 1 else 0)]
  refine avg_mono (fun x => ?_)
  split
  · rename_i h
    obtain ⟨c, b, e1, e2, e3⟩ := h
    rw [made_ok e1] at e2
    exact le_of_eq (indicator_true ⟨b, e2, e3⟩).symm
  · exact indicator_nonneg _

/-- The bound on what the server sees, for either scheme. -/
theorem seen_le {fl : ℚ → ℚ} (hf : Nearest fl) (aesctr : List Byte → Nat → Byte) (P : Past) {w k : Nat} (hk : k ≤ 16)
    {S : Scheme w} (hS : S.k = k) (hw : 256 ^ k = 2 ^ w) {lo hi : Int} {nz : Int → Int} (p : Params) (G : Good S lo hi nz p.b)
    (d : Nat) (hd : lo + hi = d) (hnz : ∀ g, g - 1 ≤ nz g ∧ nz g ≤ g) (h0 : nz 0 = 0) (hlo : 0 ≤ lo) (hhi : 0 ≤ hi)
    (db : Db w) (hp : Published S aesctr p.n db) (hpar : ParamsFor p db) (F : List Byte → Res (List Byte))
    (i i' : Nat) (hi1 : i < db.numRows * db.numColumns) (hi2 : i' < db.numRows * db.numColumns)
    (hb : ∀ x : Int, |x| < 84 * (db.numRows : Int) → -lo ≤ x ∧ x ≤ hi) (hM : 16 + k * p.n ≤ P.M)
    (D : Option (Res (List Byte) × Res Unit) → ℚ) (hD : IsTest D) (c : Nat) (hc : 4 ≤ c) (hN : c * db.numRows ≤ P.N) :
    |seen P fl k S aesctr p db F i D - seen P fl k S aesctr p db F i' D| ≤
      hintGap (fun x : Sample k p.n P.N => secretVector S aesctr p nz (List.ofFn x.1) (noiseFrom fl db.numRows (List.ofFn x.2)))
        (toleranceOf fl k p.n S p.b db nz P.N)
        (seeTest S db F (multiplierOf w k) (i / db.numColumns) (fun x => D (some x))) +
      hintGap (fun x : Sample k p.n P.N => secretVector S aesctr p nz (List.ofFn x.1) (noiseFrom fl db.numRows (List.ofFn x.2)))
        (toleranceOf fl k p.n S p.b db nz P.N)
        (seeTest S db F (multiplierOf w k) (i' / db.numColumns) (fun x => D (some x))) +
      lweGap (fun x : Sample k p.n P.N => secretVector S aesctr p nz (List.ofFn x.1) (noiseFrom fl db.numRows (List.ofFn x.2)))
        (hitTest S db F d (Finset.range db.numColumns) (multiplierOf w k) (i / db.numColumns)) +
      lweGap (fun x : Sample k p.n P.N => secretVector S aesctr p nz (List.ofFn x.1) (noiseFrom fl db.numRows (List.ofFn x.2)))
        (hitTest S db F d (Finset.range db.numColumns) (multiplierOf w k) (i' / db.numColumns)) +
      2 * (2 * db.numColumns / 2 ^ (38 * db.numRows)) + 2 * (db.numColumns * (2 * (2 * d + 1) * (1 / 2 ^ w))) +
      db.numRows * (11 / 10 * (97 / 100) ^ c) := by
  classical
  subst hS
  have h1 := lwe_reaction aesctr p G d hd db (fun τ : Fin S.k → Byte => List.ofFn τ)
    (fun x : Sample S.k p.n P.N => List.ofFn x.1) (fun x => noiseFrom fl db.numRows (List.ofFn x.2))
    (fun τ x => setup_made hp hpar fl _ _ _) F (1 / 2 ^ w) (spread_bytes w S.k hw) i i' hi1 hi2 (fun x => D (some x))
    (fun x => hD _)
  have h2 := overflow_le hf db hp.valid lo hi nz hnz h0 hlo hhi hb (Finset.range db.numColumns) P.N (A := Fin (S.k * p.n) → Byte)
  rw [Finset.card_range] at h2
  have h3 : avg (fun x : (Fin S.k → Byte) × Sample S.k p.n P.N =>
      if ∃ gs rest, gaussSamples fl db.numRows (List.ofFn x.2.2) = ok (gs, rest) then (0 : ℚ) else 1)
      ≤ db.numRows * (11 / 10 * (97 / 100) ^ c) := by
    obtain ⟨q, -, h⟩ := C104_noise fl hf
    refine le_trans ?_ ((h c P.N hc).2 db.numRows hN).1
    refine (avg_snd_le (fun x : Sample S.k p.n P.N =>
      if ∃ gs rest, gaussSamples fl db.numRows (List.ofFn x.2) = ok (gs, rest) then (0 : ℚ) else 1)
      (fun x => by positivity)).trans ?_
    refine (avg_snd_le (fun W : Fin P.N → BitVec 64 =>
      if ∃ gs rest, gaussSamples fl db.numRows (List.ofFn W) = ok (gs, rest) then (0 : ℚ) else 1)
      (fun x => by positivity)).trans (le_of_eq ?_)
    unfold Gauss.Spec.part
    refine avg_congr (fun W => ?_)
    by_cases hh : ∃ gs rest, gaussSamples fl db.numRows (List.ofFn W) = ok (gs, rest)
    · rw [if_pos hh, if_neg (not_not.2 hh)]
    · rw [if_neg hh, if_pos hh]
  -- what a client would show that makes up for missing noise
  let V : Nat → (Fin S.k → Byte) × Sample S.k p.n P.N → ℚ := fun i x =>
    D (some (view S aesctr p db F i ⟨List.ofFn x.1, List.ofFn x.2.1, noiseFrom fl db.numRows (List.ofFn x.2.2)⟩))
  have h4 : ∀ i, seen P fl S.k S aesctr p db F i D = avg (fun x : (Fin S.k → Byte) × Sample S.k p.n P.N =>
      D (sees S aesctr p db F i (made fl db.numRows x.1 x.2.1 (List.ofFn x.2.2)))) := fun i =>
    avg_draws_eq P fl S.k p.n db.numRows hk hM (fun r => D (sees S aesctr p db F i r))
  have h5 : ∀ a b : Nat, seen P fl S.k S aesctr p db F a D - seen P fl S.k S aesctr p db F b D ≤
      (avg (V a) - avg (V b)) + db.numRows * (11 / 10 * (97 / 100) ^ c) := by
    intro a b
    rw [h4 a, h4 b]
    have h6 : avg (fun x : (Fin S.k → Byte) × Sample S.k p.n P.N =>
        D (sees S aesctr p db F a (made fl db.numRows x.1 x.2.1 (List.ofFn x.2.2))) + V b x) ≤
        avg (fun x : (Fin S.k → Byte) × Sample S.k p.n P.N =>
        D (sees S aesctr p db F b (made fl db.numRows x.1 x.2.1 (List.ofFn x.2.2))) + (V a x +
          if ∃ gs rest, gaussSamples fl db.numRows (List.ofFn x.2.2) = ok (gs, rest) then (0 : ℚ) else 1)) := by
      refine avg_mono (fun x => ?_)
      split
      · rename_i hh
        obtain ⟨gs, rest, hg⟩ := hh
        have hm : made fl db.numRows x.1 x.2.1 (List.ofFn x.2.2) = ok ⟨List.ofFn x.1, List.ofFn x.2.1, noiseFrom fl db.numRows (List.ofFn x.2.2)⟩ := by
          unfold made noiseFrom
          rw [hg]
          rfl
        rw [hm]
        show V a x + V b x ≤ V b x + (V a x + 0)
        linarith
      · rename_i hh
        have hm : ∀ i, sees S aesctr p db F i (made fl db.numRows x.1 x.2.1 (List.ofFn x.2.2)) = none := by
          intro i
          cases hr : made fl db.numRows x.1 x.2.1 (List.ofFn x.2.2) with
          | ok r =>
            exfalso
            unfold made at hr
            obtain ⟨r', h, -⟩ := bind_eq_ok.1 hr
            exact hh ⟨r'.1, r'.2, h⟩
          | err e => rfl
          | crash e => rfl
        rw [hm, hm]
        have b1 := (hD (some (view S aesctr p db F b ⟨List.ofFn x.1, List.ofFn x.2.1, noiseFrom fl db.numRows (List.ofFn x.2.2)⟩))).2
        have b2 := (hD (some (view S aesctr p db F a ⟨List.ofFn x.1, List.ofFn x.2.1, noiseFrom fl db.numRows (List.ofFn x.2.2)⟩))).1
        show D none + V b x ≤ D none + (V a x + 1)
        have b3 : V b x ≤ 1 := b1
        have b4 : 0 ≤ V a x := b2
        linarith
    rw [← avg_add, ← avg_add, ← avg_add] at h6
    linarith
  have h6 : |avg (V i) - avg (V i')| ≤ _ := h1.trans (add_le_add_left (add_le_add_right
    (mul_le_mul_of_nonneg_left h2 (by norm_num : (0 : ℚ) ≤ 2)) _) _)
  have h7 := abs_le.1 h6
  have h8 := h5 i i'
  have h9 := h5 i' i
  refine le_trans (b := |avg (V i) - avg (V i')| + db.numRows * (11 / 10 * (97 / 100) ^ c)) ?_
    (add_le_add_left h6 _)
  rw [abs_le]
  have a1 := le_abs_self (avg (V i) - avg (V i'))
  have a2 := neg_abs_le (avg (V i) - avg (V i'))
  constructor <;> linarith

theorem C132_holds : C132_Statement := by
  intro fl hf aesctr P F
  constructor
  · intro db index hp hR hi hM
    have hb : (paramsWithDatabaseSize db.numRows db.numColumns).b.toNat = 84 * db.numRows := computeB_toNat _ hR
    have hpos : 0 < db.numRows := Nat.pos_of_ne_zero (fun h => by rw [h] at hi; omega)
    have h := wrong_le (k := 4) (S := lwe32) hf aesctr P (by omega) rfl (by norm_num)
      (paramsWithDatabaseSize db.numRows db.numColumns) (good32 _ (by rw [hb]; omega)) (168 * db.numRows - 2)
      (by rw [hb]; omega) (fun g => ⟨by simp, by simp⟩) rfl (by rw [hb]; omega) (by rw [hb]; omega) db hp ⟨rfl, rfl, rfl⟩ F index hi
      (fun x hx => by rw [hb]; have := abs_lt.1 hx; omega) (by show 16 + 4 * 1100 ≤ P.M; omega)
    rw [Nat.cast_sub (by omega), Nat.cast_sub (by omega)] at h
    push_cast at h
    refine h.trans (le_of_eq ?_)
    congr 1
    ring
  · intro db index hp hR hi hM
    have hb : (paramsWithDatabaseSize128 db.numRows db.numColumns).b.toNat = 84 * db.numRows := computeB_toNat _ (by omega)
    have hpos : 0 < db.numRows := Nat.pos_of_ne_zero (fun h => by rw [h] at hi; omega)
    have h := wrong_le (k := 16) (S := lwe128) hf aesctr P (by omega) rfl (by norm_num)
      (paramsWithDatabaseSize128 db.numRows db.numColumns) (good128 _ (by rw [hb]; omega)) (168 * db.numRows)
      (by rw [hb]; omega) (fun g => by unfold noise128; split <;> omega) rfl (by rw [hb]; omega) (by rw [hb]; omega) db hp
      ⟨rfl, rfl, rfl⟩ F index hi
      (fun x hx => by rw [hb]; have := abs_lt.1 hx; omega) (by show 16 + 16 * 4800 ≤ P.M; omega)
    push_cast at h
    refine h.trans (le_of_eq ?_)
    congr 1
    ring

theorem C133_holds : C133_Statement := by
  intro fl hf aesctr P F D hD c hc
  constructor
  · intro db i i' hp hR hN hi hi' hM
    have hb : (paramsWithDatabaseSize db.numRows db.numColumns).b.toNat = 84 * db.numRows := computeB_toNat _ hR
    have hpos : 0 < db.numRows := Nat.pos_of_ne_zero (fun h => by rw [h] at hi; omega)
    have h := seen_le (k := 4) (S := lwe32) hf aesctr P (by omega) rfl (by norm_num)
      (paramsWithDatabaseSize db.numRows db.numColumns) (good32 _ (by rw [hb]; omega)) (168 * db.numRows - 2)
      (by rw [hb]; omega) (fun g => ⟨by simp, by simp⟩) rfl (by rw [hb]; omega) (by rw [hb]; omega) db hp ⟨rfl, rfl, rfl⟩ F i i' hi hi'
      (fun x hx => by rw [hb]; have := abs_lt.1 hx; omega) (by show 16 + 4 * 1100 ≤ P.M; omega) D hD c hc hN
    rw [Nat.cast_sub (by omega), Nat.cast_sub (by omega)] at h
    push_cast at h
    refine h.trans (le_of_eq ?_)
    refine congrArg₂ (· + ·) (congrArg₂ (· + ·) (congrArg₂ (· + ·) rfl ?_) ?_) rfl <;> ring
  · intro db i i' hp hR hN hi hi' hM
    have hb : (paramsWithDatabaseSize128 db.numRows db.numColumns).b.toNat = 84 * db.numRows := computeB_toNat _ (by omega)
    have hpos : 0 < db.numRows := Nat.pos_of_ne_zero (fun h => by rw [h] at hi; omega)
    have h := seen_le (k := 16) (S := lwe128) hf aesctr P (by omega) rfl (by norm_num)
      (paramsWithDatabaseSize128 db.numRows db.numColumns) (good128 _ (by rw [hb]; omega)) (168 * db.numRows)
      (by rw [hb]; omega) (fun g => by unfold noise128; split <;> omega) rfl (by rw [hb]; omega) (by rw [hb]; omega) db hp
      ⟨rfl, rfl, rfl⟩ F i i' hi hi'
      (fun x hx => by rw [hb]; have := abs_lt.1 hx; omega) (by show 16 + 16 * 4800 ≤ P.M; omega) D hD c hc hN
    push_cast at h
    refine h.trans (le_of_eq ?_)
    refine congrArg₂ (· + ·) (congrArg₂ (· + ·) (congrArg₂ (· + ·) rfl ?_) ?_) rfl <;> ring

/-- A failed retrieval from an honest server is a wrong bit, unless the noise is too large. -/
theorem fails_le {fl : ℚ → ℚ} (hf : Nearest fl) (aesctr : List Byte → Nat → Byte) (P : Past) {w k : Nat} (hk : k ≤ 16)
    {S : Scheme w} {lo hi : Int} {nz : Int → Int} (p : Params) (G : Good S lo hi nz p.b)
    (hnz : ∀ g, g - 1 ≤ nz g ∧ nz g ≤ g) (h0 : nz 0 = 0) (hlo : 0 ≤ lo) (hhi : 0 ≤ hi)
    (db : Db w) (hp : Published S aesctr p.n db) (hpar : ParamsFor p db) (index : Nat)
    (hidx : index < db.numRows * db.numColumns)
    (hb : ∀ x : Int, |x| < 84 * (db.numRows : Int) → -lo ≤ x ∧ x ≤ hi) (hM : 16 + k * p.n ≤ P.M) :
    part P fl k p.n db.numRows (Fails S aesctr p db index) ≤
      part P fl k p.n db.numRows (WrongFrom S aesctr p db (answerBytes S db) index) +
        2 * db.numColumns / 2 ^ (38 * db.numRows) := by
  classical
  have h2 := overflow_le hf db hp.valid lo hi nz hnz h0 hlo hhi hb (Finset.range db.numColumns) P.N (A := Fin (k * p.n) → Byte)
  rw [Finset.card_range] at h2
  have h3 := (avg_snd_le (T := Fin k → Byte) (fun x : Sample k p.n P.N =>
    indicator (Overflow lo hi nz db (Finset.range db.numColumns) (noiseFrom fl db.numRows (List.ofFn x.2))))
    (fun x => indicator_nonneg _)).trans h2
  refine le_trans ?_ (add_le_add_right h3 _)
  unfold Coins.Spec.part
  rw [avg_draws_eq P fl k p.n db.numRows hk hM (fun r => if Fails S aesctr p db index r then 1 else 0),
    avg_draws_eq P fl k p.n db.numRows hk hM (fun r => if WrongFrom S aesctr p db (answerBytes S db) index r then 1 else 0),
    avg_add]
  refine avg_mono (fun x => ?_)
  by_cases hF : Fails S aesctr p db index (made fl db.numRows x.1 x.2.1 (List.ofFn x.2.2))
  · rw [if_pos hF]
    by_cases hO : Overflow lo hi nz db (Finset.range db.numColumns) (noiseFrom fl db.numRows (List.ofFn x.2.2))
    · rw [indicator_true hO]
      have : (0 : ℚ) ≤ if WrongFrom S aesctr p db (answerBytes S db) index (made fl db.numRows x.1 x.2.1 (List.ofFn x.2.2))
        then 1 else 0 := by positivity
      linarith
    · rw [indicator_false hO, if_pos, add_zero]
      obtain ⟨c, e1, e2⟩ := hF
      have e3 := made_ok e1
      have hs : Setup S aesctr p db c := by
        rw [e3]
        exact setup_made hp hpar fl _ _ _
      have hcol : ∀ j, j < db.numColumns → S.inRange p.b (BitVec.ofInt w
          (columnNoise (fun r => nz (c.noise.getD r 0)) db.matrix db.numRows j)) = true := by
        intro j hj
        by_contra hno
        refine hO ⟨j, Finset.mem_range.2 hj, fun hh => hno ((G.range _).2 ⟨_, ?_, ?_, rfl⟩)⟩
        · rw [e3]; exact hh.1
        · rw [e3]; exact hh.2
      have hr := (retrieve_exact aesctr p G db c hs index hidx).1 (fun j hj => by
        unfold Lwe.seen
        rcases bit_cases (w := w) hp.valid.bin (index / db.numColumns) j with ⟨-, e⟩ | ⟨-, e⟩
        · left
          rw [e, mul_zero, add_zero]
          exact hcol j hj
        · right
          rw [e, mul_one, add_sub_cancel_right]
          exact hcol j hj)
      refine ⟨c, _, e1, hr, fun hh => e2 ?_⟩
      rw [hr, hh]
  · rw [if_neg hF]
    have a1 := indicator_nonneg (Overflow lo hi nz db (Finset.range db.numColumns) (noiseFrom fl db.numRows (List.ofFn x.2.2)))
    have : (0 : ℚ) ≤ if WrongFrom S aesctr p db (answerBytes S db) index (made fl db.numRows x.1 x.2.1 (List.ofFn x.2.2))
        then 1 else 0 := by positivity
    linarith

/-- C132: up to a factor of four the bound is met, for the 32-bit client. Not even a lie is needed: a stored one is read
from an honest server as a zero for one multiplier in `2^32/(168·rows - 1)`. -/
theorem C132_attained32 {fl : ℚ → ℚ} (hf : Nearest fl) (aesctr : List Byte → Nat → Byte) (P : Past) (db : Db 32) (index : Nat)
    (hp : Published lwe32 aesctr 1100 db) (hR : 84 * db.numRows ≤ 2 ^ 31) (hi : index < db.numRows * db.numColumns)
    (hM : 5000 ≤ P.M) (h1 : storedBit db.matrix (index / db.numColumns) (index % db.numColumns) ≠ 0) (c : Nat) (hc : 4 ≤ c)
    (hN : c * db.numRows ≤ P.N) :
    (168 * db.numRows - 1) / 2 ^ 32 * (1 - db.numRows * (11 / 10 * (97 / 100) ^ c) - 2 * db.numColumns / 2 ^ (38 * db.numRows))
        - 2 * db.numColumns / 2 ^ (38 * db.numRows) ≤
      part P fl 4 1100 db.numRows
        (WrongFrom lwe32 aesctr (paramsWithDatabaseSize db.numRows db.numColumns) db (answerBytes lwe32 db) index) := by
  have h := (((C106_holds fl hf aesctr P).1 db index hp hR hi hM).2 c hc hN)
  rw [if_neg h1] at h
  have hb : (paramsWithDatabaseSize db.numRows db.numColumns).b.toNat = 84 * db.numRows := computeB_toNat _ (by omega)
  have hpos : 0 < db.numRows := Nat.pos_of_ne_zero (fun h => by rw [h] at hi; omega)
  have h' := fails_le (k := 4) (S := lwe32) hf aesctr P (by omega)
      (paramsWithDatabaseSize db.numRows db.numColumns) (good32 _ (by rw [hb]; omega))
      (fun g => ⟨by simp, by simp⟩) rfl (by rw [hb]; omega) (by rw [hb]; omega) db hp ⟨rfl, rfl, rfl⟩ index hi
      (fun x hx => by rw [hb]; have := abs_lt.1 hx; omega) (by show 16 + 4 * 1100 ≤ P.M; omega)
  exact sub_le_iff_le_add.2 (h.trans h')

/-- C132: up to a factor of four the bound is met, for the 128-bit client. -/
theorem C132_attained128 {fl : ℚ → ℚ} (hf : Nearest fl) (aesctr : List Byte → Nat → Byte) (P : Past) (db : Db 128) (index : Nat)
    (hp : Published lwe128 aesctr 4800 db) (hR : 84 * db.numRows < 2 ^ 32 - 1) (hi : index < db.numRows * db.numColumns)
    (hM : 80000 ≤ P.M) (h1 : storedBit db.matrix (index / db.numColumns) (index % db.numColumns) ≠ 0) (c : Nat) (hc : 4 ≤ c)
    (hN : c * db.numRows ≤ P.N) :
    (168 * db.numRows + 1) / 2 ^ 128 * (1 - db.numRows * (11 / 10 * (97 / 100) ^ c) - 2 * db.numColumns / 2 ^ (38 * db.numRows))
        - 2 * db.numColumns / 2 ^ (38 * db.numRows) ≤
      part P fl 16 4800 db.numRows
        (WrongFrom lwe128 aesctr (paramsWithDatabaseSize128 db.numRows db.numColumns) db (answerBytes lwe128 db) index) := by
  have h := (((C106_holds fl hf aesctr P).2 db index hp hR hi hM).2 c hc hN)
  rw [if_neg h1] at h
  have hb : (paramsWithDatabaseSize128 db.numRows db.numColumns).b.toNat = 84 * db.numRows := computeB_toNat _ (by omega)
  have hpos : 0 < db.numRows := Nat.pos_of_ne_zero (fun h => by rw [h] at hi; omega)
  have h' := fails_le (k := 16) (S := lwe128) hf aesctr P (by omega)
      (paramsWithDatabaseSize128 db.numRows db.numColumns) (good128 _ (by rw [hb]; omega))
      (fun g => by unfold noise128; split <;> omega) rfl (by rw [hb]; omega) (by rw [hb]; omega) db hp ⟨rfl, rfl, rfl⟩ index hi
      (fun x hx => by rw [hb]; have := abs_lt.1 hx; omega) (by show 16 + 16 * 4800 ≤ P.M; omega)
  exact sub_le_iff_le_add.2 (h.trans h')

theorem tail_small (a : ℚ) (ha : 0 ≤ a) : a / 2 ^ (38 * 1024) ≤ a / 2 ^ 200 :=
  div_le_div_of_nonneg_left ha (by positivity) (pow_le_pow_right₀ (by norm_num) (by norm_num))

/-- The hypotheses can be met: a database of 1024 rows and columns, the 32-bit client. Besides solving the LWE problem a
server has a chance of at most one in 6000. -/
example (aesctr : List Byte → Nat → Byte) (data : List Byte) (hd : data.length = 1024 * 1024 / 8 + 1) (P : Past)
    (hM : 5000 ≤ P.M) (F : List Byte → Res (List Byte)) :
    ∃ db fl, createRandomBinary lwe32 aesctr 1100 data 1024 1024 = ok db ∧ Nearest fl ∧
      part P fl 4 1100 1024 (WrongFrom lwe32 aesctr (paramsWithDatabaseSize 1024 1024) db F 777) ≤
        lweGap (instanceOf fl 4 lwe32 aesctr (paramsWithDatabaseSize 1024 1024) id P.N)
          (hitTest lwe32 db F (168 * 1024 - 2) {777} (multiplierOf 32 4) 0) + 1 / 6000 := by
  obtain ⟨fl, hf⟩ := Monitor.nearest_exists
  have hfit : FitsInt 1100 1024 1024 := by unfold FitsInt; norm_num
  obtain ⟨db, h1, h2, h3, h4, h5, -⟩ := C30_random_database aesctr 1100 1024 1024 data hd hfit
  refine ⟨db, fl, h1, hf, ?_⟩
  have h := (C132_holds fl hf aesctr P F).1 db 777 ⟨h2, h5, by rw [h3, h4]; exact hfit⟩ (by rw [h3]; norm_num) (by rw [h3, h4]; norm_num) hM
  rw [h3, h4] at h
  refine h.trans ?_
  rw [add_assoc]
  refine add_le_add_right ?_ _
  have := tail_small 2 (by norm_num)
  refine (add_le_add_left this _).trans ?_
  norm_num

/-- The same with the 128-bit client: what a server sees tells two entries apart with a chance of at most `2^-90`, besides
solving the LWE problem, when 3000 random words are there for each noise value. -/
example (aesctr : List Byte → Nat → Byte) (data : List Byte) (hd : data.length = 1024 * 1024 / 8 + 1) (P : Past)
    (hM : 80000 ≤ P.M) (hN : 3000 * 1024 ≤ P.N) (F : List Byte → Res (List Byte))
    (D : Option (Res (List Byte) × Res Unit) → ℚ) (hD : IsTest D) :
    ∃ db fl, createRandomBinary lwe128 aesctr 4800 data 1024 1024 = ok db ∧ Nearest fl ∧
      (let p := paramsWithDatabaseSize128 1024 1024
      let v := instanceOf fl 16 lwe128 aesctr p noise128 P.N
      let near := toleranceOf fl 16 4800 lwe128 p.b db noise128 P.N
      let see := fun i => hintGap v near (seeTest lwe128 db F (multiplierOf 128 16) (i / 1024) (fun x => D (some x)))
      let hit := fun i => lweGap v (hitTest lwe128 db F (168 * 1024) (Finset.range 1024) (multiplierOf 128 16) (i / 1024))
      |Spec.seen P fl 16 lwe128 aesctr p db F 777 D - Spec.seen P fl 16 lwe128 aesctr p db F 123456 D| ≤
        see 777 + see 123456 + hit 777 + hit 123456 + 1 / 2 ^ 90) := by
  obtain ⟨fl, hf⟩ := Monitor.nearest_exists
  have hfit : FitsInt 4800 1024 1024 := by unfold FitsInt; norm_num
  obtain ⟨db, h1, h2, h3, h4, h5, -⟩ := C32_random_database aesctr 4800 1024 1024 data hd hfit
  refine ⟨db, fl, h1, hf, ?_⟩
  have h := (C133_holds fl hf aesctr P F D hD 3000 (by norm_num)).2 db 777 123456 ⟨h2, h5, by rw [h3, h4]; exact hfit⟩
    (by rw [h3]; norm_num) (by rw [h3]; exact hN) (by rw [h3, h4]; norm_num) (by rw [h3, h4]; norm_num) hM
  rw [h3, h4] at h
  refine h.trans ?_
  rw [add_assoc, add_assoc]
  refine add_le_add_right ?_ _
  have a1 := tail_small (4 * (1024 : Nat)) (by positivity)
  have a2 : ((97 : ℚ) / 100) ^ 3000 ≤ 1 / 2 ^ 120 := by
    rw [show 3000 = 25 * 120 from rfl, pow_mul, ← one_div_pow]
    exact pow_le_pow_left₀ (by positivity) (by norm_num) 120
  refine (add_le_add a1 (add_le_add (le_refl _) (mul_le_mul_of_nonneg_left (mul_le_mul_of_nonneg_left a2 (by norm_num)) (by positivity)))).trans ?_
  norm_num

end Verif.LweReal
